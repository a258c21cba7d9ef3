import Verif.Pot.Skyrme
import Verif.Kin.Props
import Mathlib.Tactic.Tauto
/-!
C129: forces from the lattices and the change of the momenta.
-/
namespace Verif.Pot
open Verif.Kin Verif.Emt

/-! ### Specification -/

/-- The value of a lattice at a place; `none`: no lattice or outside. -/
def known (l : Option (V3 → Option Force)) (r : V3) : Option Force :=
  match l with
  | none => none
  | some f => f r

/-- The nuclear forces per unit of scale at a place: those of the lattices if all that are needed are there and
contain the place; otherwise from the list of particles if this is wanted outside of the lattices, otherwise none. -/
noncomputable def fieldsAt (P : Pars) (E : Env) (r : V3) : Except Err (Option (Force × Force)) :=
  let needB := P.skyrme || P.vdf
  if (needB → (known E.fb r).isSome) ∧ (P.symmetry → (known E.fi r).isSome) then
    .ok (some (if needB then (known E.fb r).getD noForce else noForce,
      if P.symmetry then (known E.fi r).getD noForce else noForce))
  else if P.outside then (E.all r).map some
  else .ok none

/-- The Lorentz force of an electric and a magnetic part for a velocity. -/
def lorentz (f : Force) (v : V3) : V3 := f.1.add (v.cross f.2)

/-- The force on a particle: only on baryons and nuclei. -/
noncomputable def theForce (P : Pars) (E : Env) (p : Part) : Except Err (Option V3) := do
  if !(Pdg.isBaryon p.pdg || Pdg.isNucleus p.pdg) then .ok none
  else
    let o ← fieldsAt P E p.pos.vec
    match o with
    | none => .ok none
    | some f => do
      let v := p.mom.velocity
      let iso := (lorentz f.2 v).smul (((forceScale p.pdg).2 : ℝ) * p.iso3)
      let bary ← (if P.momDep then (E.grad p).map fun g => g.neg.smul (forceScale p.pdg).1
        else .ok ((lorentz f.1 v).smul (forceScale p.pdg).1))
      if P.coulomb then
        match E.em with
        | none => .error .null
        | some em => match em p.pos.vec with
          | none => .ok (some (bary.add iso))
          | some f => .ok (some ((bary.add iso).add ((lorentz f v).smul
              (hbarc * (Pdg.charge p.pdg : Int) * elementaryCharge))))
      else .ok (some (bary.add iso))

/-! ### Proofs -/

theorem lookup_off {go used : Bool} (h : (go && used) = false) (l : Option (V3 → Option Force)) (r : V3) (old : Force) :
    lookup go used l r old = .ok (go, old) := by
  unfold lookup; rw [h]; rfl

theorem lookup_on (f : V3 → Option Force) (r : V3) (old : Force) :
    lookup true true (some f) r old = .ok (match f r with | some v => (true, v) | none => (false, noForce)) := by
  unfold lookup valueAt
  simp only [Bool.and_self, if_true, bind_ok]
  cases f r <;> rfl

theorem looks (P : Pars) (E : Env) (s : Vars) (r : V3) :
    ∃ a b c, lookup ((if P.skyrme then E.fb.isSome else true) && (if P.vdf then E.fb.isSome else true) &&
        (if P.symmetry then E.fi.isSome else true)) P.skyrme E.fb r s.fb = .ok a ∧
      lookup a.1 P.vdf E.fb r a.2 = .ok b ∧ lookup b.1 P.symmetry E.fi r s.fi = .ok c ∧
      (c.1 = true ↔ (((P.skyrme || P.vdf) = true → (known E.fb r).isSome) ∧
        (P.symmetry = true → (known E.fi r).isSome))) ∧
      (c.1 = true →
        (if !P.skyrme && !P.vdf then noForce else b.2) =
          (if P.skyrme || P.vdf then (known E.fb r).getD noForce else noForce) ∧
        (if !P.symmetry then noForce else c.2) = (if P.symmetry then (known E.fi r).getD noForce else noForce)) := by
  rcases P with ⟨sk, sy, co, vd, md, ou, pa, pb, pt, ps, pg, psat, pterms, pc, pl⟩
  rcases E with ⟨fb, fi, em, all, grad⟩
  simp only
  cases fb with
  | none =>
    cases fi with
    | none =>
      cases sk <;> cases vd <;> cases sy <;>
        refine ⟨_, _, _, lookup_off rfl _ _ _, lookup_off rfl _ _ _, lookup_off rfl _ _ _, ?_, ?_⟩ <;> simp [known]
    | some gi =>
      cases sk <;> cases vd <;> cases sy <;> cases hi : gi r <;>
        simp [-Prod.exists, lookup, valueAt, known, hi, bind_ok]
  | some gb =>
    cases hb : gb r <;> cases fi with
    | none =>
      cases sk <;> cases vd <;> cases sy <;> simp [-Prod.exists, lookup, valueAt, known, hb, bind_ok]
    | some gi =>
      cases sk <;> cases vd <;> cases sy <;> cases hi : gi r <;>
        simp [-Prod.exists, lookup, valueAt, known, hi, hb, bind_ok]

/-- **C129.** The force on a particle depends only on the surroundings and the particle: not on what was computed for
the particles before it in the loop. -/
theorem C129_force (P : Pars) (E : Env) (s : Vars) (p : Part) :
    (forceOn P E s p).map (·.1) = theForce P E p := by
  unfold forceOn theForce
  by_cases hh : (Pdg.isBaryon p.pdg || Pdg.isNucleus p.pdg) = true
  swap
  · simp only [hh]; rfl
  obtain ⟨a, b, c, h1, h2, h3, h4, h5⟩ := looks P E s p.pos.vec
  simp only [hh, h1, h2, h3, bind_ok, Bool.not_true, Bool.false_eq_true, if_false]
  unfold fieldsAt
  simp only
  by_cases hc : c.1 = true
  · rw [if_pos (h4.1 hc)]
    obtain ⟨e1, e2⟩ := h5 hc
    simp only [hc, e1, e2, Bool.not_true, Bool.false_and, Bool.false_eq_true, if_false, bind_ok]
    generalize (if (P.skyrme || P.vdf) = true then (known E.fb p.pos.vec).getD noForce else noForce) = FB
    generalize (if P.symmetry = true then (known E.fi p.pos.vec).getD noForce else noForce) = FI
    unfold valueAt lorentz
    cases P.momDep <;> cases P.coulomb <;> cases E.grad p <;> cases E.em with
    | none => rfl
    | some em => cases h : em p.pos.vec <;> simp [Except.map, bind_ok, h] <;> rfl
  · rw [if_neg (fun h => hc (h4.2 h))]
    rw [Bool.not_eq_true] at hc
    cases ho : P.outside
    · simp only [hc, Bool.not_false, Bool.and_self, if_true, Bool.false_eq_true, if_false, bind_ok, Except.map]
    · simp only [hc, Bool.not_false, Bool.not_true, Bool.and_false, Bool.false_eq_true, if_false, if_true]
      cases E.all p.pos.vec with
      | error e => rfl
      | ok F =>
        simp only [Except.map, bind_ok]
        unfold valueAt lorentz
        cases P.momDep <;> cases P.coulomb <;> cases E.grad p <;> cases E.em with
        | none => rfl
        | some em => cases h : em p.pos.vec <;> simp [bind_ok, h] <;> rfl

/-- **C129.** The new particle list: each particle is changed on its own. -/
theorem C129_update (P : Pars) (E : Env) (dt : ℝ) (s : Vars) (ps : List Part) :
    updateMomenta P E dt s ps = ps.mapM (fun p => do
      let f ← theForce P E p
      match f with
      | none => .ok p
      | some F => kick dt p F) := by
  induction ps generalizing s with
  | nil => rfl
  | cons p ps ih =>
    rw [updateMomenta, List.mapM_cons]
    unfold updateOne
    rw [← C129_force P E s p]
    cases forceOn P E s p with
    | error e => rfl
    | ok f =>
      simp only [Except.map, bind_ok]
      cases hf : f.1 with
      | none => simp only [bind_ok, ih]; rfl
      | some F =>
        simp only
        cases kick dt p F with
        | error e => rfl
        | ok q => simp only [bind_ok, ih]; rfl

theorem mapM_length {α β : Type} (f : α → Except Err β) (l : List α) {l' : List β} (h : l.mapM f = .ok l') :
    l'.length = l.length ∧ ∀ (i : Nat) (a : α) (b : β), l[i]? = some a → l'[i]? = some b → f a = .ok b := by
  induction l generalizing l' with
  | nil => cases h; simp
  | cons a l ih =>
    rw [List.mapM_cons] at h
    cases ha : f a with
    | error e => rw [ha] at h; cases h
    | ok b =>
      rw [ha] at h
      cases hl : l.mapM f with
      | error e => rw [hl] at h; cases h
      | ok bs =>
        rw [hl] at h
        cases h
        obtain ⟨h1, h2⟩ := ih hl
        refine ⟨by simp [h1], fun i x y hx hy => ?_⟩
        cases i with
        | zero => simp at hx hy; subst hx hy; exact ha
        | succ i => simp at hx hy; exact h2 i x y hx hy

/-- **C129.** Effects on a particle: a meson or lepton is unchanged, also if it is charged; otherwise type and position
are kept, the momentum changes by force times time step (or not at all where no force is known) and the invariant
mass is that of before. -/
theorem C129_effect (P : Pars) (E : Env) (dt : ℝ) (s : Vars) (ps qs : List Part)
    (h : updateMomenta P E dt s ps = .ok qs) :
    qs.length = ps.length ∧ ∀ (i : Nat) (p q : Part), ps[i]? = some p → qs[i]? = some q →
      q.pdg = p.pdg ∧ q.pos = p.pos ∧
      ((Pdg.isBaryon p.pdg || Pdg.isNucleus p.pdg) = false → q = p) ∧
      (theForce P E p = .ok none → q = p) ∧
      ∀ F, theForce P E p = .ok (some F) →
        q.mom.vec = p.mom.vec.add (F.smul dt) ∧ 0 ≤ q.mom.t ∧
        (reallySmall ≤ p.pole → 0 ≤ minkowski p.mom p.mom → minkowski q.mom q.mom = minkowski p.mom p.mom) := by
  rw [C129_update] at h
  obtain ⟨h1, h2⟩ := mapM_length _ ps h
  refine ⟨h1, fun i p q hp hq => ?_⟩
  have := h2 i p q hp hq
  cases hf : theForce P E p with
  | error e => rw [hf] at this; cases this
  | ok o =>
    rw [hf] at this
    cases o with
    | none =>
      cases this
      exact ⟨rfl, rfl, fun _ => rfl, fun _ => rfl, fun F hF => by cases hF⟩
    | some F =>
      simp only [bind_ok] at this
      unfold kick at this
      cases hm : effMass p with
      | error e => rw [hm] at this; cases this
      | ok m =>
        rw [hm] at this
        cases this
        refine ⟨rfl, rfl, fun hn => ?_, fun hc => (by cases hc), fun F' hF => ?_⟩
        · unfold theForce at hf
          rw [hn] at hf
          cases hf
        · cases hF
          refine ⟨rfl, Real.sqrt_nonneg _, fun hpole hpos => ?_⟩
          have hsq : m * m = minkowski p.mom p.mom := by
            unfold effMass at hm
            rw [if_neg (not_lt.2 hpole)] at hm
            unfold abs4 at hm
            have e : p.mom.sqr = minkowski p.mom p.mom := by
              unfold V4.sqr V4.dot V4.vec V3.dot minkowski; ring
            rw [e] at hm
            split_ifs at hm
            cases hm
            rw [abs_of_nonneg hpos, Real.mul_self_sqrt hpos]
          unfold Coll.onShell V4.mk' minkowski V3.dot
          simp only
          generalize hv : p.mom.vec.add (V3.smul F dt) = w
          rw [Real.mul_self_sqrt (by nlinarith [mul_self_nonneg w.x, mul_self_nonneg w.y, mul_self_nonneg w.z])]
          rw [hsq]
          unfold minkowski
          ring

/-! ### Lattices -/

/-- **C129.** With the Skyrme potential each node gets the force and the four-potential of its density and current, and
with the symmetry potential the node of isospin as well: the same functions as without a lattice. -/
theorem C129_node (P : Pars) (hs : P.skyrme = true) (printB : Bool) (B I : Node) (c c' : Cell)
    (h : skyrmeNode P (created P true printB) B I c = .ok c') :
    skyrmeForce P B.rho B.gradJ0 B.djdt B.curl = .ok c'.fb ∧
    (∃ u, skyrmePot B.rho P.a P.b P.tau = .ok u ∧
      c'.ub = if |B.rho| > verySmall then smul4 B.j (u / B.rho) else ⟨0, 0, 0, 0⟩) ∧
    (P.symmetry = true → symmetryForce P I B = .ok c'.fi) ∧ (P.symmetry = false → c'.fi = c.fi ∧ c'.ui = c.ui) := by
  unfold skyrmeNode created at h
  simp only [hs, if_true, Bool.true_or, Bool.true_and, Bool.not_true, Bool.false_eq_true, if_false] at h
  cases hu : skyrmePot B.rho P.a P.b P.tau with
  | error e => rw [hu] at h; cases h
  | ok u =>
    cases hf : skyrmeForce P B.rho B.gradJ0 B.djdt B.curl with
    | error e => rw [hu, hf] at h; cases h
    | ok f =>
      rw [hu, hf] at h
      simp only [bind_ok] at h
      have eU : smul4 (flow B) u = if |B.rho| > verySmall then smul4 B.j (u / B.rho) else ⟨0, 0, 0, 0⟩ := by
        unfold flow
        split_ifs
        · simp only [smul4]; congr 1 <;> ring
        · simp [smul4]
      cases hsy : P.symmetry with
      | false =>
        rw [hsy] at h
        cases h
        exact ⟨rfl, ⟨u, rfl, eU⟩, fun hc => (by cases hc), fun _ => ⟨rfl, rfl⟩⟩
      | true =>
        rw [hsy] at h
        simp only [Bool.and_self, if_true] at h
        cases hw : symmetryPot P I.rho B.rho with
        | error e => rw [hw] at h; cases h
        | ok w =>
          cases hg : symmetryForce P I B with
          | error e => rw [hw, hg] at h; cases h
          | ok g =>
            rw [hw, hg] at h
            cases h
            exact ⟨rfl, ⟨u, rfl, eU⟩, fun _ => rfl, fun hc => by cases hc⟩

/-- **C129 is false for a symmetry potential alone**: with a lattice its nodes are never updated (the lattice of baryon
density is not created), and if the baryon density is printed on the lattice a null pointer is dereferenced. -/
theorem C129_symmetry_false (P : Pars) (h1 : P.skyrme = false) (h2 : P.vdf = false) (h3 : P.symmetry = true)
    (B I : Node) (c : Cell) :
    skyrmeNode P (created P true false) B I c = .ok c ∧
    skyrmeNode P (created P true true) B I c = .error .null := by
  unfold skyrmeNode created
  simp [h1, h2, h3]

/-- **C129 is false for a Coulomb potential without a lattice**: a null pointer is dereferenced for the first baryon. -/
theorem C129_coulomb_false (P : Pars) (E : Env) (h : P.coulomb = true) (hm : P.momDep = false) (he : E.em = none)
    (p : Part) (hp : (Pdg.isBaryon p.pdg || Pdg.isNucleus p.pdg) = true) (ho : ∃ f, fieldsAt P E p.pos.vec = .ok (some f))
    (ps : List Part) (dt : ℝ) (s : Vars) : updateMomenta P E dt s (p :: ps) = .error .null := by
  obtain ⟨f, hf⟩ := ho
  have e : theForce P E p = .error .null := by
    unfold theForce
    simp only [hp, hf, bind_ok, h, hm, he]
    rfl
  rw [C129_update, List.mapM_cons, e]
  rfl

/-- A proton and a charged pion at rest in a lattice of the baryon force: only the proton is pushed. -/
example : ∃ (P : Pars) (E : Env) (p pi q : Part), updateMomenta P E 1 ⟨noForce, noForce, noForce⟩ [p, pi] = .ok [q, pi] ∧
    theForce P E p = .ok (some ⟨1, 0, 0⟩) ∧ Pdg.charge pi.pdg = 1 ∧ reallySmall ≤ p.pole ∧
    0 ≤ minkowski p.mom p.mom := by
  let P : Pars := ⟨true, false, false, false, false, true, -209.2, 156.4, 1.35, 18, none, 0.16, [], 0, 0⟩
  let E : Env := ⟨some fun _ => some (⟨1, 0, 0⟩, zero3), none, none, fun _ => .error .nan, fun _ => .error .nan⟩
  let p : Part := ⟨0x2212, 1, 1, ⟨1, 0, 0, 0⟩, ⟨0, 0, 0, 0⟩⟩
  let pi : Part := ⟨0x211, 1, 1, ⟨1, 0, 0, 0⟩, ⟨0, 0, 0, 0⟩⟩
  have h1 : theForce P E p = .ok (some ⟨1, 0, 0⟩) := by
    unfold theForce
    have hb : (Pdg.isBaryon p.pdg || Pdg.isNucleus p.pdg) = true := by decide
    have hs : forceScale p.pdg = (1, 1) := by
      rw [C125_scale (by decide : Pdg.isBaryon 0x2212 = true)]
      norm_num [show Pdg.anti 0x2212 = false by decide, show nonStrange 0x2212 = 3 by decide]
    rw [if_neg (by rw [hb]; decide), hs]
    simp [fieldsAt, P, E, p, known, bind_ok, lorentz, noForce, zero3, V3.add, V3.cross, V3.smul]
  have h2 : theForce P E pi = .ok none := by
    unfold theForce
    rw [if_pos (by decide)]
  have hm : effMass p = .ok (Real.sqrt |(1 : ℝ)|) := by
    unfold effMass abs4
    rw [if_neg (by simp only [p]; unfold reallySmall; norm_num), if_pos] <;>
      simp [p, V4.sqr, V4.dot, V4.vec, V3.dot, reallySmall]
    norm_num
  refine ⟨P, E, p, pi, { p with mom := Coll.onShell (Real.sqrt |(1 : ℝ)|) (p.mom.vec.add ((⟨1, 0, 0⟩ : V3).smul 1)) },
    ?_, h1, by decide, ?_, by simp [p, minkowski]⟩
  · rw [C129_update, List.mapM_cons, h1, List.mapM_cons, h2]
    simp only [bind_ok]
    unfold kick
    rw [hm]
    rfl
  · simp only [p]; unfold reallySmall; norm_num

end Verif.Pot
