import Verif.Lat.Model
import Mathlib.Tactic.SplitIfs
import Mathlib.Tactic.Tauto
/-! C158: values printed from lattices belong to the particles at the time of the output. -/
namespace Verif.LatRun

variable {P : Type}

/-! ### Specification -/

/-- The particles after a history. -/
def present (p : P) : List (Op P) → P
  | [] => p
  | .start q :: ops => present q ops
  | .move q :: ops => present q ops
  | .output :: ops => present p ops
  | .step _ q :: ops => present q ops

/-- The particles at the last start of an event or end of a step, before the change of momenta. -/
def stepped (x : Option P) : List (Op P) → Option P
  | [] => x
  | .start q :: ops => stepped (some q) ops
  | .step q _ :: ops => stepped (some q) ops
  | _ :: ops => stepped x ops

/-- The particles at the last end of a step, of this or an earlier event. -/
def stepEnded (x : Option P) : List (Op P) → Option P
  | [] => x
  | .step q _ :: ops => stepEnded (some q) ops
  | _ :: ops => stepEnded x ops

/-- The quantities asked for, in the order in which they are printed. -/
def asked (o : Options) : List Quantity :=
  let th := o.onLattice && (o.vtk || o.full)
  (if o.potentials && o.onLattice && (o.skyrme || o.vdf || (th && o.dens == .baryon)) then [.energy] else []) ++
  (if th && o.rho && o.dens != .none then [.density] else []) ++ (if th && o.tmn then [.tmn] else []) ++
  (if th && o.tmnLandau then [.tmnLandau] else []) ++ (if th && o.vLandau then [.vLandau] else []) ++
  (if o.potentials && o.onLattice && o.coulomb then [.fields] else []) ++ (if th && o.jQBS then [.currents] else [])

/-- The density printed belongs to a potential. -/
def OfPotential (o : Options) : Prop :=
  o.potentials = true ∧ ((o.dens = .baryon ∧ (o.skyrme = true ∨ o.vdf = true)) ∨ (o.dens = .isospin ∧ o.symmetry = true))

/-- The configurations in which a null pointer is used. -/
def Broken (o : Options) : Prop :=
  o.potentials = true ∧ ((o.coulomb = true ∧ o.onLattice = false) ∨
    (o.symmetry = true ∧ o.skyrme = false ∧ o.vdf = false ∧ o.onLattice = true ∧ (o.vtk = true ∨ o.full = true) ∧
      o.dens = .baryon))

/-! ### Invariant -/

/-- A lattice exists exactly if `c`, is updated as given and has these contents if filled every step. -/
def Has (l : Option (Lat P)) (c atOut : Bool) (x : Option P) : Prop :=
  if c then ∃ y, l = some y ∧ y.atOutput = atOut ∧ (atOut = false → y.content = x) else l = none

/-- The invariant of all runs: `x` are the particles of `stepped`, `y` of `stepEnded`. -/
structure Inv (o : Options) (s : State P) (p : P) (x y : Option P) : Prop where
  now : s.now = p
  jB : Has s.jB (o.onLattice && ((o.potentials && (o.skyrme || o.vdf)) || (o.print && o.dens == .baryon)))
    (!(o.potentials && (o.skyrme || o.vdf))) x
  jI3 : Has s.jI3 (o.onLattice && ((o.potentials && o.symmetry) || (o.print && o.dens == .isospin)))
    (!(o.potentials && o.symmetry)) y
  custom : Has s.custom (o.print && o.dens == .other) true none
  tmn : Has s.tmn (o.print && (o.tmn || o.tmnLandau || o.vLandau)) true none
  em : Has s.em (o.onLattice && o.potentials && o.coulomb) false y
  ub : s.ub = (o.onLattice && o.potentials && (o.skyrme || o.vdf))
  jQBS : s.jQBS = (o.print && o.jQBS)

theorem has_update (l : Option (Lat P)) (c a : Bool) (x : Option P) (p : P) (h : Has l c a x) :
    Has (update true p l) c a x ∧ Has (update false p l) c a (some p) := by
  unfold Has at h ⊢
  cases c with
  | false =>
    simp only [Bool.false_eq_true, if_false] at h ⊢
    subst h
    exact ⟨rfl, rfl⟩
  | true =>
    simp only [if_true] at h ⊢
    obtain ⟨y, rfl, rfl, h⟩ := h
    obtain ⟨ya, yc, yb⟩ := y
    cases ya
    · exact ⟨⟨_, rfl, rfl, h⟩, ⟨_, rfl, rfl, fun _ => rfl⟩⟩
    · exact ⟨⟨_, rfl, rfl, by simp [update]⟩, ⟨_, rfl, rfl, by simp [update]⟩⟩

/-- The contents do not matter for lattices filled at output. -/
theorem has_any (l : Option (Lat P)) (c : Bool) (x y : Option P) (h : Has l c true x) : Has l c true y := by
  unfold Has at h ⊢
  split_ifs at h ⊢
  · obtain ⟨z, h1, h2, _⟩ := h
    exact ⟨z, h1, h2, fun e => by cases e⟩
  · exact h

theorem has_fresh (c a : Bool) : Has (if c = true then fresh a else none : Option (Lat P)) c a none := by
  unfold Has fresh
  cases c
  · simp
  · exact ⟨_, rfl, rfl, fun _ => rfl⟩

/-- A lattice filled every step if `a`, otherwise at output if the density `d` is printed. -/
theorem has_two (on pot a w : Bool) (d e : Dens) (hd : d ≠ .none) :
    Has (if (on && pot && a) = true then fresh false
      else if (if (on && w) = true then e else Dens.none) = d then fresh true else none : Option (Lat P))
      (on && ((pot && a) || ((on && w) && e == d))) (!(pot && a)) none := by
  unfold Has fresh
  cases on <;> cases pot <;> cases a <;> cases w <;> by_cases h : e = d <;> simp [h, hd, hd.symm]

theorem create_inv (o : Options) (p : P) : Inv o (create o p) p none none where
  now := rfl
  jB := has_two _ _ _ _ _ _ (by simp)
  jI3 := has_two _ _ _ _ _ _ (by simp)
  custom := by
    have h := has_fresh (P := P) (o.print && o.dens == .other) true
    have e : (create o p).custom = if (o.print && o.dens == .other) = true then fresh true else none := by
      simp only [create, Options.printed]
      by_cases hp : o.print = true
      · simp [hp]
      · simp [hp]
    rw [e]
    exact h
  tmn := has_fresh _ _
  em := has_fresh _ _
  ub := rfl
  jQBS := rfl

/-! ### Operations -/

theorem has_isNone {l : Option (Lat P)} {c a : Bool} {x : Option P} (h : Has l c a x) : l.isNone = !c := by
  unfold Has at h
  split_ifs at h with hc
  · obtain ⟨y, rfl, _⟩ := h
    simp [hc]
  · subst h
    simp [hc]

theorem has_isSome {l : Option (Lat P)} {c a : Bool} {x : Option P} (h : Has l c a x) : l.isSome = c := by
  have := has_isNone h
  cases l <;> cases c <;> simp_all

theorem print_on (o : Options) (h : o.print = true) : o.onLattice = true := by
  unfold Options.print at h
  cases ho : o.onLattice
  · rw [ho] at h; simp at h
  · rfl

theorem startOutputs_ok (o : Options) (s : State P) (p : P) (x y : Option P) (h : Inv o s p x y) :
    startOutputs o s = .ok () := by
  unfold startOutputs
  rw [has_isNone h.jB, has_isNone h.jI3, has_isNone h.custom, has_isNone h.tmn, h.jQBS]
  cases hp : o.print with
  | false => simp
  | true =>
    rw [print_on o hp]
    unfold Options.printed
    rw [hp]
    cases o.tmn <;> cases o.tmnLandau <;> cases o.vLandau <;> cases o.dens <;> simp

theorem start_inv (o : Options) (s : State P) (p : P) (x y : Option P) (h : Inv o s p x y) (q : P) :
    ∃ s', eventStart o s q = .ok s' ∧ Inv o s' q (some q) y := by
  have hjB : Has (if o.potentials then update false q s.jB else s.jB)
      (o.onLattice && ((o.potentials && (o.skyrme || o.vdf)) || (o.print && o.dens == .baryon)))
      (!(o.potentials && (o.skyrme || o.vdf))) (some q) := by
    cases hp : o.potentials with
    | true =>
      have := h.jB
      rw [hp] at this
      exact (has_update _ _ _ _ q this).2
    | false =>
      have := h.jB
      rw [hp] at this
      exact has_any _ _ _ _ this
  refine ⟨{ s with now := q, jB := if o.potentials then update false q s.jB else s.jB }, ?_, ?_⟩
  · unfold eventStart
    simp only
    rw [show startOutputs o { s with now := q, jB := if o.potentials then update false q s.jB else s.jB } = .ok () from ?_]
    exact startOutputs_ok o _ q (some q) y ⟨rfl, hjB, h.jI3, h.custom, h.tmn, h.em, h.ub, h.jQBS⟩
  · exact ⟨rfl, hjB, h.jI3, h.custom, h.tmn, h.em, h.ub, h.jQBS⟩

/-- The contents printed from a lattice that is filled at output. -/
theorem print_fresh (qs : List Quantity) (l : Option (Lat P)) (c : Bool) (x : Option P) (p : P) (h : Has l c true x)
    (hc : c = true) : printLat qs (update true p l) = .ok (qs.map fun q => (q, some p)) := by
  subst hc
  obtain ⟨y, rfl, hy, _⟩ := h
  simp [printLat, update, hy]

/-- The contents printed from a lattice that is filled every step. -/
theorem print_step (qs : List Quantity) (l : Option (Lat P)) (c : Bool) (x : Option P) (p : P) (h : Has l c false x)
    (hc : c = true) : printLat qs (update true p l) = .ok (qs.map fun q => (q, x)) := by
  subst hc
  obtain ⟨y, rfl, hy, hx⟩ := h
  simp [printLat, update, hy, hx rfl]

theorem density_spec (o : Options) (s : State P) (p : P) (x y : Option P) (h : Inv o s p x y) :
    ∃ s' l, outputDensity o s = .ok (s', l) ∧ Inv o s' p x y ∧
      l.map Prod.fst = (if o.print && o.rho && o.dens != .none then [.density] else []) ∧
      ∀ e ∈ l, e.1 = .density ∧ (¬OfPotential o → e.2 = some p) ∧
        (OfPotential o → o.dens = .baryon → e.2 = x) ∧ (OfPotential o → o.dens = .isospin → e.2 = y) := by
  unfold outputDensity
  cases hp : o.print with
  | false => exact ⟨s, [], by simp, h, by simp, by simp⟩
  | true =>
    cases hr : o.rho with
    | false => exact ⟨s, [], by simp, h, by simp, by simp⟩
    | true =>
      have hon := print_on o hp
      unfold Options.printed
      rw [hp]
      simp only [Bool.and_self, if_true, Bool.true_and]
      cases hd : o.dens with
      | none => exact ⟨s, [], by simp, h, by simp, by simp⟩
      | baryon =>
        have hB := h.jB
        simp only
        rw [h.now]
        have inv : Inv o { s with now := p, jB := update true p s.jB } p x y :=
          ⟨rfl, (has_update _ _ _ _ p hB).1, h.jI3, h.custom, h.tmn, h.em, h.ub, h.jQBS⟩
        have hc : (o.onLattice && ((o.potentials && (o.skyrme || o.vdf)) || (o.print && o.dens == .baryon))) = true := by
          simp [hon, hp, hd]
        cases hq : o.potentials && (o.skyrme || o.vdf) with
        | true =>
          rw [hq] at hB hc
          rw [print_step [.density] s.jB _ x p hB hc]
          refine ⟨_, _, rfl, inv, by simp, ?_⟩
          have : OfPotential o := by
            rw [Bool.and_eq_true, Bool.or_eq_true] at hq
            exact ⟨hq.1, Or.inl ⟨hd, hq.2⟩⟩
          simp [this, hd]
        | false =>
          rw [hq] at hB hc
          rw [print_fresh [.density] s.jB _ x p hB hc]
          refine ⟨_, _, rfl, inv, by simp, ?_⟩
          have : ¬OfPotential o := by
            rintro ⟨h1, h2 | h2⟩
            · rw [h1] at hq
              rcases h2.2 with h2 | h2 <;> rw [h2] at hq <;> simp at hq
            · rw [hd] at h2; cases h2.1
          simp [this]
      | isospin =>
        have hB := h.jI3
        simp only
        rw [h.now]
        have inv : Inv o { s with now := p, jI3 := update true p s.jI3 } p x y :=
          ⟨rfl, h.jB, (has_update _ _ _ _ p hB).1, h.custom, h.tmn, h.em, h.ub, h.jQBS⟩
        have hc : (o.onLattice && ((o.potentials && o.symmetry) || (o.print && o.dens == .isospin))) = true := by
          simp [hon, hp, hd]
        cases hq : o.potentials && o.symmetry with
        | true =>
          rw [hq] at hB hc
          rw [print_step [.density] s.jI3 _ y p hB hc]
          refine ⟨_, _, rfl, inv, by simp, ?_⟩
          have : OfPotential o := by
            rw [Bool.and_eq_true] at hq
            exact ⟨hq.1, Or.inr ⟨hd, hq.2⟩⟩
          simp [this, hd]
        | false =>
          rw [hq] at hB hc
          rw [print_fresh [.density] s.jI3 _ y p hB hc]
          refine ⟨_, _, rfl, inv, by simp, ?_⟩
          have : ¬OfPotential o := by
            rintro ⟨h1, h2 | h2⟩
            · rw [hd] at h2; cases h2.1
            · rw [h1, h2.2] at hq; simp at hq
          simp [this]
      | other =>
        have hB := h.custom
        simp only
        rw [h.now]
        have inv : Inv o { s with now := p, custom := update true p s.custom } p x y :=
          ⟨rfl, h.jB, h.jI3, (has_update _ _ _ _ p hB).1, h.tmn, h.em, h.ub, h.jQBS⟩
        rw [print_fresh [.density] s.custom _ none p hB (by simp [hp, hd])]
        refine ⟨_, _, rfl, inv, by simp, ?_⟩
        have : ¬OfPotential o := by
          rintro ⟨_, h2 | h2⟩ <;> rw [hd] at h2 <;> cases h2.1
        simp [this]

theorem tmn_spec (o : Options) (s : State P) (p : P) (x y : Option P) (h : Inv o s p x y) :
    ∃ s' l, outputTmn o s = .ok (s', l) ∧ Inv o s' p x y ∧
      l.map Prod.fst = (if o.print && o.tmn then [.tmn] else []) ++ (if o.print && o.tmnLandau then [.tmnLandau] else []) ++
        (if o.print && o.vLandau then [.vLandau] else []) ∧
      ∀ e ∈ l, e.1 ≠ .density ∧ e.1 ≠ .energy ∧ e.1 ≠ .fields ∧ e.2 = some p := by
  unfold outputTmn
  by_cases hc : (o.print && (o.tmn || o.tmnLandau || o.vLandau)) = true
  · rw [if_pos hc]
    simp only
    rw [h.now, print_fresh _ s.tmn _ none p h.tmn hc]
    have hp : o.print = true := by
      rw [Bool.and_eq_true] at hc
      exact hc.1
    refine ⟨_, _, rfl, ⟨rfl, h.jB, h.jI3, h.custom, (has_update _ _ _ _ p h.tmn).1, h.em, h.ub, h.jQBS⟩, ?_, ?_⟩
    · rw [hp]
      cases o.tmn <;> cases o.tmnLandau <;> cases o.vLandau <;> rfl
    · intro e he
      simp only [List.mem_map, List.mem_append] at he
      obtain ⟨q, hq, rfl⟩ := he
      rcases hq with (hq | hq) | hq <;> split_ifs at hq <;> simp at hq <;> subst hq <;> simp
  · rw [if_neg hc]
    refine ⟨s, [], rfl, h, ?_, by simp⟩
    cases hp : o.print with
    | false => simp
    | true =>
      rw [hp] at hc
      simp at hc
      simp [hc]

theorem rest_spec (o : Options) (s : State P) (p : P) (x y : Option P) (h : Inv o s p x y) :
    ∃ l, outputRest o s = .ok l ∧
      l.map Prod.fst = (if o.potentials && o.onLattice && o.coulomb then [.fields] else []) ++
        (if o.print && o.jQBS then [.currents] else []) ∧
      ∀ e ∈ l, e.1 ≠ .density ∧ e.1 ≠ .energy ∧ (e.1 ≠ .fields → e.2 = some p) ∧ (e.1 = .fields → e.2 = y) := by
  unfold outputRest
  have hem := h.em
  rw [h.jQBS, h.now]
  cases hf : o.onLattice && o.potentials && o.coulomb with
  | true =>
    rw [hf] at hem
    obtain ⟨l, hl, _, hy⟩ := hem
    rw [hl]
    have hf' : (o.potentials && o.onLattice && o.coulomb) = true := by
      rw [← hf, Bool.and_comm o.potentials]
    rw [hf']
    cases hj : o.print && o.jQBS with
    | true => exact ⟨_, rfl, by simp, by simp [hy rfl]⟩
    | false => exact ⟨_, rfl, by simp, by simp [hy rfl]⟩
  | false =>
    rw [hf] at hem
    have hl : s.em = none := hem
    rw [hl]
    have hf' : (o.potentials && o.onLattice && o.coulomb) = false := by
      rw [← hf, Bool.and_comm o.potentials]
    rw [hf']
    cases hj : o.print && o.jQBS with
    | true => exact ⟨_, rfl, by simp, by simp⟩
    | false => exact ⟨_, rfl, by simp, by simp⟩

/-- What an output prints. -/
theorem output_spec (o : Options) (s : State P) (p : P) (x y : Option P) (h : Inv o s p x y) :
    ∃ s' l, output o s = .ok (s', l) ∧ Inv o s' p x y ∧ l.map Prod.fst = asked o ∧
      ∀ e ∈ l, (e.1 = .energy → o.skyrme = true ∨ o.vdf = true → e.2 = x) ∧
        (e.1 = .density → (¬OfPotential o → e.2 = some p) ∧ (OfPotential o → o.dens = .baryon → e.2 = x) ∧
          (OfPotential o → o.dens = .isospin → e.2 = y)) ∧
        (e.1 = .fields → e.2 = y) ∧
        (e.1 ≠ .energy → e.1 ≠ .density → e.1 ≠ .fields → e.2 = some p) := by
  obtain ⟨s1, l1, e1, i1, n1, c1⟩ := density_spec o s p x y h
  obtain ⟨s2, l2, e2, i2, n2, c2⟩ := tmn_spec o s1 p x y i1
  obtain ⟨l3, e3, n3, c3⟩ := rest_spec o s2 p x y i2
  unfold output
  rw [e1]
  simp only
  rw [e2]
  simp only
  rw [e3]
  simp only
  refine ⟨s2, _, rfl, i2, ?_, ?_⟩
  · rw [List.map_append, List.map_append, List.map_append, n1, n2, n3]
    have hE : (outputEnergy o s).map Prod.fst =
        (if o.potentials && o.onLattice && (o.skyrme || o.vdf || (o.print && o.dens == .baryon)) then [.energy] else []) := by
      have hB := has_isSome h.jB
      unfold outputEnergy
      cases hp : o.potentials with
      | false => simp
      | true =>
        rw [hp] at hB
        simp only [Bool.true_and] at hB ⊢
        rw [← hB]
        cases s.jB <;> simp
    rw [hE]
    unfold asked Options.print
    simp only [List.append_assoc]
  · intro e he
    simp only [List.mem_append] at he
    rcases he with ((he | he) | he) | he
    · have hB := h.jB
      unfold outputEnergy at he
      cases hp : o.potentials with
      | false => rw [hp] at he; simp at he
      | true =>
        rw [hp] at he
        simp only [if_true] at he
        cases hj : s.jB with
        | none => rw [hj] at he; simp at he
        | some l =>
          rw [hj] at he hB
          simp only [List.mem_singleton] at he
          subst he
          refine ⟨fun _ hsv => ?_, by simp, by simp, by simp⟩
          have hc := has_isSome hB
          rw [← hc] at hB
          obtain ⟨z, hz, ha, hx⟩ := hB
          cases hz
          refine hx ?_
          rw [hp]
          rcases hsv with e | e <;> simp [e]
    · obtain ⟨k1, k2⟩ := c1 e he
      exact ⟨by simp [k1], fun _ => k2, by simp [k1], fun _ hn => absurd k1 hn⟩
    · obtain ⟨k1, k2, k3, k4⟩ := c2 e he
      exact ⟨fun hn => absurd hn k2, fun hn => absurd hn k1, fun hn => absurd hn k3, fun _ _ _ => k4⟩
    · obtain ⟨k1, k2, k3, k4⟩ := c3 e he
      exact ⟨fun hn => absurd hn k2, fun hn => absurd hn k1, k4, fun _ _ hn => k3 hn⟩

theorem has_none {l : Option (Lat P)} {c a : Bool} {x : Option P} (y : Option P) (h : Has l c a x) (hc : c = false) :
    Has l c a y := by
  subst hc
  exact h

/-- The end of a step. -/
theorem potentials_spec (o : Options) (s : State P) (p : P) (x y : Option P) (h : Inv o s p x y) (q q' : P) :
    (Broken o → updatePotentials o s q = .error .null) ∧
    (¬Broken o → ∃ s', updatePotentials o s q = .ok s' ∧ Inv o { s' with now := q' } q' (some q) (some q)) := by
  unfold updatePotentials
  have hjB := h.jB
  have hI3 := h.jI3
  have hem := h.em
  have hub := h.ub
  cases hp : o.potentials with
  | false =>
    rw [hp] at hjB hI3 hem hub
    refine ⟨fun hb => (by have := hb.1; rw [hp] at this; cases this), fun _ => ⟨s, rfl, rfl, ?_, ?_, h.custom, h.tmn, ?_, ?_, h.jQBS⟩⟩
    · rw [hp]; exact has_any _ _ _ _ hjB
    · rw [hp]; exact has_any _ _ _ _ hI3
    · rw [hp]; exact has_none _ hem (by simp)
    · rw [hp]; exact hub
  | true =>
    rw [hp] at hjB hI3 hem hub
    simp only [Bool.true_and, Bool.and_true] at hjB hI3 hem hub
    have hI3' : Has (if o.symmetry then update false q s.jI3 else s.jI3)
        (o.onLattice && (o.symmetry || (o.print && o.dens == .isospin))) (!o.symmetry) (some q) := by
      cases hs : o.symmetry with
      | true => rw [hs] at hI3; exact (has_update _ _ _ _ q hI3).2
      | false => rw [hs] at hI3; exact has_any _ _ _ _ hI3
    have hup : ∀ (b : Bool) (l : Option (Lat P)) (c a : Bool) (z : Option P), Has l c a z →
        ∃ z', Has (if b then update false q l else l) c a z' ∧ (b = true ∨ z = some q → z' = some q) := by
      intro b l c a z hl
      cases b with
      | true => exact ⟨_, (has_update _ _ _ _ q hl).2, fun _ => rfl⟩
      | false => exact ⟨z, hl, by simp⟩
    obtain ⟨z1, b1, b2⟩ := hup (o.skyrme || o.symmetry) _ _ _ _ hjB
    obtain ⟨z2, b3, b4⟩ := hup o.vdf _ _ _ _ b1
    have hB2 : Has (if o.vdf then update false q (if o.skyrme || o.symmetry then update false q s.jB else s.jB)
        else (if o.skyrme || o.symmetry then update false q s.jB else s.jB))
        (o.onLattice && ((o.skyrme || o.vdf) || (o.print && o.dens == .baryon))) (!(o.skyrme || o.vdf)) (some q) := by
      cases hsv : o.skyrme || o.vdf with
      | false => rw [hsv] at b3; exact has_any _ _ _ _ b3
      | true =>
        rw [hsv] at b3
        rw [Bool.or_eq_true] at hsv
        have : z2 = some q := by
          rcases hsv with e | e
          · exact b4 (Or.inr (b2 (Or.inl (by simp [e]))))
          · exact b4 (Or.inl e)
        rwa [this] at b3
    obtain ⟨z3, b5, b6⟩ := hup o.coulomb _ _ _ _ hem
    have hE : Has (if o.coulomb then update false q s.em else s.em) (o.onLattice && o.coulomb) false (some q) := by
      cases hc : o.coulomb with
      | true => rw [hc] at hem; exact (has_update _ _ _ _ q hem).2
      | false => rw [hc] at hem; exact has_none _ hem (by simp)
    have hcond1 : ((o.skyrme || o.symmetry) &&
        (if o.skyrme || o.symmetry then update false q s.jB else s.jB).isSome && !s.ub) = true ↔
        o.symmetry = true ∧ o.skyrme = false ∧ o.vdf = false ∧ o.onLattice = true ∧ (o.vtk = true ∨ o.full = true) ∧
          o.dens = .baryon := by
      rw [has_isSome b1, hub]
      unfold Options.print
      cases o.skyrme <;> cases o.symmetry <;> cases o.vdf <;> cases o.onLattice <;> simp
    have hcond2 : (o.coulomb && s.em.isNone) = true ↔ o.coulomb = true ∧ o.onLattice = false := by
      rw [has_isNone hem]
      cases o.coulomb <;> cases o.onLattice <;> simp
    simp only [if_true]
    have hbroken : Broken o ↔ ((o.skyrme || o.symmetry) &&
        (if o.skyrme || o.symmetry then update false q s.jB else s.jB).isSome && !s.ub) = true ∨
        (o.coulomb && s.em.isNone) = true := by
      rw [hcond1, hcond2]
      unfold Broken
      rw [hp]
      exact ⟨fun h => h.2.symm, fun h => ⟨rfl, h.symm⟩⟩
    constructor
    · intro hb
      rcases hbroken.1 hb with e | e
      · rw [if_pos e]
      · split_ifs <;> rfl
    · intro hb
      rw [hbroken, not_or] at hb
      rw [if_neg hb.1, if_neg hb.2]
      refine ⟨_, rfl, ?_⟩
      refine ⟨rfl, ?_, ?_, h.custom, h.tmn, ?_, ?_, h.jQBS⟩
      · rw [hp]; simpa using hB2
      · rw [hp]; simpa using hI3'
      · rw [hp]; simpa using hE
      · rw [hp]; simpa using hub

/-- After every history the invariant holds, or the configuration is one of the broken ones. -/
theorem run_inv (o : Options) : ∀ (ops : List (Op P)) (s : State P) (p : P) (x y : Option P), Inv o s p x y →
    (∀ s', run o s ops = .ok s' → Inv o s' (present p ops) (stepped x ops) (stepEnded y ops)) ∧
    ((∃ e, run o s ops = .error e) ↔ Broken o ∧ ∃ q q', Op.step q q' ∈ ops)
  | [], s, p, x, y, h => ⟨fun s' e => (Except.ok.inj e) ▸ h, by simp [run]⟩
  | .start q :: ops, s, p, x, y, h => by
    obtain ⟨s1, e1, i1⟩ := start_inv o s p x y h q
    obtain ⟨k1, k2⟩ := run_inv o ops s1 q (some q) y i1
    simp only [run, step, e1, Except.map, present, stepped, stepEnded]
    exact ⟨k1, by rw [k2]; simp⟩
  | .move q :: ops, s, p, x, y, h => by
    obtain ⟨k1, k2⟩ := run_inv o ops { s with now := q } q x y
      ⟨rfl, h.jB, h.jI3, h.custom, h.tmn, h.em, h.ub, h.jQBS⟩
    simp only [run, step, present, stepped, stepEnded]
    exact ⟨k1, by rw [k2]; simp⟩
  | .output :: ops, s, p, x, y, h => by
    obtain ⟨s1, l, e1, i1, _⟩ := output_spec o s p x y h
    obtain ⟨k1, k2⟩ := run_inv o ops s1 p x y i1
    simp only [run, step, e1, present, stepped, stepEnded]
    exact ⟨k1, by rw [k2]; simp⟩
  | .step q q' :: ops, s, p, x, y, h => by
    obtain ⟨b1, b2⟩ := potentials_spec o s p x y h q q'
    by_cases hb : Broken o
    · have e1 : run o s (.step q q' :: ops) = .error .null := by simp only [run, step, b1 hb, Except.map]
      rw [e1]
      exact ⟨fun s' e => (by cases e), ⟨fun _ => ⟨hb, q, q', by simp⟩, fun _ => ⟨.null, rfl⟩⟩⟩
    · obtain ⟨s1, e1, i1⟩ := b2 hb
      obtain ⟨k1, k2⟩ := run_inv o ops _ q' (some q) (some q) i1
      simp only [run, step, e1, Except.map, present, stepped, stepEnded]
      exact ⟨k1, by rw [k2]; simp [hb]⟩

/-! ### C158 -/

/-- **C158** (no crash): in every history a null pointer is used exactly if a step ends in one of two broken
configurations (Coulomb potential without lattice; symmetry potential alone with the baryon density printed). -/
theorem C158_null_partial (o : Options) (p : P) (ops : List (Op P)) :
    (∃ e, run o (create o p) ops = .error e) ↔ Broken o ∧ ∃ q q', Op.step q q' ∈ ops :=
  (run_inv o ops _ _ _ _ (create_inv o p)).2

/-- **C158** (what is printed): after every history each output prints exactly the quantities asked for. -/
theorem C158_asked (o : Options) (p : P) (ops : List (Op P)) (s : State P) (h : run o (create o p) ops = .ok s) :
    ∃ s' l, output o s = .ok (s', l) ∧ l.map Prod.fst = asked o := by
  obtain ⟨s', l, h1, _, h2, _⟩ := output_spec o s _ _ _ ((run_inv o ops _ _ _ _ (create_inv o p)).1 s h)
  exact ⟨s', l, h1, h2⟩

/-- **C158** (time of the values): everything printed from lattices is computed from the particles present at
the output, except for the density that belongs to a potential, the fields and the mean-field energy. -/
theorem C158_present_partial (o : Options) (p : P) (ops : List (Op P)) (s s' : State P) (l : List (Quantity × Option P))
    (h : run o (create o p) ops = .ok s) (ho : output o s = .ok (s', l)) (q : Quantity) (x : Option P)
    (hq : (q, x) ∈ l) (h1 : q ≠ .energy) (h2 : q ≠ .fields) (h3 : q = .density → ¬OfPotential o) :
    x = some (present p ops) := by
  obtain ⟨s1, l1, e1, _, _, e2⟩ := output_spec o s _ _ _ ((run_inv o ops _ _ _ _ (create_inv o p)).1 s h)
  rw [e1] at ho
  obtain ⟨rfl, rfl⟩ := Prod.mk.inj (Except.ok.inj ho)
  obtain ⟨_, c2, _, c4⟩ := e2 _ hq
  by_cases hd : q = .density
  · exact (c2 hd).1 (h3 hd)
  · exact c4 h1 hd h2

/-- **C158** (time of the other values): the baryon density with a Skyrme or VDF potential and the mean-field
energy are those of the last start of an event or end of a step; the isospin density with a symmetry potential
and the fields are those of the last end of a step, even if it was in an earlier event. -/
theorem C158_delayed (o : Options) (p : P) (ops : List (Op P)) (s s' : State P) (l : List (Quantity × Option P))
    (h : run o (create o p) ops = .ok s) (ho : output o s = .ok (s', l)) (q : Quantity) (x : Option P)
    (hq : (q, x) ∈ l) :
    (q = .density → OfPotential o → o.dens = .baryon → x = stepped none ops) ∧
    (q = .energy → o.skyrme = true ∨ o.vdf = true → x = stepped none ops) ∧
    (q = .density → OfPotential o → o.dens = .isospin → x = stepEnded none ops) ∧
    (q = .fields → x = stepEnded none ops) := by
  obtain ⟨s1, l1, e1, _, _, e2⟩ := output_spec o s _ _ _ ((run_inv o ops _ _ _ _ (create_inv o p)).1 s h)
  rw [e1] at ho
  obtain ⟨rfl, rfl⟩ := Prod.mk.inj (Except.ok.inj ho)
  obtain ⟨c1, c2, c3, _⟩ := e2 _ hq
  exact ⟨fun hd => (c2 hd).2.1, c1, fun hd => (c2 hd).2.2, c3⟩

/-- **C158** (time derivatives): after the end of a step the derivatives of the baryon density are taken between
the step before, or the start of the event, and this step. VDF excludes the other two potentials
(experiment.h:1625-1632). -/
theorem C158_derivative (o : Options) (p : P) (ops : List (Op P)) (s s' : State P) (q q' : P)
    (h : run o (create o p) ops = .ok s) (hs : run o s [.step q q'] = .ok s') (hp : o.potentials = true)
    (hon : o.onLattice = true) (hv : (o.skyrme = true ∧ o.vdf = false) ∨ (o.vdf = true ∧ o.skyrme = false ∧ o.symmetry = false)) :
    ∃ l, s'.jB = some l ∧ l.content = some q ∧ l.base = stepped none ops := by
  have hB := ((run_inv o ops _ _ _ _ (create_inv o p)).1 s h).jB
  have hsv : (o.skyrme || o.vdf) = true := by rcases hv with e | e <;> simp [e.1]
  rw [hp, hon, hsv] at hB
  obtain ⟨y, hy, ha, hx⟩ := hB
  have hx := hx rfl
  have ha : y.atOutput = false := ha
  have hup : update false q s.jB = some ⟨y.atOutput, some q, y.content⟩ := by
    rw [hy]; simp [update, ha]
  simp only [run, step, updatePotentials, hp, if_true] at hs
  rw [hx] at hup
  rcases hv with ⟨e1, e2⟩ | ⟨e1, e2, e3⟩
  · rw [e1, e2] at hs
    simp only [Bool.true_or, if_true, Bool.false_eq_true, if_false, hup] at hs
    split_ifs at hs <;>
      first
      | cases hs; done
      | exact ⟨_, (congrArg State.jB (Except.ok.inj hs)).symm, rfl, rfl⟩
  · rw [e1, e2, e3] at hs
    simp only [Bool.or_self, Bool.false_eq_true, if_false, if_true, hup, Bool.false_and] at hs
    split_ifs at hs <;>
      first
      | cases hs; done
      | exact ⟨_, (congrArg State.jB (Except.ok.inj hs)).symm, rfl, rfl⟩

/-! ### Where the claim fails -/

/-- A lattice with VTK output of the density and nothing else. -/
def exOptions : Options where
  onLattice := true
  potentials := false
  skyrme := false
  symmetry := false
  coulomb := false
  vdf := false
  vtk := true
  full := false
  dens := .baryon
  rho := true
  tmn := false
  tmnLandau := false
  vLandau := false
  jQBS := false

/-- What a history and a final output print. -/
def printed (o : Options) (ops : List (Op Nat)) : Except Err (List (Quantity × Option Nat)) :=
  match run o (create o 0) ops with
  | .error e => .error e
  | .ok s => (output o s).map Prod.snd

/-- **C158 is false** with potentials: the baryon density and the mean-field energy printed in the course of a
step are those of its beginning. -/
theorem C158_density_false :
    printed { exOptions with potentials := true, skyrme := true } [.start 1, .move 2] =
      .ok [(.energy, some 1), (.density, some 1)] := rfl

/-- **C158 is false** for the fields of the Coulomb potential: in the first step of an event those of the
event before are printed, in the first event zeros. -/
theorem C158_fields_false :
    printed { exOptions with potentials := true, coulomb := true, rho := false } [.start 1, .move 2] =
      .ok [(.energy, none), (.fields, none)] ∧
    printed { exOptions with potentials := true, coulomb := true, rho := false }
      [.start 1, .step 2 3, .start 4, .move 5] = .ok [(.energy, none), (.fields, some 2)] := ⟨rfl, rfl⟩

/-- **C158 is false** for the isospin density with a symmetry potential in the same way. -/
theorem C158_isospin_false :
    printed { exOptions with potentials := true, skyrme := true, symmetry := true, dens := .isospin }
      [.start 1, .step 2 3, .start 4, .move 5] = .ok [(.energy, some 4), (.density, some 2)] := rfl

/-- **C158 is false** for the time derivative of the isospin density: in the first step of an event it is taken
from the last density of the event before (in the first event from zero), unlike that of the baryon density. -/
theorem C158_derivative_false :
    ∃ s l, run { exOptions with potentials := true, skyrme := true, symmetry := true } (create
        { exOptions with potentials := true, skyrme := true, symmetry := true } 0)
        [.start 1, .step 2 3, .start 4, .step 5 6] = .ok s ∧ s.jI3 = some l ∧ l.content = some 5 ∧ l.base = some 2 :=
  ⟨_, _, rfl, rfl, rfl, rfl⟩

/-- **C158 is false** for the Coulomb potential without lattice and for the symmetry potential alone with
printed baryon density: a null pointer is used. -/
theorem C158_null_false :
    printed { exOptions with potentials := true, coulomb := true, onLattice := false } [.start 1, .step 2 3] =
      .error .null ∧
    printed { exOptions with potentials := true, symmetry := true } [.start 1, .step 2 3] = .error .null := ⟨rfl, rfl⟩

/-! ### Non-triviality -/

example : printed exOptions [.start 1, .move 2, .output, .step 3 4, .start 5, .move 6] =
    .ok [(.density, some 6)] := rfl

example : printed { exOptions with potentials := true, skyrme := true, dens := .other, tmn := true, jQBS := true }
    [.start 1, .step 2 3, .move 4] =
    .ok [(.energy, some 2), (.density, some 4), (.tmn, some 4), (.currents, some 4)] := rfl

example : ¬OfPotential exOptions ∧ ¬Broken exOptions := by simp [OfPotential, Broken, exOptions]

end Verif.LatRun
