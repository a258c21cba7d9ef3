import Mathlib.Tactic.Ring
import Mathlib.Tactic.Linarith
import Mathlib.Tactic.Positivity
import Mathlib.Tactic.FieldSimp
import Mathlib.Tactic.FinCases
import Mathlib.MeasureTheory.Integral.IntervalIntegral.Basic
import Verif.Em.Dalitz

/-!
C139, C140: photons from scatterings of pions and rho mesons.
-/

namespace Verif.Em

open Verif Kin Act MeasureTheory

/-! ### Reactions -/

/-- Electric charge of a meson. -/
def Mes.charge : Mes → ℤ
  | .piP | .rhoP => 1
  | .piM | .rhoM => -1
  | _ => 0

/-- Is it a rho meson? -/
def Mes.Rho : Mes → Prop
  | .rhoP | .rhoZ | .rhoM => True
  | _ => False

/-- Is it a pion? -/
def Mes.Pion : Mes → Prop
  | .piP | .piZ | .piM => True
  | _ => False

/-- **C139.** Photons come from two different pions and from a pion and a rho with a total charge of at most
one unit, in either order. The hadron that goes out has the charge of the pair, and is a rho if pions came in,
and a pion otherwise. -/
theorem C139_reactions (a b : Mes) :
    (outHadron (reaction [a, b])).isSome = (reaction [a, b] != .no) ∧
    reaction [b, a] = reaction [a, b] ∧
    (reaction [a, b] ≠ .no ↔ (a.Pion ∧ b.Pion ∧ a ≠ b) ∨
      (((a.Pion ∧ b.Rho) ∨ (a.Rho ∧ b.Pion)) ∧ |a.charge + b.charge| ≤ 1)) ∧
    ∀ h, outHadron (reaction [a, b]) = some h → h.charge = a.charge + b.charge ∧
      (h.Rho ↔ a.Pion ∧ b.Pion) ∧ (h.Pion ↔ a.Rho ∨ b.Rho) := by
  refine ⟨?_, ?_, ?_, ?_⟩
  · cases a <;> cases b <;> rfl
  · cases a <;> cases b <;> rfl
  · cases a <;> cases b <;> simp [reaction, Mes.isPion, Mes.Pion, Mes.Rho, Mes.charge]
  · intro h hh
    cases a <;> cases b <;> simp only [reaction, Mes.isPion, outHadron] at hh <;> cases hh <;>
      simp [Mes.Pion, Mes.Rho, Mes.charge]

/-- **C139.** Only pairs react. -/
theorem C139_pairs (l : List Mes) (h : l.length ≠ 2) : reaction l = .no := by
  match l, h with
  | [], _ => rfl
  | [_], _ => rfl
  | [_, _], h => exact absurd rfl h
  | _ :: _ :: _ :: _, _ => rfl

/-- The masses of a hadron type are consistent: a stable one has its pole mass, an unstable one has its
spectral function above the smallest mass. -/
structure HType.Valid (h : HType) : Prop where
  stable : h.stable = true → h.minKinematic = h.mass
  unstable : h.stable = false → h.minKinematic ≤ h.minSpectral

/-- **C139.** If the energy is enough for the reaction and not exactly the mass of a stable hadron, the mass of the
hadron can be drawn. -/
theorem C139_open_partial (med : Mediator) (ty : Mes → HType) (hty : ∀ h, (ty h).Valid) {sqrts : ℝ} {inc : List Mes}
    (hp : possible med ty sqrts inc = true) (draw : ℝ) :
    ∃ h, outHadron (reaction inc) = some h ∧
      (((ty h).stable = true → sqrts ≠ (ty h).mass) → ∃ m, outMass (ty h) sqrts draw = .ok m ∧
        m = if (ty h).stable = true then (ty h).mass else draw) := by
  simp only [possible] at hp
  cases ho : outHadron (reaction inc) with
  | none => rw [ho] at hp; simp at hp
  | some h =>
    rw [ho] at hp
    refine ⟨h, rfl, fun hne => ?_⟩
    simp only at hp
    split_ifs at hp with h1 h2 h3 h4
    unfold outMass
    rw [if_neg]
    · refine ⟨_, rfl, ?_⟩
      cases (ty h).stable <;> simp
    · rw [not_le]
      cases hs : (ty h).stable with
      | true =>
        rw [(hty h).stable hs]
        refine lt_of_le_of_ne ?_ (hne hs).symm
        by_contra hc
        exact h3 (by simp [hs, not_le.1 hc])
      | false =>
        have hk := (hty h).unstable hs
        have : (ty h).minSpectral + reallySmall ≤ sqrts := by
          by_contra hc
          exact h4 (by simp [hs, not_le.1 hc])
        have : (0 : ℝ) < reallySmall := by norm_num [reallySmall]
        linarith

/-- **C139.** At exactly the mass of a stable hadron the reaction counts as possible, but then throws. -/
theorem C139_open_false (ty : Mes → HType) {h : Mes} {a b : Mes} (ho : outHadron (reaction [a, b]) = some h)
    (hs : (ty h).stable = true) (hv : (ty h).Valid) (draw : ℝ) :
    possible .sum ty (ty h).mass [a, b] = true ∧
      outMass (ty h) (ty h).mass draw = .error .invalidResonance := by
  constructor
  · unfold possible
    simp [ho, hs]
  · unfold outMass
    rw [if_pos (hv.stable hs).ge]

/-! ### Kinematics -/

/-- Two mesons that collide with enough energy for a photon: total momentum `P` of mass `E`. -/
structure Colliding (x y : PIn) (E mOut : ℝ) : Prop where
  mx : 0 ≤ x.mass
  my : 0 ≤ y.mass
  mo : 0 ≤ mOut
  energy : 0 < (x.p.add y.p).t
  pos : 0 < E
  shell : minkowski (x.p.add y.p) (x.p.add y.p) = E ^ 2
  above : x.mass + y.mass < E
  out : mOut < E

theorem sqr_eq (p : V4) : p.sqr = minkowski p p := by
  unfold V4.sqr V4.dot V3.dot V4.vec minkowski
  ring

/-- The cosine drawn is uniform: -1 + 2r. -/
theorem cos_eq {E ma mb mo : ℝ} (ha : 0 ≤ ma) (hb : 0 ≤ mb) (ho : 0 ≤ mo) (h0 : 0 < E) (hab : ma + mb < E)
    (hE : mo < E) (r : ℝ) :
    let tr := tRange E ma mb mo 0
    let t := tr.2 + (tr.1 - tr.2) * r
    (t - mb ^ 2 + 1 / 2 * (E ^ 2 + mb ^ 2 - ma ^ 2) * (E ^ 2 - mo ^ 2) / E ^ 2) /
      (pCM E ma mb * (E ^ 2 - mo ^ 2) / E) = 2 * r - 1 ∧
    0 < pCM E ma mb ∧ pCM E mo 0 = (E ^ 2 - mo ^ 2) / (2 * E) ∧ 0 < E ^ 2 - mo ^ 2 ∧
    tr.1 - tr.2 = 4 * pCM E ma mb * pCM E mo 0 ∧
    tr.2 = mb ^ 2 - (E ^ 2 + mb ^ 2 - ma ^ 2) / E * pCM E mo 0 - 2 * pCM E ma mb * pCM E mo 0 := by
  intro tr t
  obtain ⟨si, ni⟩ := pCM_sq ha hb h0 hab.le
  obtain ⟨sf, nf⟩ := pCM_sq ho le_rfl h0 (by linarith : mo + 0 ≤ E)
  have hpos : 0 < E ^ 2 - mo ^ 2 := by nlinarith
  have hpf : pCM E mo 0 = (E ^ 2 - mo ^ 2) / (2 * E) := by
    have hn : 0 ≤ (E ^ 2 - mo ^ 2) / (2 * E) := by positivity
    rw [← Real.sqrt_sq nf, sf]
    rw [Real.sqrt_eq_iff_mul_self_eq _ hn]
    · unfold pCMsqrS; field_simp; ring
    · rw [← sf]; positivity
  have hpi : 0 < pCM E ma mb := by
    refine lt_of_le_of_ne ni fun h => ?_
    rw [← h] at si
    have : 0 < (E ^ 2 - (ma + mb) ^ 2) * (E ^ 2 - (ma - mb) ^ 2) / (4 * E ^ 2) := by
      have h1 : 0 < E ^ 2 - (ma + mb) ^ 2 := by nlinarith
      have h2 : 0 < E ^ 2 - (ma - mb) ^ 2 := by nlinarith [mul_nonneg ha hb]
      positivity
    have e : pCMsqrS (E * E) ma mb = (E ^ 2 - (ma + mb) ^ 2) * (E ^ 2 - (ma - mb) ^ 2) / (4 * E ^ 2) := by
      unfold pCMsqrS; field_simp; ring
    rw [← e, ← si] at this
    simp at this
  have hd : tr.1 - tr.2 = 4 * pCM E ma mb * pCM E mo 0 := by
    simp only [tr, tRange]; ring
  have h2 : tr.2 = mb ^ 2 - (E ^ 2 + mb ^ 2 - ma ^ 2) / E * pCM E mo 0 - 2 * pCM E ma mb * pCM E mo 0 := by
    have si' := si
    simp only [tr, tRange]
    have : pCM E ma mb ^ 2 = ((E ^ 2 + mb ^ 2 - ma ^ 2) / (2 * E)) ^ 2 - mb ^ 2 := by
      rw [si]; unfold pCMsqrS; field_simp; ring
    have e : (ma * ma - mb * mb - mo * mo + 0 * 0) / (2 * E) =
        pCM E mo 0 - (E ^ 2 + mb ^ 2 - ma ^ 2) / (2 * E) := by
      rw [hpf]; field_simp; ring
    rw [e]
    linear_combination -this
  refine ⟨?_, hpi, hpf, hpos, hd, h2⟩
  have : t = tr.2 + (tr.1 - tr.2) * r := rfl
  rw [this, hd, h2, hpf]
  field_simp
  ring

theorem clamp_id {c : ℝ} (h0 : -1 ≤ c) (h1 : c ≤ 1) : clamp c = c := by
  unfold clamp
  rw [if_neg (not_lt.2 h1), if_neg (not_lt.2 h0)]

theorem unit_angles (phi c : ℝ) (h0 : -1 ≤ c) (h1 : c ≤ 1) : Unit3 (Angles.mk phi c).threevec := by
  have h : 0 ≤ 1 - c * c := by nlinarith
  have h2 := Real.sq_sqrt h
  unfold Unit3 Angles.threevec
  simp only
  generalize Real.sqrt (1 - c * c) = s at *
  linear_combination s ^ 2 * Real.sin_sq_add_cos_sq phi + h2

/-- The pion of the pair, and the other meson. -/
def pionOf (x y : PIn) : PIn := if x.mes.isPion then x else y
@[inherit_doc pionOf] def otherOf (x y : PIn) : PIn := if x.mes.isPion then y else x

/-- The final state written with the uniform cosine. -/
theorem photonFinal_eq {x y : PIn} {E mOut : ℝ} (h : Colliding x y E mOut) {r : ℝ} (phi : ℝ)
    (h0 : 0 ≤ r) (h1 : r ≤ 1) :
    let u := (Angles.mk phi (2 * r - 1)).threevec
    let tr := tRange E (pionOf x y).mass (otherOf x y).mass mOut 0
    photonFinal x y mOut r phi =
      (toLab (x.p.add y.p) (sampleAngles mOut 0 E u).1, toLab (x.p.add y.p) (sampleAngles mOut 0 E u).2,
        tr.2 + (tr.1 - tr.2) * r, tr.1 - tr.2) := by
  intro u tr
  have hs : (x.p.add y.p).sqr = E ^ 2 := by rw [sqr_eq]; exact h.shell
  have ha : (x.p.add y.p).abs = E := by
    unfold V4.abs
    rw [hs, Real.sqrt_sq h.pos.le]
  have hm : 0 ≤ (pionOf x y).mass ∧ 0 ≤ (otherOf x y).mass ∧ (pionOf x y).mass + (otherOf x y).mass < E := by
    have := h.above
    unfold pionOf otherOf
    split_ifs
    · exact ⟨h.mx, h.my, h.above⟩
    · exact ⟨h.my, h.mx, by linarith⟩
  obtain ⟨c, -⟩ := cos_eq hm.1 hm.2.1 h.mo h.pos hm.2.2 h.out r
  simp only [photonFinal]
  rw [ha, hs]
  change (_, _, _, _) = _
  unfold pionOf otherOf at c
  rw [c, clamp_id (by linarith) (by linarith)]
  rfl

/-- **C139.** Hadron and photon are on their mass shells and have together the momentum of the two mesons. -/
theorem C139_momenta {x y : PIn} {E mOut : ℝ} (h : Colliding x y E mOut) {r phi : ℝ} (h0 : 0 ≤ r) (h1 : r ≤ 1) :
    let f := photonFinal x y mOut r phi
    HasMass f.1 mOut ∧ HasMass f.2.1 0 ∧ f.1.add f.2.1 = x.p.add y.p := by
  intro f
  have hu := unit_angles phi (2 * r - 1) (by linarith) (by linarith)
  obtain ⟨a1, a2, a3⟩ := C34_two_body mOut 0 E _ h.mo le_rfl h.pos (by linarith [h.out]) hu
  have hf : f = _ := photonFinal_eq h phi h0 h1
  rw [hf]
  simp only
  set P := x.p.add y.p
  have hsh : P.t ^ 2 - P.x ^ 2 - P.y ^ 2 - P.z ^ 2 = E ^ 2 := by
    rw [← h.shell]; unfold minkowski; ring
  have hlt : P.x ^ 2 + P.y ^ 2 + P.z ^ 2 < P.t ^ 2 := by
    have : 0 < E ^ 2 := by have := h.pos; positivity
    linarith
  set q : ℕ → V4 := fun j => if j = 0 then (sampleAngles mOut 0 E (Angles.mk phi (2 * r - 1)).threevec).1
    else (sampleAngles mOut 0 E (Angles.mk phi (2 * r - 1)).threevec).2
  have hsum : sum4 q 2 = ⟨Real.sqrt (P.t ^ 2 - P.x ^ 2 - P.y ^ 2 - P.z ^ 2), 0, 0, 0⟩ := by
    rw [hsh, Real.sqrt_sq h.pos.le, ← a3]
    simp only [sum4, q, V4.add, if_true, one_ne_zero, if_false]
    ext <;> simp only <;> ring
  obtain ⟨b1, b2⟩ := C34_to_lab P q 2 h.energy hlt hsum
  refine ⟨b2 0 mOut a1, b2 1 0 a2, Eq.trans ?_ b1⟩
  simp only [sum4, q, V4.add, if_true, one_ne_zero, if_false]
  ext <;> simp only <;> ring

/-- **C139.** The momentum transfer is drawn uniformly from its kinematic range: between the values of (p_2 - q)² for
backward and forward scattering, with p_2 the meson that is not the first pion and q the photon. -/
theorem C139_range {x y : PIn} {E mOut : ℝ} (h : Colliding x y E mOut) {r phi : ℝ} (h0 : 0 ≤ r) (h1 : r ≤ 1) :
    let ma := (pionOf x y).mass
    let mb := (otherOf x y).mass
    let pin := pCM E ma mb
    let q := (E ^ 2 - mOut ^ 2) / (2 * E)
    let Eb := (E ^ 2 + mb ^ 2 - ma ^ 2) / (2 * E)
    let t (c : ℝ) : ℝ := mb ^ 2 - 2 * (Eb * q - pin * q * c)
    (photonFinal x y mOut r phi).2.2.1 = t (-1) + (t 1 - t (-1)) * r ∧
    (photonFinal x y mOut r phi).2.2.2 = t 1 - t (-1) ∧ 0 < t 1 - t (-1) ∧
    (photonFinal x y mOut r phi).2.2.1 = t (2 * r - 1) := by
  intro ma mb pin q Eb t
  have hm : 0 ≤ ma ∧ 0 ≤ mb ∧ ma + mb < E := by
    have := h.above
    simp only [ma, mb]
    unfold pionOf otherOf
    split_ifs
    · exact ⟨h.mx, h.my, h.above⟩
    · exact ⟨h.my, h.mx, by linarith⟩
  obtain ⟨-, ppos, hq, hpos, hd, h2⟩ := cos_eq hm.1 hm.2.1 h.mo h.pos hm.2.2 h.out r
  have hE := h.pos
  have e := photonFinal_eq h phi h0 h1
  rw [e]
  simp only
  rw [hd, h2, hq]
  have q0 : 0 < q := by simp only [q]; positivity
  have k : (E ^ 2 + mb ^ 2 - ma ^ 2) / E = 2 * Eb := by simp only [Eb]; field_simp
  rw [k]
  refine ⟨?_, ?_, ?_, ?_⟩
  · simp only [t, q, pin, ma, mb]; ring
  · simp only [t, q, pin, ma, mb]; ring
  · have : t 1 - t (-1) = 4 * pin * q := by simp only [t]; ring
    rw [this]; positivity
  · simp only [t, q, pin, ma, mb]; ring

theorem toLab_cm (E : ℝ) (p : V4) : toLab ⟨E, 0, 0, 0⟩ p = p := by
  have v0 : (V4.mk E 0 0 0).velocity.neg = ⟨0, 0, 0⟩ := by
    unfold V4.velocity V3.div V3.smul V3.neg V4.vec
    ext <;> simp
  unfold toLab
  rw [v0]
  have g : gamma ⟨0, 0, 0⟩ = 1 := by
    unfold gamma V3.sqr V3.dot
    norm_num
  unfold boost
  rw [g]
  unfold V4.mk' V3.sub V3.smul V4.vec V3.dot
  ext <;> simp

/-- Two mesons in their centre of mass, the pion in the direction `n`. -/
structure InCm (x y : PIn) (E : ℝ) (n : V3) : Prop where
  pion : (pionOf x y).p = onShell (pionOf x y).mass (n.smul (pCM E (pionOf x y).mass (otherOf x y).mass))
  other : (otherOf x y).p = onShell (otherOf x y).mass (n.neg.smul (pCM E (pionOf x y).mass (otherOf x y).mass))
  unit : Unit3 n

/-- What the momentum transfer really is: it is fixed by the angle to the incoming pion. -/
theorem C139_actual {x y : PIn} {E mOut : ℝ} (h : Colliding x y E mOut) {n : V3} (hn : InCm x y E n)
    {r phi : ℝ} (h0 : 0 ≤ r) (h1 : r ≤ 1) :
    let f := photonFinal x y mOut r phi
    let k := (otherOf x y).p.sub f.2.1
    let u := (Angles.mk phi (2 * r - 1)).threevec
    minkowski k k = f.2.2.1 + (f.2.2.2 / 2) * ((n.x * u.x + n.y * u.y + n.z * u.z) - u.z) := by
  intro f k u
  obtain ⟨e1, e2, e3⟩ := hn
  have hm : 0 ≤ (pionOf x y).mass ∧ 0 ≤ (otherOf x y).mass ∧ (pionOf x y).mass + (otherOf x y).mass < E := by
    have := h.above
    unfold pionOf otherOf
    split_ifs
    · exact ⟨h.mx, h.my, h.above⟩
    · exact ⟨h.my, h.mx, by linarith⟩
  have hP : x.p.add y.p = ⟨E, 0, 0, 0⟩ := by
    obtain ⟨-, -, a3⟩ := C34_two_body _ _ E n hm.1 hm.2.1 h.pos hm.2.2.le e3
    have : x.p.add y.p = (pionOf x y).p.add (otherOf x y).p := by
      unfold pionOf otherOf
      split_ifs
      · rfl
      · exact add_comm4 _ _
    rw [this, e1, e2]
    exact a3
  obtain ⟨-, r2, -, r4⟩ := C139_range h (phi := phi) h0 h1
  have hE := h.pos
  obtain ⟨-, -, hq, hpos, -, -⟩ := cos_eq hm.1 hm.2.1 h.mo h.pos hm.2.2 h.out r
  have hu : Unit3 u := unit_angles phi (2 * r - 1) (by linarith) (by linarith)
  have hg : f.2.1 = onShell 0 (u.neg.smul (pCM E mOut 0)) := by
    have : f = _ := photonFinal_eq h phi h0 h1
    rw [this, hP]
    simp only
    rw [toLab_cm]
    rfl
  have q0 : 0 < pCM E mOut 0 := by rw [hq]; positivity
  have hg2 : f.2.1 = V4.mk' (pCM E mOut 0) (u.neg.smul (pCM E mOut 0)) := by
    rw [hg]
    unfold onShell
    congr 1
    rw [Real.sqrt_eq_iff_mul_self_eq _ q0.le]
    · unfold Unit3 at hu
      unfold V3.dot V3.smul V3.neg
      simp only
      linear_combination ((pCM E mOut 0) ^ 2) * hu
    · have : 0 ≤ (u.neg.smul (pCM E mOut 0)).dot (u.neg.smul (pCM E mOut 0)) := by
        unfold V3.dot
        nlinarith [mul_self_nonneg (u.neg.smul (pCM E mOut 0)).x, mul_self_nonneg (u.neg.smul (pCM E mOut 0)).y,
          mul_self_nonneg (u.neg.smul (pCM E mOut 0)).z]
      linarith
  have hb2 : (otherOf x y).p = V4.mk' ((E ^ 2 + (otherOf x y).mass ^ 2 - (pionOf x y).mass ^ 2) / (2 * E))
      (n.neg.smul (pCM E (pionOf x y).mass (otherOf x y).mass)) := by
    rw [e2]
    unfold onShell
    congr 1
    rw [← energy_a hm.2.1 hm.1 h.pos (by linarith)]
    congr 1
    have : pCM E (otherOf x y).mass (pionOf x y).mass = pCM E (pionOf x y).mass (otherOf x y).mass := by
      rw [← Real.sqrt_sq (pCM_sq hm.2.1 hm.1 h.pos (by linarith)).2,
        ← Real.sqrt_sq (pCM_sq hm.1 hm.2.1 h.pos hm.2.2.le).2, (pCM_sq hm.2.1 hm.1 h.pos (by linarith)).1,
        (pCM_sq hm.1 hm.2.1 h.pos hm.2.2.le).1]
      congr 1
      unfold pCMsqrS
      field_simp
      ring
    rw [this]
    unfold Unit3 at e3
    unfold V3.dot V3.smul V3.neg
    simp only
    linear_combination (pCM E (pionOf x y).mass (otherOf x y).mass) ^ 2 * e3
  have hb0 := (C34_two_body _ _ E n hm.1 hm.2.1 h.pos hm.2.2.le e3).2.1.1
  have hb1 : minkowski (otherOf x y).p (otherOf x y).p = (otherOf x y).mass ^ 2 := by rw [e2]; exact hb0
  have hg1 : minkowski f.2.1 f.2.1 = 0 := by
    have := (C139_momenta h (phi := phi) h0 h1).2.1.1
    simpa using this
  have split : minkowski k k = minkowski (otherOf x y).p (otherOf x y).p + minkowski f.2.1 f.2.1 -
      2 * minkowski (otherOf x y).p f.2.1 := by
    simp only [k]
    unfold minkowski V4.sub
    simp only
    ring
  have uz : u.z = 2 * r - 1 := rfl
  rw [split, hb1, hg1, hg2, hb2]
  change _ = (photonFinal x y mOut r phi).2.2.1 + (photonFinal x y mOut r phi).2.2.2 / 2 * _
  rw [r4, r2, uz, ← hq]
  unfold minkowski V4.mk' V3.smul V3.neg
  simp only
  linear_combination (2 * pCM E mOut 0 * pCM E (pionOf x y).mass (otherOf x y).mass * n.z) * uz

/-- **C139.** If the pion comes along the z axis, the momentum transfer of the event is the one drawn. -/
theorem C139_transfer_partial {x y : PIn} {E mOut : ℝ} (h : Colliding x y E mOut) (hn : InCm x y E ⟨0, 0, 1⟩)
    {r phi : ℝ} (h0 : 0 ≤ r) (h1 : r ≤ 1) :
    let f := photonFinal x y mOut r phi
    let k := (otherOf x y).p.sub f.2.1
    minkowski k k = f.2.2.1 := by
  intro f k
  have := C139_actual h hn (phi := phi) h0 h1
  simp only [zero_mul, one_mul, zero_add, sub_self, mul_zero, add_zero] at this
  exact this

/-- **C139.** In every other direction it is not: the angle drawn is the one to the z axis and not the one to the
incoming particles. For pions along the x axis a photon drawn with the largest momentum transfer has
another one in the event. -/
theorem C139_transfer_false {x y : PIn} {E mOut : ℝ} (h : Colliding x y E mOut) (hn : InCm x y E ⟨1, 0, 0⟩)
    (phi : ℝ) :
    let f := photonFinal x y mOut 1 phi
    let k := (otherOf x y).p.sub f.2.1
    minkowski k k < f.2.2.1 := by
  intro f k
  have a := C139_actual h hn (phi := phi) zero_le_one le_rfl
  obtain ⟨-, r2, r3, -⟩ := C139_range h (phi := phi) zero_le_one le_rfl
  simp only at a r2 r3
  rw [← r2] at r3
  have hx : (Angles.mk phi (2 * 1 - 1)).threevec.x = 0 := by
    unfold Angles.threevec
    norm_num
  have hz : (Angles.mk phi (2 * 1 - 1)).threevec.z = 1 := by
    unfold Angles.threevec
    norm_num
  rw [hx, hz] at a
  have e : minkowski k k = f.2.2.1 + f.2.2.2 / 2 * (1 * 0 + 0 * _ + 0 * 1 - 1) := a
  have r3' : 0 < f.2.2.2 := r3
  rw [e]
  linarith

/-- Two pions of mass 1 at rest against each other with energy 4, along `n`. -/
noncomputable def pions (n : V3) : PIn × PIn :=
  (⟨.piP, onShell 1 (n.smul (pCM 4 1 1)), 1, 1⟩, ⟨.piM, onShell 1 (n.neg.smul (pCM 4 1 1)), 1, 1⟩)

/-- The hypotheses hold for two pions along any direction. -/
example (n : V3) (hn : Unit3 n) : Colliding (pions n).1 (pions n).2 4 (3 / 2) ∧ InCm (pions n).1 (pions n).2 4 n := by
  obtain ⟨-, -, a3⟩ := C34_two_body 1 1 4 n (by norm_num) (by norm_num) (by norm_num) (by norm_num) hn
  have hP : (pions n).1.p.add (pions n).2.p = ⟨4, 0, 0, 0⟩ := a3
  refine ⟨⟨by norm_num [pions], by norm_num [pions], by norm_num, by rw [hP]; norm_num, by norm_num,
    by rw [hP]; norm_num [minkowski], by norm_num [pions], by norm_num⟩, rfl, rfl, hn⟩

/-! ### Weights -/

/-- **C140.** Several photons per collision are a Monte-Carlo integral over the momentum transfer: in the mean over
the values drawn, the weights of the n photons of a collision add up to the integral of the differential
cross section over the hadronic one, scaled by the factors of unformed hadrons. -/
theorem C140_mean {x y : PIn} {E mOut : ℝ} (h : Colliding x y E mOut) {n : ℕ} (hn : 1 < n) (phi : ℝ) (diff : ℝ → ℝ)
    (total sigma : ℝ) :
    let tr := tRange E (pionOf x y).mass (otherOf x y).mass mOut 0
    ∫ r in (0 : ℝ)..1, n * photonWeight n (diff (photonFinal x y mOut r phi).2.2.1) total sigma
        (photonFinal x y mOut r phi).2.2.2 x.scaling y.scaling =
      (∫ t in tr.2..tr.1, diff t) / sigma * (x.scaling * y.scaling) := by
  intro tr
  have e : ∫ r in (0 : ℝ)..1, n * photonWeight n (diff (photonFinal x y mOut r phi).2.2.1) total sigma
        (photonFinal x y mOut r phi).2.2.2 x.scaling y.scaling =
      ∫ r in (0 : ℝ)..1, ((tr.1 - tr.2) / sigma * (x.scaling * y.scaling)) * diff (tr.2 + (tr.1 - tr.2) * r) := by
    apply intervalIntegral.integral_congr
    intro r hr
    rw [Set.uIcc_of_le zero_le_one] at hr
    have hf := photonFinal_eq h phi hr.1 hr.2
    simp only
    rw [hf]
    simp only [photonWeight]
    rw [if_pos hn]
    have : (n : ℝ) ≠ 0 := by positivity
    change n * (diff (tr.2 + (tr.1 - tr.2) * r) * (tr.1 - tr.2) / (n * sigma) * (x.scaling * y.scaling)) = _
    generalize diff (tr.2 + (tr.1 - tr.2) * r) = D
    field_simp
  rw [e, intervalIntegral.integral_const_mul]
  have := intervalIntegral.smul_integral_comp_add_mul (a := 0) (b := 1) (f := diff) (tr.1 - tr.2) tr.2
  rw [smul_eq_mul, mul_zero, mul_one, add_zero, add_sub_cancel] at this
  rw [← this]
  ring

/-- **C140.** A single photon per collision has the total cross section over the hadronic one as weight. -/
theorem C140_single (diff total sigma range f1 f2 : ℝ) :
    photonWeight 1 diff total sigma range f1 f2 = total / sigma * (f1 * f2) := by
  unfold photonWeight
  rw [if_neg (lt_irrefl 1)]

/-- **C140.** Cross sections are never negative and, with form factors, at most 200 mb, so the weights are not
negative. A vanishing cross section gives weight zero once the reaction has been set up. -/
theorem C140_range (med : Mediator) (reac : Reac) (fpi fom : ℝ) (x : Mediator → ℝ) (created : Bool) (hr : reac ≠ .no) :
    (∀ y, 0 ≤ fixTotal created y ∧ 0 ≤ fixDiff y ∧ (0 < y → fixTotal created y = y ∧ fixDiff y = y)) ∧
    fixTotal true 0 = 0 ∧ fixDiff 0 = 0 ∧
    ∃ v, withFF med reac fpi fom x = some v ∧ v ≤ 200 ∧ ((∀ m, 0 ≤ x m) → 0 ≤ v) := by
  have c0 : ∀ y, cutOff y ≤ 200 ∧ (0 ≤ y → 0 ≤ cutOff y) := by
    intro y
    unfold cutOff
    split_ifs with h
    · exact ⟨le_rfl, fun _ => by norm_num⟩
    · exact ⟨not_lt.1 h, id⟩
  have f4 : ∀ z : ℝ, 0 ≤ z ^ 4 := fun z => by positivity
  refine ⟨fun y => ⟨?_, ?_, fun hy => ⟨?_, ?_⟩⟩, ?_, ?_, ?_⟩
  · unfold fixTotal; split_ifs <;> linarith
  · unfold fixDiff; split_ifs <;> linarith
  · unfold fixTotal; rw [if_neg hy.ne', if_neg (not_lt.2 hy.le)]
  · unfold fixDiff; rw [if_neg (not_lt.2 hy.le)]
  · simp [fixTotal]
  · simp [fixDiff]
  · have one : ∀ z m, 0 ≤ z → ((∀ m, 0 ≤ x m) → 0 ≤ cutOff (z * x m)) := fun z m hz hx =>
      (c0 _).2 (mul_nonneg hz (hx m))
    have two : (∀ m, 0 ≤ x m) → 0 ≤ cutOff (fpi ^ 4 * x .pion + fom ^ 4 * x .omega) := fun hx =>
      (c0 _).2 (add_nonneg (mul_nonneg (f4 _) (hx _)) (mul_nonneg (f4 _) (hx _)))
    cases reac <;> first | exact absurd rfl hr | skip
    all_goals first
      | exact ⟨_, rfl, (c0 _).1, one _ _ (f4 _)⟩
      | (cases med
         · exact ⟨_, rfl, (c0 _).1, two⟩
         · exact ⟨_, rfl, (c0 _).1, one _ _ (f4 _)⟩
         · exact ⟨_, rfl, (c0 _).1, one _ _ (f4 _)⟩)

/-- **C140.** Which form factor goes with which reaction: omega exchange alone for π⁰ρ⁰, both for the reactions with a charged rho
that have both, added incoherently, and pion exchange otherwise. -/
theorem C140_form_factors (a b : Mes) (fpi fom : ℝ) (x : Mediator → ℝ) (hs : (reaction [a, b]) ≠ .no) :
    withFF .sum (reaction [a, b]) fpi fom x = some (min 200
      (if a.charge = 0 ∧ b.charge = 0 then fom ^ 4 * x .sum
      else if (a = .rhoP ∨ a = .rhoM ∨ b = .rhoP ∨ b = .rhoM) then fpi ^ 4 * x .pion + fom ^ 4 * x .omega
      else fpi ^ 4 * x .sum)) := by
  have c : ∀ y, cutOff y = min 200 y := by
    intro y
    unfold cutOff
    split_ifs with h
    · exact (min_eq_left h.le).symm
    · exact (min_eq_right (not_lt.1 h)).symm
  cases a <;> cases b <;> simp [reaction, Mes.isPion, withFF, Mes.charge, c] at hs ⊢

/-- **C140.** The form factors suppress and do not enhance: for space-like momentum transfer they are in (0, 1] and
decrease with its size. -/
theorem C140_dipole {t t' : ℝ} (h : t' ≤ t) (ht : t ≤ 0) :
    0 < dipole t ∧ dipole t ≤ 1 ∧ dipole t' ≤ dipole t ∧ dipole 0 = 1 := by
  have key : ∀ s ≤ (0 : ℝ), dipole s = (2 / (2 - s)) ^ 2 := by
    intro s _
    unfold dipole
    simp only [mul_one]
    ring
  have h2 : (0 : ℝ) < 2 - t := by linarith
  have h3 : (0 : ℝ) < 2 - t' := by linarith
  rw [key t ht, key t' (by linarith), key 0 le_rfl]
  have a : 2 / (2 - t') ≤ 2 / (2 - t) := div_le_div_of_nonneg_left (by norm_num) h2 (by linarith)
  have b : 2 / (2 - t) ≤ 1 := by rw [div_le_one h2]; linarith
  have c : 0 < 2 / (2 - t') := by positivity
  have d : 0 < 2 / (2 - t) := by positivity
  refine ⟨by positivity, ?_, ?_, by norm_num⟩
  · nlinarith
  · nlinarith

end Verif.Em
