import Verif.Pot.Model
import Verif.Pdg.Content
import Mathlib.Analysis.SpecialFunctions.Pow.Deriv
import Mathlib.Tactic.Ring
import Mathlib.Tactic.Linarith
import Mathlib.Tactic.NormNum
import Mathlib.Tactic.FieldSimp
import Mathlib.Tactic.Positivity
import Mathlib.Tactic.SplitIfs
/-!
C125: the Skyrme and the symmetry potential and the forces derived from them.
-/
namespace Verif.Pot
open Verif.Kin Verif.Emt

theorem rho0_pos : 0 < rho0 := by unfold rho0; norm_num
theorem mev_pos : 0 < mev := by unfold mev; norm_num

theorem bind_ok {ε α β : Type} (a : α) (f : α → Except ε β) : ((Except.ok a : Except ε α) >>= f) = f a := rfl

theorem pow_ok {x y : ℝ} (h : 0 < x) : pow x y = .ok (x ^ y) := by
  unfold pow; rw [if_neg (by rintro (h' | ⟨h', -⟩) <;> linarith)]

theorem pow_zero' {x y : ℝ} (h : 0 ≤ x) (hy : 0 ≤ y) : pow x y = .ok (x ^ y) := by
  unfold pow; rw [if_neg (by rintro (h' | ⟨-, h'⟩) <;> linarith)]

theorem pow_neg {x y : ℝ} (h : x < 0) : pow x y = .error .nan := by
  unfold pow; rw [if_pos (Or.inl h)]

theorem sgn_pos {x : ℝ} (h : 0 < x) : sgn x = 1 := if_pos h
theorem sgn_neg {x : ℝ} (h : x ≤ 0) : sgn x = -1 := if_neg (not_lt.2 h)

/-! ### Specification -/

/-- The potential energy of a nucleon in nuclear matter of density `rho`, in GeV: `A u + B u^tau` in MeV with
`u` the density over the saturation density 0.168/fm³. -/
noncomputable def nucleonEnergy (A B tau rho : ℝ) : ℝ :=
  (A * (rho / (168 / 1000)) + B * (rho / (168 / 1000)) ^ tau) / 1000

/-- The symmetry energy term with the density dependent part, in GeV. -/
noncomputable def isospinEnergy (s g rhoI rhoB : ℝ) : ℝ :=
  (2 * s * (rhoI / (168 / 1000)) +
    (12.3 * (rhoB / (168 / 1000)) ^ (2 / 3 : ℝ) + 20 * (rhoB / (168 / 1000)) ^ g) * (rhoI / rhoB) ^ 2) / 1000

/-- Valence quarks of a baryon which are not strange. -/
def nonStrange (d : Nat) : Nat :=
  (if Pdg.nq1 d = 3 then 0 else 1) + (if Pdg.nq2 d = 3 then 0 else 1) + (if Pdg.nq3 d = 3 then 0 else 1)

/-! ### Skyrme -/

/-- **C125.** In matter the Skyrme potential is `A u + B u^tau` MeV. -/
theorem C125_value (A B tau : ℝ) {rho : ℝ} (h : 0 < rho) :
    skyrmePot rho A B tau = .ok (nucleonEnergy A B tau rho) := by
  have hu : 0 < rho / rho0 := div_pos h rho0_pos
  unfold skyrmePot nucleonEnergy
  simp only [abs_of_pos hu, pow_ok hu, sgn_pos hu, bind_ok]
  congr 1
  unfold mev rho0
  ring

/-- The potential is odd in the density. -/
theorem C125_odd (A B : ℝ) {tau : ℝ} (ht : 0 < tau) (rho : ℝ) :
    skyrmePot (-rho) A B tau = (skyrmePot rho A B tau).map (- ·) := by
  unfold skyrmePot
  have e : |(-rho) / rho0| = |rho / rho0| := by rw [neg_div, abs_neg]
  simp only [e, pow_zero' (abs_nonneg _) ht.le, bind_ok, Except.map]
  congr 1
  rcases lt_trichotomy rho 0 with h | h | h
  · rw [sgn_pos (div_pos (neg_pos.2 h) rho0_pos), sgn_neg (div_neg_of_neg_of_pos h rho0_pos).le]; ring
  · subst h; simp [Real.zero_rpow ht.ne']
  · rw [sgn_pos (div_pos h rho0_pos), sgn_neg (div_neg_of_neg_of_pos (neg_lt_zero.2 h) rho0_pos).le]; ring

theorem nucleonEnergy_deriv (A B tau : ℝ) {rho : ℝ} (h : 0 < rho) :
    HasDerivAt (nucleonEnergy A B tau)
      ((A + B * tau * (rho / rho0) ^ (tau - 1)) * mev / rho0) rho := by
  have hu : rho / (168 / 1000) ≠ 0 := by positivity
  have h1 : HasDerivAt (fun r : ℝ => r / (168 / 1000)) (1 / (168 / 1000)) rho := (hasDerivAt_id rho).div_const _
  have h2 := h1.rpow_const (p := tau) (Or.inl hu)
  refine HasDerivAt.congr_deriv (((h1.const_mul A).add (h2.const_mul B)).div_const 1000) ?_
  unfold rho0 mev
  ring

/-- **C125.** In matter the electric force per unit of scale is `-(dV/drho)(grad j0 + dj/dt)` and the magnetic
one is `(dV/drho) curl j`, where `V` is the potential the code uses. -/
theorem C125_force (P : Pars) (hs : P.skyrme = true) {rho : ℝ} (h : 0 < rho) (g dj curl : V3) :
    ∃ (V : ℝ → ℝ) (d : ℝ), (∀ r > 0, skyrmePot r P.a P.b P.tau = .ok (V r)) ∧ HasDerivAt V d rho ∧
      skyrmeForce P rho g dj curl =
        .ok (⟨-d * (g.x + dj.x), -d * (g.y + dj.y), -d * (g.z + dj.z)⟩,
          ⟨d * curl.x, d * curl.y, d * curl.z⟩) := by
  refine ⟨nucleonEnergy P.a P.b P.tau, _, fun r hr => C125_value _ _ _ hr, nucleonEnergy_deriv _ _ _ h, ?_⟩
  unfold skyrmeForce dSkyrme
  simp only [hs, if_true, abs_of_pos h, pow_ok (div_pos h rho0_pos), sgn_pos h, bind_ok]
  simp only [zero3, V3.sub, V3.add, V3.smul, one_mul]
  congr 2
  · congr 1 <;> ring
  · congr 1 <;> ring

/-- With the derivative of the density profile: the force along a direction is minus the derivative of the
potential energy along it, for a static density `n` which is positive. -/
theorem C125_conservative (P : Pars) (hs : P.skyrme = true) (n : ℝ → ℝ) (n' x : ℝ) (hn : HasDerivAt n n' x)
    (hp : ∀ y, 0 < n y) :
    ∃ (V : ℝ → ℝ) (F : Force), (∀ y, skyrmePot (n y) P.a P.b P.tau = .ok (V y)) ∧
      skyrmeForce P (n x) ⟨n', 0, 0⟩ zero3 zero3 = .ok F ∧ HasDerivAt V (-F.1.x) x ∧ F.1.y = 0 ∧ F.1.z = 0 ∧
      F.2 = zero3 := by
  obtain ⟨V, d, hV, hd, hF⟩ := C125_force P hs (hp x) ⟨n', 0, 0⟩ zero3 zero3
  refine ⟨fun y => V (n y), _, fun y => hV _ (hp y), hF, ?_, ?_, ?_, ?_⟩
  · refine HasDerivAt.congr_deriv (HasDerivAt.comp (h₂ := V) (h := n) x hd hn) ?_
    simp only [zero3]; ring
  · simp [zero3]
  · simp [zero3]
  · simp [zero3]

/-- What the code does in antimatter: the derivative of the (odd) potential is even, the code makes it odd, so that
the force of the mirrored surroundings is the same as that of the surroundings. -/
theorem C125_mirror (P : Pars) {rho : ℝ} (h : 0 < rho) (g dj curl : V3) :
    skyrmeForce P (-rho) g.neg dj.neg curl.neg = skyrmeForce P rho g dj curl := by
  unfold skyrmeForce dSkyrme
  simp only [abs_neg, abs_of_pos h, pow_ok (div_pos h rho0_pos), sgn_pos h, sgn_neg (neg_lt_zero.2 h).le, bind_ok]
  split_ifs
  · simp only [V3.neg, V3.add, V3.smul, V3.sub, zero3]
    congr 2
    · congr 1 <;> ring
    · congr 1 <;> ring
  · rfl

/-! ### Scale of the force -/

theorem baryon_facts {d : Nat} (hb : Pdg.isBaryon d = true) :
    Pdg.isHadron d = true ∧ Pdg.isNucleus d = false ∧ Pdg.baryonNumber d = if Pdg.anti d then -1 else 1 := by
  have hb' := hb
  unfold Pdg.isBaryon at hb'
  rw [Bool.and_eq_true] at hb'
  obtain ⟨hh, h1⟩ := hb'
  have hn : Pdg.isNucleus d = false := by
    unfold Pdg.isHadron at hh; simp at hh; exact hh.2
  refine ⟨hh, hn, ?_⟩
  unfold Pdg.baryonNumber Pdg.antiparticleSign
  rw [if_neg (by simp [hn]), if_neg (by simp at h1; simp [hh, h1])]

theorem strangeness_baryon {d : Nat} (hb : Pdg.isBaryon d = true) :
    |Pdg.strangeness d| = 3 - (nonStrange d : Int) := by
  obtain ⟨hh, hn, hB'⟩ := baryon_facts hb
  have hB : Pdg.baryonNumber d ≠ 0 := by rw [hB']; split_ifs <;> omega
  have hs : |Pdg.antiparticleSign d| = 1 := by unfold Pdg.antiparticleSign; split_ifs <;> rfl
  unfold Pdg.strangeness Pdg.netQuark Pdg.netQuarkNumber nonStrange
  rw [if_neg (by omega), if_neg (by simp [hn]), abs_neg]
  simp only [hh, Bool.true_eq_false, false_or]
  split_ifs with h1 h2 h3 h4 h5 <;>
    simp_all [Except.toOption, abs_mul] <;> omega

/-- **C125.** A baryon feels one third of the Skyrme force for each valence quark which is not strange, an
antibaryon the negative of it, and the symmetry force with the sign of its baryon number. -/
theorem C125_scale {d : Nat} (hb : Pdg.isBaryon d = true) :
    forceScale d = (if Pdg.anti d then -(nonStrange d : ℝ) / 3 else (nonStrange d : ℝ) / 3,
      if Pdg.anti d then -1 else 1) := by
  have hB := (baryon_facts hb).2.2
  unfold forceScale
  rw [strangeness_baryon hb, hB]
  congr 1
  split_ifs <;> push_cast <;> ring

/-- A nucleus without Lambdas feels `A` times the force. -/
theorem C125_scale_nucleus {d : Nat} (hn : Pdg.isNucleus d = true) (hl : Pdg.nLambda d = 0) :
    forceScale d = (if Pdg.anti d then -(Pdg.A d : ℝ) else (Pdg.A d : ℝ),
      if Pdg.anti d then -(Pdg.A d : Int) else (Pdg.A d : Int)) := by
  obtain ⟨-, hB, hS, -⟩ := Pdg.C16_nucleus hn
  unfold forceScale
  rw [hB, hS, hl]
  unfold Pdg.antiparticleSign
  split_ifs <;> simp

/-- **C125 is false for hypernuclei**: a nucleus of `A ≥ 2` baryons with `L ≥ 1` Lambdas has `3 A - L` light
quarks, but is not given a third of the force for each of them. -/
theorem C125_hypernucleus_false {d : Nat} (hn : Pdg.isNucleus d = true) (hl : 1 ≤ Pdg.nLambda d)
    (hl3 : Pdg.nLambda d ≤ 3) (hA : 2 ≤ Pdg.A d) :
    |(forceScale d).1| < (3 * Pdg.A d - Pdg.nLambda d : ℝ) / 3 := by
  obtain ⟨-, hB, hS, -⟩ := Pdg.C16_nucleus hn
  have hs : |Pdg.strangeness d| = Pdg.nLambda d := by
    rw [hS, abs_neg, abs_mul]
    unfold Pdg.antiparticleSign
    split_ifs <;> simp
  have hb : |((Pdg.baryonNumber d : Int) : ℝ)| = Pdg.A d := by
    rw [hB]
    unfold Pdg.antiparticleSign
    split_ifs <;> simp
  unfold forceScale
  simp only [hs, abs_mul, hb]
  have h1 : (1 : ℝ) ≤ Pdg.nLambda d := by exact_mod_cast hl
  have h3 : (Pdg.nLambda d : ℝ) ≤ 3 := by exact_mod_cast hl3
  have h2 : (2 : ℝ) ≤ Pdg.A d := by exact_mod_cast hA
  rw [abs_of_nonneg (by push_cast; apply div_nonneg <;> linarith)]
  push_cast
  nlinarith

/-- The antiparticle feels the opposite force in the same surroundings. -/
theorem C125_antiparticle (d : Nat) :
    forceScale (Pdg.getAntiparticle d) = (-(forceScale d).1, -(forceScale d).2) := by
  unfold forceScale Pdg.strangeness
  rw [Pdg.netQuark_getAnti, Pdg.baryon_getAnti, neg_neg, abs_neg]
  simp

/-- **C125 is false for antimatter**: in the mirrored surroundings the antiparticle should feel the same force,
but it feels the opposite one, whenever that is not zero. -/
theorem C125_antimatter_false (P : Pars) (hs : P.skyrme = true) {rho : ℝ} (h : 0 < rho) (g dj curl : V3) (d : Nat) :
    ∃ F, skyrmeForce P rho g dj curl = .ok F ∧ skyrmeForce P (-rho) g.neg dj.neg curl.neg = .ok F ∧
      F.1.smul (forceScale (Pdg.getAntiparticle d)).1 = (F.1.smul (forceScale d).1).neg := by
  obtain ⟨V, d', -, -, hF⟩ := C125_force P hs h g dj curl
  refine ⟨_, hF, (C125_mirror P h g dj curl).trans hF, ?_⟩
  rw [C125_antiparticle]
  simp only [V3.smul, V3.neg]
  congr 1 <;> ring

/-- The default parameters of the documentation, a nucleon (2212) at saturation density: the force is not zero. -/
example : ∃ F, skyrmeForce ⟨true, false, false, false, false, true, -209.2, 156.4, 1.35, 18, none, 0.16, [], 0, 0⟩
    rho0 ⟨1, 0, 0⟩ zero3 zero3 = .ok F ∧ F.1.x * (forceScale 0x2212).1 ≠ 0 := by
  have e : skyrmeForce ⟨true, false, false, false, false, true, -209.2, 156.4, 1.35, 18, none, 0.16, [], 0, 0⟩
      rho0 ⟨1, 0, 0⟩ zero3 zero3 =
      .ok (zero3.sub (((⟨1, 0, 0⟩ : V3).add zero3).smul (1 * (-209.2 + 156.4 * 1.35 * 1) * mev / rho0)),
        zero3.add (zero3.smul (1 * (-209.2 + 156.4 * 1.35 * 1) * mev / rho0))) := by
    unfold skyrmeForce dSkyrme
    simp only [if_true, abs_of_pos rho0_pos, div_self rho0_pos.ne', pow_ok one_pos, sgn_pos rho0_pos, bind_ok,
      Real.one_rpow]
  refine ⟨_, e, ?_⟩
  rw [C125_scale (by decide)]
  simp only [zero3, V3.sub, V3.add, V3.smul, mev, rho0]
  norm_num [show Pdg.anti 0x2212 = false by decide, show nonStrange 0x2212 = 3 by decide]

example : Pdg.isBaryon 0x3122 = true ∧ nonStrange 0x3122 = 2 ∧ Pdg.isBaryon 0x3334 = true ∧ nonStrange 0x3334 = 0 := by
  decide

/-- The hypertriton: scale 2 instead of 8/3. -/
example : ∃ d, Pdg.isNucleus d = true ∧ Pdg.A d = 3 ∧ Pdg.nLambda d = 1 ∧ |(forceScale d).1| < 8 / 3 := by
  refine ⟨2 ^ 30 + 3 * 2 ^ 16 + 2 ^ 6 + 1, by decide, by decide, by decide, ?_⟩
  have := C125_hypernucleus_false (d := 2 ^ 30 + 3 * 2 ^ 16 + 2 ^ 6 + 1) (by decide) (by decide) (by decide) (by decide)
  rw [show Pdg.A (2 ^ 30 + 3 * 2 ^ 16 + 2 ^ 6 + 1) = 3 by decide,
    show Pdg.nLambda (2 ^ 30 + 3 * 2 ^ 16 + 2 ^ 6 + 1) = 1 by decide] at this
  norm_num at this ⊢
  exact this

/-! ### Symmetry potential -/

theorem symmetryS_ok (g : ℝ) {rhoB : ℝ} (h : 0 < rhoB) :
    symmetryS g rhoB = .ok (123 / 10 * (rhoB / rho0) ^ (2 / 3 : ℝ) + 20 * (rhoB / rho0) ^ g) := by
  have hu : 0 < rhoB / rho0 := div_pos h rho0_pos
  unfold symmetryS
  simp only [pow_ok hu, bind_ok]

/-- **C125.** Symmetry potential: without an exponent linear in the isospin density; with one the density dependent
term is added. -/
theorem C125_symmetry_value (P : Pars) (rhoI : ℝ) {rhoB : ℝ} (h : 0 < rhoB) :
    (P.gamma = none → symmetryPot P rhoI rhoB = .ok (2 * P.sPot * (rhoI / (168 / 1000)) / 1000)) ∧
    ∀ g, P.gamma = some g → symmetryPot P rhoI rhoB = .ok (isospinEnergy P.sPot g rhoI rhoB) := by
  constructor
  · intro hg
    unfold symmetryPot
    simp only [hg]
    congr 1
    unfold mev rho0; ring
  · intro g hg
    unfold symmetryPot isospinEnergy
    simp only [hg, symmetryS_ok g h, bind_ok, if_neg h.ne']
    congr 1
    unfold mev rho0
    field_simp
    ring

/-- **C125.** The factors of the symmetry force are the derivatives of the potential with respect to the isospin
density and to the baryon density. -/
theorem C125_symmetry_force (P : Pars) (hs : P.symmetry = true) {g : ℝ} (hg : P.gamma = some g) (I B : Node)
    (h : 0 < B.rho) :
    ∃ (V : ℝ → ℝ → ℝ) (di db : ℝ), (∀ rI, ∀ rB > 0, symmetryPot P rI rB = .ok (V rI rB)) ∧
      HasDerivAt (fun r => V r B.rho) di I.rho ∧ HasDerivAt (V I.rho) db B.rho ∧
      symmetryForce P I B = .ok
        (⟨-(di * (I.gradJ0.x + I.djdt.x) + db * (B.gradJ0.x + B.djdt.x)),
          -(di * (I.gradJ0.y + I.djdt.y) + db * (B.gradJ0.y + B.djdt.y)),
          -(di * (I.gradJ0.z + I.djdt.z) + db * (B.gradJ0.z + B.djdt.z))⟩,
         ⟨di * I.curl.x + db * B.curl.x, di * I.curl.y + db * B.curl.y, di * I.curl.z + db * B.curl.z⟩) := by
  have hu : 0 < B.rho / rho0 := div_pos h rho0_pos
  have hne : B.rho ≠ 0 := h.ne'
  have h2 : B.rho / (168 / 1000) ≠ 0 := by positivity
  refine ⟨isospinEnergy P.sPot g,
    mev * (2 * P.sPot / rho0 + 2 * I.rho * (123 / 10 * (B.rho / rho0) ^ (2 / 3 : ℝ) + 20 * (B.rho / rho0) ^ g) /
      (B.rho * B.rho)),
    mev * (82 / 10 * (B.rho / rho0) ^ (-1 / 3 : ℝ) / rho0 + 20 * g * (B.rho / rho0) ^ g / B.rho +
      -2 * (123 / 10 * (B.rho / rho0) ^ (2 / 3 : ℝ) + 20 * (B.rho / rho0) ^ g) / B.rho) * I.rho * I.rho /
        (B.rho * B.rho),
    fun rI rB hr => (C125_symmetry_value P rI hr).2 g hg, ?_, ?_, ?_⟩
  · have h3 : HasDerivAt (fun r : ℝ => r / (168 / 1000)) (1 / (168 / 1000)) I.rho :=
      (hasDerivAt_id I.rho).div_const _
    have h4 : HasDerivAt (fun r : ℝ => r / B.rho) (1 / B.rho) I.rho := (hasDerivAt_id I.rho).div_const _
    have h5 : HasDerivAt (fun r : ℝ => (r / B.rho) ^ 2) (2 * I.rho / (B.rho * B.rho)) I.rho := by
      refine HasDerivAt.congr_deriv (h4.pow 2) ?_
      simp only [Nat.cast_ofNat, pow_one, Nat.add_one_sub_one, Nat.reduceSub]
      field_simp
    refine HasDerivAt.congr_deriv (((h3.const_mul (2 * P.sPot)).add (h5.const_mul
      (12.3 * (B.rho / (168 / 1000)) ^ (2 / 3 : ℝ) + 20 * (B.rho / (168 / 1000)) ^ g))).div_const 1000) ?_
    unfold mev rho0
    field_simp
    ring
  · have h1 : HasDerivAt (fun r : ℝ => r / (168 / 1000)) (1 / (168 / 1000)) B.rho :=
      (hasDerivAt_id B.rho).div_const _
    have h3 := (h1.rpow_const (p := (2 / 3 : ℝ)) (Or.inl h2)).const_mul 12.3
    have h4 := (h1.rpow_const (p := g) (Or.inl h2)).const_mul 20
    have h5 : HasDerivAt (fun r : ℝ => I.rho / r) (-I.rho / B.rho ^ 2) B.rho := by
      refine HasDerivAt.congr_deriv ((hasDerivAt_const B.rho I.rho).div (hasDerivAt_id B.rho) hne) ?_
      simp
    have h6 : HasDerivAt (fun r : ℝ => (I.rho / r) ^ 2) (-2 * I.rho ^ 2 / B.rho ^ 3) B.rho := by
      refine HasDerivAt.congr_deriv (h5.pow 2) ?_
      simp only [Nat.cast_ofNat, pow_one, Nat.add_one_sub_one, Nat.reduceSub]
      field_simp
    refine HasDerivAt.congr_deriv (((hasDerivAt_const B.rho (2 * P.sPot * (I.rho / (168 / 1000)))).add
      ((h3.add h4).mul h6)).div_const 1000) ?_
    have e : (B.rho / (168 / 1000)) ^ g = (B.rho / (168 / 1000)) ^ (g - 1) * (B.rho / (168 / 1000)) := by
      rw [Real.rpow_sub_one h2]; field_simp
    have e2 : (2 / 3 - 1 : ℝ) = -1 / 3 := by norm_num
    unfold mev rho0
    simp only [Pi.add_apply]
    rw [e2, e]
    generalize (B.rho / (168 / 1000)) ^ (g - 1) = X
    generalize (B.rho / (168 / 1000)) ^ (-1 / 3 : ℝ) = Y
    generalize (B.rho / (168 / 1000)) ^ (2 / 3 : ℝ) = Z
    field_simp
    ring
  · unfold symmetryForce dSymI dSymB
    simp only [hs, if_true, hg, symmetryS_ok g h, pow_ok hu, bind_ok, if_neg hne]
    simp only [zero3, V3.sub, V3.add, V3.smul]
    congr 2
    · congr 1 <;> ring
    · congr 1 <;> ring

/-- **C125 is false for a density dependent symmetry potential outside of matter**: where the baryon density is zero or
negative the potential and both factors of the force are not numbers. -/
theorem C125_symmetry_false (P : Pars) {g : ℝ} (hg : P.gamma = some g) (rhoI : ℝ) {rhoB : ℝ} (h : rhoB ≤ 0) :
    symmetryPot P rhoI rhoB = .error .nan ∧ dSymI P rhoB rhoI = .error .nan ∧ dSymB P rhoB rhoI = .error .nan := by
  rcases h.lt_or_eq with h | h
  · have hu : rhoB / rho0 < 0 := div_neg_of_neg_of_pos h rho0_pos
    unfold symmetryPot dSymI dSymB symmetryS
    simp only [hg, pow_neg hu]
    exact ⟨rfl, rfl, rfl⟩
  · subst h
    have e : pow (0 / rho0) (2 / 3) = .ok ((0 / rho0) ^ (2 / 3 : ℝ)) := by
      rw [zero_div]; exact pow_zero' le_rfl (by norm_num)
    have e' : pow (0 / rho0) (-1 / 3) = .error .nan := by
      rw [zero_div]; unfold pow; rw [if_pos (Or.inr ⟨rfl, by norm_num⟩)]
    unfold symmetryPot dSymI dSymB symmetryS
    simp only [hg, e, e', bind_ok]
    refine ⟨?_, ?_, rfl⟩
    · unfold pow; split_ifs <;> simp [bind_ok] <;> rfl
    · unfold pow; split_ifs <;> simp [bind_ok] <;> rfl

end Verif.Pot
