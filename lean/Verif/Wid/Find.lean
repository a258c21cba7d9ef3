import Mathlib.Tactic.Ring
import Mathlib.Tactic.Linarith
import Mathlib.Tactic.Positivity
import Mathlib.Tactic.FieldSimp
import Mathlib.Tactic.SplitIfs
import Mathlib.MeasureTheory.Measure.Lebesgue.Basic
import Verif.Rand.Props
import Verif.Wid.Width

/-!
C120: which decays are found in a time step, and when.
-/

namespace Verif.Wid

open Verif Kin MeasureTheory

/-- The decay rate of a particle of mass m and energy E in the frame of the calculation: Γ/ħ·m/E. -/
noncomputable def rate (width m E : ℝ) : ℝ := width / hbarc * (m / E)

theorem inverseGamma_eq {p : V4} {m : ℝ} (hE : 0 < p.t) (hm : 0 ≤ m)
    (h : p.t ^ 2 = m ^ 2 + p.vec.dot p.vec) : inverseGamma p = m / p.t := by
  unfold inverseGamma
  rw [Real.sqrt_eq_iff_mul_self_eq _ (by positivity)]
  · field_simp
    linarith
  · have : p.vec.dot p.vec / (p.t * p.t) ≤ 1 := by
      rw [div_le_one (by positivity)]; nlinarith
    linarith

/-- A random number between 0 (excluded) and 1 as drawn for the exponential distribution. -/
theorem decayTime_eq {F w : ℝ} {p : Part} {m u step : ℝ} (hE : 0 < p.momentum.t) (hm : 0 ≤ m)
    (h : p.momentum.t ^ 2 = m ^ 2 + p.momentum.vec.dot p.momentum.vec) :
    decayTime F w p u step = F * (-Real.log (Rand.canonicalNonzero u step) / rate w m p.momentum.t) +
      (if p.scaling < 1 then p.formation - p.time else 0) := by
  unfold decayTime Rand.exponential
  rw [inverseGamma_eq hE hm h]
  have e : 1 / hbarc * (m / p.momentum.t) * w = rate w m p.momentum.t := by unfold rate; ring
  simp only [e]
  split_ifs
  · rfl
  · rw [add_zero]

theorem log_iff {F k r dt : ℝ} (hF : 0 < F) (hk : 0 < k) (hr : 0 < r) :
    F * (-Real.log r / k) < dt ↔ Real.exp (-(k * dt / F)) < r := by
  rw [← Real.lt_log_iff_exp_lt hr]
  constructor
  · intro h
    have h1 : F * (-Real.log r / k) * (k / F) < dt * (k / F) := mul_lt_mul_of_pos_right h (by positivity)
    have e1 : F * (-Real.log r / k) * (k / F) = -Real.log r := by field_simp
    have e2 : dt * (k / F) = k * dt / F := by ring
    rw [e1, e2] at h1
    linarith
  · intro h
    have h1 : -Real.log r < k * dt / F := by linarith
    have := mul_lt_mul_of_pos_right h1 (show 0 < F / k by positivity)
    have e1 : F * (-Real.log r / k) = -Real.log r * (F / k) := by ring
    have e2 : k * dt / F * (F / k) = dt := by field_simp
    rw [e1]; rw [e2] at this; exact this

/-- A particle that can decay in the time step: its type, its hadronic widths, its kinematics. -/
structure Decaying (F : Finder) (R : Res) (p : Part) (m : ℝ) (l : List (Mode × ℝ)) : Prop where
  unstable : cutoff ≤ R.width
  initial : F.decayInitial = true ∨ p.collisions ≠ 0
  factor : 0 < F.lifetimeFactor
  energy : 0 < p.momentum.t
  mass : 0 < m
  shell : p.momentum.t ^ 2 = m ^ 2 + p.momentum.vec.dot p.momentum.vec
  widths : partialWidths R p.momentum.abs .hadronic R.modes = .ok l
  width : 0 < totalWeight l

theorem findOne_eq {F : Finder} {R : Res} {p : Part} {m : ℝ} {l : List (Mode × ℝ)}
    (h : Decaying F R p m l) (dt u step : ℝ) :
    findOne F R p dt u step = .ok (open Classical in
      if decayTime F.lifetimeFactor (totalWeight l) p u step < dt
        then some (decayTime F.lifetimeFactor (totalWeight l) p u step, l) else none) := by
  have hs : R.stable = false := decide_eq_false (not_lt.2 h.unstable)
  unfold findOne
  rw [if_neg (by rw [hs]; exact Bool.false_ne_true), if_neg, h.widths]
  · change (if ¬ totalWeight l > 0 then _ else _) = _
    rw [if_neg (not_not.2 h.width)]
  · rcases h.initial with h | h
    · simp [h]
    · simp [h]

/-- **C120.** A formed particle decays in the time step exactly if its random number r ∈ (0,1] is above
exp(-λ·dt/F) with the rate λ = Γ/ħ·m/E and the lifetime factor F; the time of the decay is then in
[0, dt). A particle that is not yet formed decays only after its formation, and exactly if r is above the value for
the time that is left. -/
theorem C120_decays {F : Finder} {R : Res} {p : Part} {m : ℝ} {l : List (Mode × ℝ)}
    (h : Decaying F R p m l) {dt u step : ℝ} (hu0 : 0 ≤ u) (hu1 : u < 1) (hs0 : 0 < step) (hs1 : step ≤ 1) :
    let r := Rand.canonicalNonzero u step
    let lam := rate (totalWeight l) m p.momentum.t / F.lifetimeFactor
    let wait := if p.scaling < 1 then p.formation - p.time else 0
    (r ≤ Real.exp (-(lam * (dt - wait))) → findOne F R p dt u step = .ok none) ∧
    (Real.exp (-(lam * (dt - wait))) < r →
      ∃ t, findOne F R p dt u step = .ok (some (t, l)) ∧ wait ≤ t ∧ t < dt) := by
  intro r lam wait
  obtain ⟨r0, r1, -⟩ := Rand.C55_exponential (lambda := 1) one_pos hs0 hs1 hu0 hu1
  have kpos : 0 < rate (totalWeight l) m p.momentum.t := by
    unfold rate
    have := hbarc_pos; have := h.width; have := h.mass; have := h.energy
    positivity
  have lpos : 0 < lam := div_pos kpos h.factor
  have te := decayTime_eq (F := F.lifetimeFactor) (w := totalWeight l) (u := u) (step := step)
    h.energy h.mass.le h.shell
  have iff := log_iff (dt := dt - wait) h.factor kpos r0
  have e : rate (totalWeight l) m p.momentum.t * (dt - wait) / F.lifetimeFactor = lam * (dt - wait) := by
    simp only [lam]; ring
  rw [e] at iff
  rw [findOne_eq h]
  have cond : decayTime F.lifetimeFactor (totalWeight l) p u step < dt ↔
      Real.exp (-(lam * (dt - wait))) < r := by
    rw [te, ← iff]
    change _ + wait < dt ↔ _
    constructor <;> intro h <;> linarith
  refine ⟨?_, ?_⟩
  · intro hr
    rw [if_neg (by rw [cond]; exact not_lt.2 hr)]
  · intro hr
    rw [if_pos (cond.2 hr)]
    refine ⟨_, rfl, ?_, cond.2 hr⟩
    rw [te]
    change wait ≤ _ + wait
    have : 0 ≤ F.lifetimeFactor * (-Real.log r / rate (totalWeight l) m p.momentum.t) := by
      have h1 := Real.log_nonpos r0.le r1
      have := h.factor
      have : 0 ≤ -Real.log r := by linarith
      positivity
    linarith

/-- **C120.** Whatever the time steps, the decays follow the exponential law: the probability not to decay
in a step of length dt is exp(-λ·dt/F), so that the probability to survive any sequence of steps depends
only on its total length. -/
theorem C120_exponential_law {k F : ℝ} (hk : 0 < k) (hF : 0 < F) (dts : List ℝ)
    (hd : ∀ dt ∈ dts, 0 ≤ dt) :
    (dts.map fun dt => volume {r : ℝ | 0 < r ∧ r ≤ 1 ∧ ¬ F * (-Real.log r / k) < dt}).prod =
      ENNReal.ofReal (Real.exp (-(k / F * dts.sum))) := by
  have one : ∀ dt : ℝ, 0 ≤ dt → volume {r : ℝ | 0 < r ∧ r ≤ 1 ∧ ¬ F * (-Real.log r / k) < dt} =
      ENNReal.ofReal (Real.exp (-(k / F * dt))) := by
    intro dt h0
    have : {r : ℝ | 0 < r ∧ r ≤ 1 ∧ ¬ F * (-Real.log r / k) < dt} = Set.Ioc 0 (Real.exp (-(k / F * dt))) := by
      ext r
      simp only [Set.mem_setOf_eq, Set.mem_Ioc]
      have e : k * dt / F = k / F * dt := by ring
      constructor
      · rintro ⟨h1, h2, h3⟩
        rw [log_iff hF hk h1, not_lt, e] at h3
        exact ⟨h1, h3⟩
      · rintro ⟨h1, h2⟩
        refine ⟨h1, h2.trans ?_, ?_⟩
        · rw [← Real.exp_zero]
          apply Real.exp_le_exp.2
          have : 0 ≤ k / F * dt := by positivity
          linarith
        · rw [log_iff hF hk h1, not_lt, e]; exact h2
    rw [this, Real.volume_Ioc, sub_zero]
  induction dts with
  | nil => simp
  | cons dt l ih =>
    rw [List.map_cons, List.prod_cons, ih fun d hd' => hd d (List.mem_cons_of_mem _ hd'),
      one dt (hd dt List.mem_cons_self), ← ENNReal.ofReal_mul (Real.exp_nonneg _), ← Real.exp_add,
      List.sum_cons]
    congr 2
    ring

/-- **C120.** No decay is found for stable particles, for particles that have not yet interacted if initial
particles are not to decay, and if no hadronic decay is open. -/
theorem C120_none (F : Finder) (R : Res) (p : Part) (dt u step : ℝ) :
    (R.width < 1 / 100000 → findOne F R p dt u step = .ok none) ∧
    (F.decayInitial = false → p.collisions = 0 → findOne F R p dt u step = .ok none) ∧
    (∀ l, partialWidths R p.momentum.abs .hadronic R.modes = .ok l → totalWeight l ≤ 0 →
      findOne F R p dt u step = .ok none) := by
  refine ⟨?_, ?_, ?_⟩
  · intro h
    unfold findOne
    rw [if_pos (show R.stable = true from decide_eq_true h)]
  · intro h1 h2
    unfold findOne
    split_ifs with a b
    · rfl
    · rfl
    · exact absurd (by simp [h1, h2]) b
  · intro l h1 h2
    unfold findOne
    split_ifs with a b
    · rfl
    · rfl
    · rw [h1]
      change (if ¬ totalWeight l > 0 then _ else _) = _
      rw [if_pos (not_lt.2 h2)]

/-- **C120.** At the end of the event, if final decays are wanted, exactly the particles that have decay
modes, and that are unstable unless weak and electromagnetic decays are wanted too, decay, with all their
open modes. -/
theorem C120_final {F : Finder} {R : Res} {p : Part} (hw : 0 ≤ R.width)
    (hR : ∀ D ∈ R.modes, D.Valid R.mass) :
    ((F.findFinal = true ∧ R.modes ≠ [] ∧ (F.nonStrong = true ∨ 1 / 100000 ≤ R.width)) →
      ∃ l, findFinalOne F R p = .ok (some l) ∧
        ∀ D v, (D, v) ∈ l ↔ D ∈ R.modes ∧ partialWidth R p.momentum.abs D = .ok v ∧ 0 < v) ∧
    (¬ (F.findFinal = true ∧ R.modes ≠ [] ∧ (F.nonStrong = true ∨ 1 / 100000 ≤ R.width)) →
      findFinalOne F R p = .ok none) := by
  have hs : R.stable = false ↔ 1 / 100000 ≤ R.width := by
    unfold Res.stable
    rw [decide_eq_false_iff_not, not_lt]; rfl
  obtain ⟨a, -, -, ea, -, -, ma, -⟩ := C117_branches hw hR p.momentum.abs
  refine ⟨?_, ?_⟩
  · rintro ⟨h1, h2, h3⟩
    refine ⟨a, ?_, ma⟩
    unfold findFinalOne
    rw [if_neg (by simp [h1]), if_neg, if_neg (by simpa using h2), ea]
    · rfl
    · rcases h3 with h | h
      · simp [h]
      · simp [hs.2 h]
  · intro h
    unfold findFinalOne
    split_ifs with a b c
    · rfl
    · rfl
    · rfl
    · exfalso
      apply h
      refine ⟨by simpa using a, by simpa using c, ?_⟩
      by_contra hc
      rw [not_or] at hc
      apply b
      have n : R.stable = true := by
        by_contra hn
        exact hc.2 (hs.1 (Bool.not_eq_true _ ▸ hn))
      simp [n, hc.1]

/-- A resting particle of the type `rho0` with its pole mass can decay. -/
example : ∃ l, Decaying ⟨1, true, true, false⟩ rho0 ⟨⟨776 / 1000, 0, 0, 0⟩, 0, 1, 0, 1⟩ (776 / 1000) l := by
  have hV : ∀ D ∈ rho0.modes, D.Valid rho0.mass := by
    intro D hD
    simp only [rho0, List.mem_cons, List.not_mem_nil, or_false] at hD
    rcases hD with rfl | rfl <;> norm_num [Mode.Valid, rho0]
  have hab : (⟨776 / 1000, 0, 0, 0⟩ : V4).abs = rho0.mass := by
    have : (⟨776 / 1000, 0, 0, 0⟩ : V4).sqr = (776 / 1000) * (776 / 1000) := by
      norm_num [V4.sqr, V4.dot, V4.vec, V3.dot]
    unfold V4.abs
    rw [this, Real.sqrt_mul_self (by norm_num)]
    rfl
  obtain ⟨a, b, d, -, eb, -, -, mb, -⟩ := C117_branches (R := rho0) (by norm_num [rho0]) hV rho0.mass
  have hp := C117_pole (hV _ (by simp [rho0] : (⟨276 / 1000, 999 / 1000,
    .stable (138 / 1000) (138 / 1000) 1⟩ : Mode) ∈ rho0.modes)) trivial
  have hm := (mb ⟨276 / 1000, 999 / 1000, .stable (138 / 1000) (138 / 1000) 1⟩ _).2
    ⟨by simp [rho0], hp, by norm_num [rho0], by simp [leptonic]⟩
  have pos : ∀ x ∈ b, 0 < x.2 := fun ⟨D, v⟩ hx => ((mb D v).1 hx).2.2.1
  refine ⟨b, by norm_num [cutoff, rho0], .inl rfl, one_pos, by norm_num, by norm_num, ?_, ?_, ?_⟩
  · simp [V4.vec, V3.dot]
  · rw [hab]; exact eb
  · unfold totalWeight
    have := List.single_le_sum (l := b.map Prod.snd) (by
      intro x hx
      obtain ⟨y, hy, rfl⟩ := List.mem_map.1 hx
      exact (pos y hy).le) _ (List.mem_map_of_mem hm)
    exact lt_of_lt_of_le (pos _ hm) this

end Verif.Wid
