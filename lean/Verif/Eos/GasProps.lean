import Verif.Eos.Gas
import Mathlib.Tactic.Ring
import Mathlib.Tactic.Linarith
import Mathlib.Tactic.NormNum
import Mathlib.Tactic.FieldSimp
import Mathlib.Tactic.Positivity
import Mathlib.Tactic.SplitIfs
import Mathlib.Analysis.Complex.ExponentialBounds
import Mathlib.Analysis.Real.Pi.Bounds
import Mathlib.Algebra.BigOperators.Group.List.Basic
import Mathlib.Algebra.Order.BigOperators.Group.List

/-!
C149: the ideal hadron gas.
-/

namespace Verif.Eos

open Real

/-! ### Sums -/

theorem loopSum_eq (b : Bessel) (th : Th) (skip : Species → Bool) (w : Species → ℝ) : ∀ (l : List Species) (r : ℝ),
    loopSum b th skip w l r = r + ((l.filter fun s => !skip s).map fun s => scaled b s th * w s).sum
  | [], r => by simp [loopSum]
  | s :: l, r => by
    unfold loopSum
    cases h : skip s
    · rw [if_neg (by simp), loopSum_eq b th skip w l, List.filter_cons_of_pos (by simp [h]), List.map_cons, List.sum_cons]
      ring
    · rw [if_pos rfl, loopSum_eq b th skip w l, List.filter_cons_of_neg (by simp [h])]

/-- The species which belong to the gas. -/
def gas (l : List Species) : List Species := l.filter fun s => s.eos

theorem loopSum_skip (b : Bessel) (th : Th) (w : Species → ℤ) (l : List Species) :
    loopSum b th (fun s => w s == 0 || !s.eos) (fun s => w s) l 0 = ((gas l).map fun s => scaled b s th * w s).sum := by
  rw [loopSum_eq, zero_add]
  unfold gas
  induction l with
  | nil => rfl
  | cons s l ih =>
    by_cases h : s.eos = true
    · rw [List.filter_cons_of_pos (p := fun s : Species => s.eos) h, List.map_cons, List.sum_cons, ← ih]
      by_cases h0 : w s = 0
      · rw [List.filter_cons_of_neg (by simp [h0]), h0]
        simp
      · rw [List.filter_cons_of_pos (by simp [h0, h]), List.map_cons, List.sum_cons]
    · rw [List.filter_cons_of_neg (p := fun s : Species => s.eos) (by simpa using h), List.filter_cons_of_neg (by simp [h]), ih]

theorem sum_partial (b : Bessel) (th : Th) (hT : ¬ th.T < small) (w : Species → ℝ) : ∀ (l : List Species),
    (l.map fun s => scaled b s th * w s).sum * (prefactor * th.T * th.T * th.T) =
      (l.map fun s => w s * partialDensity b s th).sum
  | [] => by simp
  | s :: l => by
    rw [List.map_cons, List.sum_cons, add_mul, sum_partial b th hT w l, List.map_cons, List.sum_cons]
    unfold partialDensity
    rw [if_neg hT]
    ring

/-- **C149 (sums).** At every temperature and for all chemical potentials the density is the sum of the partial densities of the species of
the gas, the net densities are these sums weighted with baryon number, strangeness and charge, and the pressure is the
temperature times the density. -/
theorem C149_sums (b : Bessel) (l : List Species) (th : Th) :
    density b l th = ((gas l).map fun s => partialDensity b s th).sum ∧
    netB b l th = ((gas l).map fun s => (s.B : ℝ) * partialDensity b s th).sum ∧
    netS b l th = ((gas l).map fun s => (s.S : ℝ) * partialDensity b s th).sum ∧
    netQ b l th = ((gas l).map fun s => (s.Q : ℝ) * partialDensity b s th).sum ∧
    pressure b l th = th.T * density b l th := by
  by_cases hT : th.T < small
  · have hz : ∀ w : Species → ℝ, ((gas l).map fun s => w s * partialDensity b s th).sum = 0 := by
      intro w
      apply List.sum_eq_zero
      intro x hx
      obtain ⟨s, -, rfl⟩ := List.mem_map.1 hx
      unfold partialDensity
      rw [if_pos hT, mul_zero]
    refine ⟨?_, ?_, ?_, ?_, rfl⟩
    · have := hz fun _ => 1
      simp only [one_mul] at this
      rw [this]
      exact if_pos hT
    · rw [hz]; exact if_pos hT
    · rw [hz]; exact if_pos hT
    · rw [hz]; exact if_pos hT
  · refine ⟨?_, ?_, ?_, ?_, rfl⟩
    · unfold density
      rw [if_neg hT, loopSum_eq, zero_add]
      have := sum_partial b th hT (fun _ => 1) (gas l)
      simp only [one_mul] at this
      rw [← this]
      simp [gas]
    · unfold netB
      rw [if_neg hT, loopSum_skip]
      exact sum_partial b th hT _ _
    · unfold netS
      rw [if_neg hT, loopSum_skip]
      exact sum_partial b th hT _ _
    · unfold netQ
      rw [if_neg hT, loopSum_skip]
      exact sum_partial b th hT _ _

/-! ### Partial densities -/

theorem prefactor_pos : 0 < prefactor := by
  unfold prefactor hbarc
  have := Real.pi_pos
  positivity

theorem small_pos : 0 < small := by unfold small; norm_num

theorem aux_nonneg (b : Bessel) (hK : ∀ z, 0 ≤ b.K2 z) (z mu : ℝ) : 0 ≤ aux b z mu := by
  unfold aux
  simp only
  split_ifs
  · exact le_refl _
  · positivity
  · have := hK z
    have := exp_pos (mu - z)
    have : 0 ≤ z * z := mul_self_nonneg z
    positivity

theorem aux_mono (b : Bessel) (hK : ∀ z, 0 ≤ b.K2 z) (z : ℝ) {m m' : ℝ} (h : m ≤ m') : aux b z m ≤ aux b z m' := by
  have h2 : 0 ≤ aux b z m' := aux_nonneg b hK z m'
  by_cases hc : m - z < -500
  · have : aux b z m = 0 := by unfold aux; exact if_pos hc
    rw [this]
    exact h2
  · have he : exp (m - z) ≤ exp (m' - z) := exp_le_exp.2 (by linarith)
    have hc' : ¬ m' - z < -500 := by intro h'; apply hc; linarith
    unfold aux
    simp only
    rw [if_neg hc, if_neg hc']
    by_cases hz : z < small
    · rw [if_pos hz, if_pos hz]
      linarith
    · rw [if_neg hz, if_neg hz]
      exact mul_le_mul_of_nonneg_right (mul_le_mul_of_nonneg_left he (mul_self_nonneg z)) (hK z)

theorem partial_nonneg (b : Bessel) (hK : ∀ z, 0 ≤ b.K2 z) (s : Species) (th : Th) : 0 ≤ partialDensity b s th := by
  unfold partialDensity
  split_ifs with h
  · exact le_refl _
  · have hT : 0 < th.T := lt_of_lt_of_le small_pos (not_lt.1 h)
    have h1 := prefactor_pos
    have h2 := aux_nonneg b hK (s.mass * (1 / th.T)) (muOver s th)
    unfold scaled
    positivity

/-- The partial density of a Boltzmann gas: `g m² T / (2 π² (ħ c)³) exp(μ / T) K₂(m / T)`. -/
noncomputable def boltzmann (K2 : ℝ → ℝ) (s : Species) (th : Th) : ℝ :=
  ((s.spin : ℝ) + 1) * s.mass ^ 2 * th.T / (2 * π ^ 2 * (197327053 / 1000000000) ^ 3) *
    exp ((s.B * th.mub + s.S * th.mus + s.Q * th.muq) / th.T) * K2 (s.mass / th.T)

/-- **C149 (Boltzmann gas).** For massive species, when the scaled function is the Bessel function times the exponential, the partial density
is that of a Boltzmann gas, unless the mass exceeds the chemical potential by more than 500 temperatures: then the
program takes 0. -/
theorem C149_boltzmann (b : Bessel) (K2 : ℝ → ℝ) (hK : ∀ z, 0 < z → b.K2 z = exp z * K2 z) (s : Species) (th : Th)
    (hT : small ≤ th.T) (hm : small ≤ s.mass / th.T) :
    ((s.B * th.mub + s.S * th.mus + s.Q * th.muq - s.mass) / th.T < -500 → partialDensity b s th = 0) ∧
    (-500 ≤ (s.B * th.mub + s.S * th.mus + s.Q * th.muq - s.mass) / th.T → partialDensity b s th = boltzmann K2 s th) := by
  have hT0 : 0 < th.T := lt_of_lt_of_le small_pos hT
  have hz : s.mass * (1 / th.T) = s.mass / th.T := by ring
  have hx : muOver s th - s.mass * (1 / th.T) = (s.B * th.mub + s.S * th.mus + s.Q * th.muq - s.mass) / th.T := by
    unfold muOver; ring
  have hz0 : 0 < s.mass / th.T := lt_of_lt_of_le small_pos hm
  unfold partialDensity scaled aux
  simp only
  rw [if_neg (not_lt.2 hT), hx, hz]
  refine ⟨fun h => by rw [if_pos h]; ring, fun h => ?_⟩
  rw [if_neg (not_lt.2 h), if_neg (not_lt.2 hm), hK _ hz0]
  unfold boltzmann prefactor hbarc
  have he : exp ((s.B * th.mub + s.S * th.mus + s.Q * th.muq - s.mass) / th.T) * exp (s.mass / th.T) =
      exp ((s.B * th.mub + s.S * th.mus + s.Q * th.muq) / th.T) := by
    rw [← exp_add]
    congr 1
    ring
  rw [← he]
  have hpi := Real.pi_pos.ne'
  generalize exp ((s.B * th.mub + s.S * th.mus + s.Q * th.muq - s.mass) / th.T) = E
  generalize exp (s.mass / th.T) = F
  generalize hk : K2 (s.mass / th.T) = k
  field_simp

/-! ### Dependence on the chemical potentials -/

/-- **C149 (monotony).** The net baryon density never decreases when the baryon chemical potential increases, and the same holds for
strangeness and charge. -/
theorem C149_monotone (b : Bessel) (hK : ∀ z, 0 ≤ b.K2 z) (l : List Species) (T mub mus muq x y : ℝ) (hxy : x ≤ y) :
    netB b l ⟨T, x, mus, muq⟩ ≤ netB b l ⟨T, y, mus, muq⟩ ∧
    netS b l ⟨T, mub, x, muq⟩ ≤ netS b l ⟨T, mub, y, muq⟩ ∧
    netQ b l ⟨T, mub, mus, x⟩ ≤ netQ b l ⟨T, mub, mus, y⟩ := by
  have key : ∀ (s : Species) (w : ℤ) (t t' : Th), t.T = T → t'.T = T → (0 ≤ w → muOver s t ≤ muOver s t') →
      (w ≤ 0 → muOver s t' ≤ muOver s t) → (w : ℝ) * partialDensity b s t ≤ (w : ℝ) * partialDensity b s t' := by
    intro s w t t' h1 h2 h3 h4
    unfold partialDensity
    rw [h1, h2]
    split_ifs with hT
    · exact le_refl _
    · have hT0 : 0 < T := lt_of_lt_of_le small_pos (not_lt.1 hT)
      have hp := prefactor_pos
      have hc : 0 ≤ prefactor * T * T * T := by positivity
      have hsc : (w : ℝ) * scaled b s t ≤ (w : ℝ) * scaled b s t' := by
        unfold scaled
        rw [h1, h2]
        rcases le_total 0 w with hw | hw
        · have := aux_mono b hK (s.mass * (1 / T)) (h3 hw)
          have hw' : (0 : ℝ) ≤ w := by exact_mod_cast hw
          gcongr
        · have := aux_mono b hK (s.mass * (1 / T)) (h4 hw)
          have hw' : (w : ℝ) ≤ 0 := by exact_mod_cast hw
          apply mul_le_mul_of_nonpos_left _ hw'
          gcongr
      have := mul_le_mul_of_nonneg_left hsc hc
      linarith
  have hmu : ∀ (w : ℤ) (r : ℝ), small ≤ T → (0 ≤ w → 1 / T * (w * x + r) ≤ 1 / T * (w * y + r)) ∧
      (w ≤ 0 → 1 / T * (w * y + r) ≤ 1 / T * (w * x + r)) := by
    intro w r hT
    have hT0 : 0 < T := lt_of_lt_of_le small_pos hT
    constructor
    · intro hw
      have hw' : (0 : ℝ) ≤ w := by exact_mod_cast hw
      gcongr
    · intro hw
      have hw' : (w : ℝ) ≤ 0 := by exact_mod_cast hw
      have := mul_le_mul_of_nonpos_left hxy hw'
      gcongr
  by_cases hT : T < small
  · simp only [netB, netS, netQ, if_pos hT]
    exact ⟨le_refl _, le_refl _, le_refl _⟩
  have hT' := not_lt.1 hT
  have hb := C149_sums b l
  refine ⟨?_, ?_, ?_⟩
  · rw [(hb _).2.1, (hb _).2.1]
    apply List.sum_le_sum
    intro s _
    apply key s s.B _ _ rfl rfl
    · intro hw
      have := (hmu s.B (s.S * mus + s.Q * muq) hT').1 hw
      unfold muOver
      simp only
      linarith
    · intro hw
      have := (hmu s.B (s.S * mus + s.Q * muq) hT').2 hw
      unfold muOver
      simp only
      linarith
  · rw [(hb _).2.2.1, (hb _).2.2.1]
    apply List.sum_le_sum
    intro s _
    apply key s s.S _ _ rfl rfl
    · intro hw
      have := (hmu s.S (s.B * mub + s.Q * muq) hT').1 hw
      unfold muOver
      simp only
      linarith
    · intro hw
      have := (hmu s.S (s.B * mub + s.Q * muq) hT').2 hw
      unfold muOver
      simp only
      linarith
  · rw [(hb _).2.2.2.1, (hb _).2.2.2.1]
    apply List.sum_le_sum
    intro s _
    apply key s s.Q _ _ rfl rfl
    · intro hw
      have := (hmu s.Q (s.B * mub + s.S * mus) hT').1 hw
      unfold muOver
      simp only
      linarith
    · intro hw
      have := (hmu s.Q (s.B * mub + s.S * mus) hT').2 hw
      unfold muOver
      simp only
      linarith

/-- The antiparticle. -/
def conj (s : Species) : Species := { s with B := -s.B, S := -s.S, Q := -s.Q }

theorem partial_conj (b : Bessel) (s : Species) (T mub mus muq : ℝ) :
    partialDensity b (conj s) ⟨T, -mub, -mus, -muq⟩ = partialDensity b s ⟨T, mub, mus, muq⟩ := by
  have : muOver (conj s) ⟨T, -mub, -mus, -muq⟩ = muOver s ⟨T, mub, mus, muq⟩ := by
    unfold muOver conj
    push_cast
    ring
  unfold partialDensity scaled
  simp only [this]
  rfl

theorem gas_conj (l : List Species) : gas (l.map conj) = (gas l).map conj := by
  unfold gas
  rw [List.filter_map]
  rfl

/-- **C149 (antiparticles).** If the list contains with every species its antiparticle, opposite chemical potentials give the same density
and opposite net densities; without chemical potentials all net densities vanish. -/
theorem C149_conjugate (b : Bessel) (l : List Species) (hl : (l.map conj).Perm l) (T mub mus muq : ℝ) :
    density b l ⟨T, -mub, -mus, -muq⟩ = density b l ⟨T, mub, mus, muq⟩ ∧
    netB b l ⟨T, -mub, -mus, -muq⟩ = -netB b l ⟨T, mub, mus, muq⟩ ∧
    netS b l ⟨T, -mub, -mus, -muq⟩ = -netS b l ⟨T, mub, mus, muq⟩ ∧
    netQ b l ⟨T, -mub, -mus, -muq⟩ = -netQ b l ⟨T, mub, mus, muq⟩ ∧
    netB b l ⟨T, 0, 0, 0⟩ = 0 ∧ netS b l ⟨T, 0, 0, 0⟩ = 0 ∧ netQ b l ⟨T, 0, 0, 0⟩ = 0 := by
  have hperm : ((gas l).map conj).Perm (gas l) := by
    rw [← gas_conj]
    exact hl.filter _
  have main : ∀ (w : Species → ℝ) (ε : ℝ), (∀ s, w (conj s) = ε * w s) → ∀ mub mus muq : ℝ,
      ((gas l).map fun s => w s * partialDensity b s ⟨T, -mub, -mus, -muq⟩).sum =
        ε * ((gas l).map fun s => w s * partialDensity b s ⟨T, mub, mus, muq⟩).sum := by
    intro w ε hw mub mus muq
    rw [← (hperm.map fun s => w s * partialDensity b s ⟨T, -mub, -mus, -muq⟩).sum_eq, List.map_map, ← List.sum_map_mul_left]
    congr 1
    apply List.map_congr_left
    intro s _
    simp only [Function.comp]
    rw [partial_conj, hw]
    ring
  have m1 := main (fun _ => 1) 1 (fun _ => by norm_num) mub mus muq
  have m2 := main (fun s => s.B) (-1) (fun s => by simp [conj])
  have m3 := main (fun s => s.S) (-1) (fun s => by simp [conj])
  have m4 := main (fun s => s.Q) (-1) (fun s => by simp [conj])
  simp only [one_mul] at m1
  have s0 := C149_sums b l ⟨T, 0, 0, 0⟩
  have z2 := m2 0 0 0
  have z3 := m3 0 0 0
  have z4 := m4 0 0 0
  rw [neg_zero] at z2 z3 z4
  refine ⟨?_, ?_, ?_, ?_, ?_, ?_, ?_⟩
  · rw [(C149_sums b l _).1, (C149_sums b l _).1]
    exact m1
  · rw [(C149_sums b l _).2.1, (C149_sums b l _).2.1, m2]; ring
  · rw [(C149_sums b l _).2.2.1, (C149_sums b l _).2.2.1, m3]; ring
  · rw [(C149_sums b l _).2.2.2.1, (C149_sums b l _).2.2.2.1, m4]; ring
  · rw [s0.2.1]; linarith
  · rw [s0.2.2.1]; linarith
  · rw [s0.2.2.2.1]; linarith

/-! ### Energy -/

/-- A species is suppressed when its mass exceeds its chemical potential by more than 500 temperatures. -/
def Suppressed (s : Species) (th : Th) : Prop := (s.B * th.mub + s.S * th.mus + s.Q * th.muq - s.mass) / th.T < -500

/-- The energy density of a Boltzmann gas over the pressure term: `3 n T + m n K₁ / K₂` for the species. -/
noncomputable def boltzmannEnergy (K1 K2 : ℝ → ℝ) (s : Species) (th : Th) : ℝ :=
  ((s.spin : ℝ) + 1) * s.mass ^ 2 * th.T ^ 2 / (2 * π ^ 2 * (197327053 / 1000000000) ^ 3) *
    exp ((s.B * th.mub + s.S * th.mus + s.Q * th.muq) / th.T) *
    (3 * K2 (s.mass / th.T) + s.mass / th.T * K1 (s.mass / th.T))

theorem energySum_none (b : Bessel) (th : Th) : ∀ (l : List Species) (e : ℝ), (∃ s ∈ gas l, Suppressed s th) →
    energySum b th l e = none
  | [], _, h => by obtain ⟨s, hs, -⟩ := h; simp [gas] at hs
  | s :: l, e, h => by
    unfold energySum
    have hx : 1 / th.T * (th.mub * s.B + th.mus * s.S + th.muq * s.Q - s.mass) =
        (s.B * th.mub + s.S * th.mus + s.Q * th.muq - s.mass) / th.T := by ring
    by_cases he : s.eos = true
    · rw [if_neg (by simp [he])]
      simp only [hx]
      by_cases hc : Suppressed s th
      · exact if_pos hc
      · rw [if_neg (show ¬ ((s.B * th.mub + s.S * th.mus + s.Q * th.muq - s.mass) / th.T < -500) from hc)]
        apply energySum_none
        obtain ⟨s', hs', hsup⟩ := h
        rw [gas, List.filter_cons_of_pos (by simp [he]), List.mem_cons] at hs'
        rcases hs' with rfl | hs'
        · exact absurd hsup hc
        · exact ⟨s', hs', hsup⟩
    · rw [if_pos (by simp [he])]
      apply energySum_none
      obtain ⟨s', hs', hsup⟩ := h
      rw [gas, List.filter_cons_of_neg (by simp [he])] at hs'
      exact ⟨s', hs', hsup⟩

theorem energySum_some (b : Bessel) (th : Th) : ∀ (l : List Species) (e : ℝ), (∀ s ∈ gas l, ¬ Suppressed s th) →
    (∀ s ∈ gas l, small ≤ s.mass / th.T) →
    energySum b th l e = some (e + ((gas l).map fun s => s.mass / th.T * (s.mass / th.T) * ((s.spin : ℝ) + 1) *
      exp ((s.B * th.mub + s.S * th.mus + s.Q * th.muq - s.mass) / th.T) *
      (3 * b.K2 (s.mass / th.T) + s.mass / th.T * b.K1 (s.mass / th.T))).sum)
  | [], e, _, _ => by simp [energySum, gas]
  | s :: l, e, h, hm => by
    unfold energySum
    have hx : 1 / th.T * (th.mub * s.B + th.mus * s.S + th.muq * s.Q - s.mass) =
        (s.B * th.mub + s.S * th.mus + s.Q * th.muq - s.mass) / th.T := by ring
    have hz : s.mass * (1 / th.T) = s.mass / th.T := by ring
    by_cases he : s.eos = true
    · have hg : gas (s :: l) = s :: gas l := List.filter_cons_of_pos (by simp [he])
      rw [hg] at h hm ⊢
      rw [if_neg (by simp [he])]
      simp only [hx, hz]
      rw [if_neg (show ¬ ((s.B * th.mub + s.S * th.mus + s.Q * th.muq - s.mass) / th.T < -500) from h s List.mem_cons_self), if_neg (not_lt.2 (hm s List.mem_cons_self)),
        energySum_some b th l _ (fun s' hs' => h s' (List.mem_cons_of_mem _ hs')) fun s' hs' => hm s' (List.mem_cons_of_mem _ hs'),
        List.map_cons, List.sum_cons]
      congr 1
      ring
    · have hg : gas (s :: l) = gas l := List.filter_cons_of_neg (by simp [he])
      rw [hg] at h hm ⊢
      rw [if_pos (by simp [he])]
      exact energySum_some b th l e h hm

/-- **C149 (energy).** When no species is suppressed the energy density is that of a Boltzmann gas of the massive species. -/
theorem C149_energy (b : Bessel) (K1 K2 : ℝ → ℝ) (hK1 : ∀ z, 0 < z → b.K1 z = exp z * K1 z)
    (hK2 : ∀ z, 0 < z → b.K2 z = exp z * K2 z) (l : List Species) (th : Th) (hT : small ≤ th.T)
    (hm : ∀ s ∈ gas l, small ≤ s.mass / th.T) (hs : ∀ s ∈ gas l, ¬ Suppressed s th) :
    energy b l th = ((gas l).map fun s => boltzmannEnergy K1 K2 s th).sum := by
  have hT0 : 0 < th.T := lt_of_lt_of_le small_pos hT
  unfold energy
  rw [if_neg (not_lt.2 hT), energySum_some b th l 0 hs hm]
  simp only [zero_add]
  rw [← List.sum_map_mul_right]
  congr 1
  apply List.map_congr_left
  intro s hsm
  have hz0 : 0 < s.mass / th.T := lt_of_lt_of_le small_pos (hm s hsm)
  rw [hK1 _ hz0, hK2 _ hz0]
  unfold boltzmannEnergy prefactor hbarc
  have he : exp ((s.B * th.mub + s.S * th.mus + s.Q * th.muq - s.mass) / th.T) * exp (s.mass / th.T) =
      exp ((s.B * th.mub + s.S * th.mus + s.Q * th.muq) / th.T) := by
    rw [← exp_add]
    congr 1
    ring
  rw [← he]
  have hpi := Real.pi_pos.ne'
  generalize exp ((s.B * th.mub + s.S * th.mus + s.Q * th.muq - s.mass) / th.T) = E
  generalize exp (s.mass / th.T) = F
  generalize hk : K2 (s.mass / th.T) = k
  generalize hk : K1 (s.mass / th.T) = k'
  field_simp

/-- **C149 (energy and pressure).** When no species is suppressed the energy density is at least three times the pressure, and if `K₁ ≤ K₂` it
exceeds it by at most the density of rest energy. -/
theorem C149_energy_pressure (b : Bessel) (hK1 : ∀ z, 0 ≤ b.K1 z) (hK2 : ∀ z, 0 ≤ b.K2 z) (l : List Species) (th : Th)
    (hT : small ≤ th.T) (hm : ∀ s ∈ gas l, small ≤ s.mass / th.T) (hs : ∀ s ∈ gas l, ¬ Suppressed s th) :
    3 * pressure b l th ≤ energy b l th ∧
    ((∀ z, b.K1 z ≤ b.K2 z) → energy b l th ≤ 3 * pressure b l th + ((gas l).map fun s => s.mass * partialDensity b s th).sum) := by
  have hT0 : 0 < th.T := lt_of_lt_of_le small_pos hT
  have hp := prefactor_pos
  have hd : ∀ s ∈ gas l, partialDensity b s th = prefactor * th.T * th.T * th.T * (((s.spin : ℝ) + 1) *
      (s.mass / th.T * (s.mass / th.T) * exp ((s.B * th.mub + s.S * th.mus + s.Q * th.muq - s.mass) / th.T) * b.K2 (s.mass / th.T))) := by
    intro s hsm
    have hz : s.mass * (1 / th.T) = s.mass / th.T := by ring
    have hx : muOver s th - s.mass * (1 / th.T) = (s.B * th.mub + s.S * th.mus + s.Q * th.muq - s.mass) / th.T := by
      unfold muOver; ring
    unfold partialDensity scaled aux
    simp only
    rw [if_neg (not_lt.2 hT), hx, hz, if_neg (show ¬ ((s.B * th.mub + s.S * th.mus + s.Q * th.muq - s.mass) / th.T < -500) from hs s hsm), if_neg (not_lt.2 (hm s hsm))]
  unfold pressure energy
  rw [(C149_sums b l th).1, if_neg (not_lt.2 hT), energySum_some b th l 0 hs hm]
  simp only [zero_add]
  rw [← List.sum_map_mul_right, ← List.sum_map_mul_left, ← List.sum_map_mul_left, ← List.sum_map_add]
  constructor
  · apply List.sum_le_sum
    intro s hsm
    rw [hd s hsm]
    have hz0 : 0 < s.mass / th.T := lt_of_lt_of_le small_pos (hm s hsm)
    have h1 := hK1 (s.mass / th.T)
    have h3 := exp_pos ((s.B * th.mub + s.S * th.mus + s.Q * th.muq - s.mass) / th.T)
    generalize exp ((s.B * th.mub + s.S * th.mus + s.Q * th.muq - s.mass) / th.T) = E at *
    generalize s.mass / th.T = z at *
    have : 0 ≤ z * z * ((s.spin : ℝ) + 1) * E * (z * b.K1 z) * (prefactor * th.T * th.T * th.T * th.T) := by positivity
    linarith
  · intro h12
    apply List.sum_le_sum
    intro s hsm
    rw [hd s hsm]
    have hz0 : 0 < s.mass / th.T := lt_of_lt_of_le small_pos (hm s hsm)
    have h1 := h12 (s.mass / th.T)
    have h3 := exp_pos ((s.B * th.mub + s.S * th.mus + s.Q * th.muq - s.mass) / th.T)
    have hmz : s.mass = s.mass / th.T * th.T := by field_simp
    generalize exp ((s.B * th.mub + s.S * th.mus + s.Q * th.muq - s.mass) / th.T) = E at *
    generalize s.mass / th.T = z at *
    rw [hmz]
    have : 0 ≤ z * z * ((s.spin : ℝ) + 1) * E * (z * (b.K2 z - b.K1 z)) * (prefactor * th.T * th.T * th.T * th.T) := by
      have : 0 ≤ b.K2 z - b.K1 z := by linarith
      positivity
    linarith

/-- One suppressed species makes the whole energy density vanish, although pressure and densities do not. -/
theorem C149_energy_false (b : Bessel) (hK : ∀ z, 0 < b.K2 z) : ∃ (l : List Species) (th : Th), small ≤ th.T ∧
    (∀ s ∈ l, s.eos = true ∧ small ≤ s.mass / th.T) ∧ energy b l th = 0 ∧ 0 < pressure b l th := by
  refine ⟨[⟨138 / 1000, 0, 0, 0, 0, true⟩, ⟨5 / 2, 1, 1, 0, 0, true⟩], ⟨4 / 1000, 0, 0, 0⟩, by unfold small; norm_num, ?_, ?_, ?_⟩
  · intro s hs
    rw [List.mem_cons, List.mem_singleton] at hs
    rcases hs with rfl | rfl <;> refine ⟨rfl, ?_⟩ <;> unfold small <;> norm_num
  · unfold energy
    rw [energySum_none]
    · simp
    · exact ⟨⟨5 / 2, 1, 1, 0, 0, true⟩, by simp [gas], by unfold Suppressed; norm_num⟩
  · unfold pressure
    rw [(C149_sums b _ _).1]
    simp only [gas, List.filter_cons, if_true, List.filter_nil, List.map_cons, List.map_nil, List.sum_cons, List.sum_nil, add_zero]
    have h1 := partial_nonneg b (fun z => (hK z).le) ⟨5 / 2, 1, 1, 0, 0, true⟩ ⟨4 / 1000, 0, 0, 0⟩
    have h2 : 0 < partialDensity b ⟨138 / 1000, 0, 0, 0, 0, true⟩ ⟨4 / 1000, 0, 0, 0⟩ := by
      unfold partialDensity scaled aux muOver
      simp only
      rw [if_neg (by unfold small; norm_num), if_neg (by norm_num), if_neg (by unfold small; norm_num)]
      have h3 := hK (138 / 1000 * (1 / (4 / 1000)))
      have h4 := prefactor_pos
      positivity
    positivity

/-- For a species without mass the energy density is one and a half times the pressure in place of three times. -/
theorem C149_massless_false (b : Bessel) (s : Species) (hs : s.eos = true) (hm : s.mass = 0) (T : ℝ) (hT : small ≤ T) :
    energy b [s] ⟨T, 0, 0, 0⟩ = 3 / 2 * pressure b [s] ⟨T, 0, 0, 0⟩ ∧ 0 < pressure b [s] ⟨T, 0, 0, 0⟩ := by
  have hT0 : 0 < T := lt_of_lt_of_le small_pos hT
  have hp := prefactor_pos
  have h500 : ¬ ((0 : ℝ) < -500) := by norm_num
  have h1 : density b [s] ⟨T, 0, 0, 0⟩ = 2 * ((s.spin : ℝ) + 1) * (prefactor * T * T * T) := by
    unfold density loopSum loopSum scaled aux muOver
    simp only [hs, hm]
    simp [h500, not_lt.2 hT, small_pos]
    left; ring
  have h2 : energy b [s] ⟨T, 0, 0, 0⟩ = 3 * ((s.spin : ℝ) + 1) * (prefactor * T * T * T * T) := by
    unfold energy energySum energySum
    simp only [hs, hm]
    simp [h500, not_lt.2 hT, small_pos]
  unfold pressure
  rw [h1, h2]
  refine ⟨by ring, ?_⟩
  simp only
  positivity

/-! ### Vanishing strangeness -/

theorem bisect_spec (rho : ℝ → ℝ) : ∀ (n : ℕ) (lo hi : ℝ), lo ≤ hi → ∀ m, bisect rho n lo hi = some m →
    |rho m| ≤ 1 / 100000000 ∧ lo ≤ m ∧ m ≤ hi
  | 0, _, _, _, _, h => by simp [bisect] at h
  | n + 1, lo, hi, hle, m, h => by
    unfold bisect at h
    simp only at h
    split_ifs at h with h1 h2 h3
    · have := bisect_spec rho n lo ((hi + lo) / 2) (by linarith) m h
      exact ⟨this.1, this.2.1, by linarith [this.2.2]⟩
    · have := bisect_spec rho n ((hi + lo) / 2) hi (by linarith) m h
      exact ⟨this.1, by linarith [this.2.1], this.2.2⟩
    · have hm := Option.some.inj h
      rw [← hm]
      refine ⟨?_, by linarith, by linarith⟩
      by_contra hc
      exact h1 ⟨not_le.1 hc, h3⟩

theorem bisect_success (rho : ℝ → ℝ) (hm : Monotone rho) (root L : ℝ) (hr : rho root = 0)
    (hL : ∀ x, |rho x| ≤ L * |x - root|) : ∀ (n : ℕ) (lo hi : ℝ), lo ≤ root → root ≤ hi →
    L * (hi - lo) ≤ 1 / 100000000 * 2 ^ (n + 1) → ∃ m, bisect rho (n + 2) lo hi = some m
  | n, lo, hi, h1, h2, hb => by
    have hL0 : 0 ≤ L := by
      have h := hL (root + 1)
      rw [add_sub_cancel_left, abs_one, mul_one] at h
      exact le_trans (abs_nonneg _) h
    unfold bisect
    simp only
    by_cases hc : 1 / 100000000 < |rho ((hi + lo) / 2)| ∧ n + 1 ≠ 0
    · rw [if_pos hc]
      have hd : |(hi + lo) / 2 - root| ≤ (hi - lo) / 2 := by
        rw [abs_le]; constructor <;> linarith
      have hlt : 1 / 100000000 < L * ((hi - lo) / 2) :=
        lt_of_lt_of_le hc.1 (le_trans (hL _) (mul_le_mul_of_nonneg_left hd hL0))
      cases n with
      | zero =>
        exfalso
        norm_num at hb
        linarith
      | succ n =>
        have hb' : L * ((hi - lo) / 2) ≤ 1 / 100000000 * 2 ^ (n + 1) := by
          rw [pow_succ] at hb
          linarith
        by_cases hp : 0 < rho ((hi + lo) / 2)
        · rw [if_pos hp]
          have hroot : root ≤ (hi + lo) / 2 := by
            by_contra hcon
            have := hm (le_of_lt (not_le.1 hcon))
            rw [hr] at this
            linarith
          refine bisect_success rho hm root L hr hL n lo _ h1 hroot ?_
          have : (hi + lo) / 2 - lo = (hi - lo) / 2 := by ring
          rw [this]
          exact hb'
        · rw [if_neg hp]
          have hroot : (hi + lo) / 2 ≤ root := by
            by_contra hcon
            have h3 := hm (le_of_lt (not_le.1 hcon))
            rw [hr] at h3
            have h4 : rho ((hi + lo) / 2) = 0 := le_antisymm (not_lt.1 hp) h3
            rw [h4, abs_zero] at hc
            linarith [hc.1]
          refine bisect_success rho hm root L hr hL n _ hi hroot h2 ?_
          have : hi - (hi + lo) / 2 = (hi - lo) / 2 := by ring
          rw [this]
          exact hb'
    · rw [if_neg hc, if_neg (by omega)]
      exact ⟨_, rfl⟩

/-- **C149 (strangeness neutrality).** The strangeness chemical potential returned is between 0 and `mub + T`, and with it the net strangeness
density is at most 1e-8. The search succeeds whenever there is a solution in that range near which the density grows at most
with the slope `L`, with `L (mub + T) ≤ 2^49 1e-8`. -/
theorem C149_neutral (b : Bessel) (hK : ∀ z, 0 ≤ b.K2 z) (l : List Species) (T mub muq : ℝ) (h0 : 0 ≤ mub + T) :
    (∀ mus, musZero b l T mub muq = some mus →
      |netS b l ⟨T, mub, mus, muq⟩| ≤ 1 / 100000000 ∧ 0 ≤ mus ∧ mus ≤ mub + T) ∧
    (∀ root L, 0 ≤ root → root ≤ mub + T → netS b l ⟨T, mub, root, muq⟩ = 0 →
      (∀ x, |netS b l ⟨T, mub, x, muq⟩| ≤ L * |x - root|) → L * (mub + T) ≤ 1 / 100000000 * 2 ^ 49 →
      ∃ mus, musZero b l T mub muq = some mus) := by
  refine ⟨fun mus h => bisect_spec _ 50 0 (mub + T) h0 mus h, fun root L h1 h2 h3 h4 h5 => ?_⟩
  refine bisect_success (fun mus => netS b l ⟨T, mub, mus, muq⟩) ?_ root L h3 h4 48 0 (mub + T) h1 h2 (by rw [sub_zero]; exact h5)
  intro x y hxy
  exact (C149_monotone b hK l T mub 0 muq x y hxy).2.1

theorem bisect_fail (rho : ℝ → ℝ) (hr : ∀ x, 0 ≤ x → 1 / 100000000 < rho x) : ∀ (n : ℕ) (hi : ℝ), 0 ≤ hi →
    bisect rho n 0 hi = none
  | 0, _, _ => rfl
  | n + 1, hi, h => by
    have hp := hr ((hi + 0) / 2) (by linarith)
    have hpos : 0 < rho ((hi + 0) / 2) := by linarith
    unfold bisect
    simp only
    cases n with
    | zero => simp
    | succ n =>
      rw [if_pos ⟨by rw [abs_of_pos hpos]; exact hp, by omega⟩, if_pos hpos]
      exact bisect_fail rho hr (n + 1) _ (by linarith)

/-- For an excess of antibaryons the solution is negative and the search fails: here the hyperon Λ and its antiparticle with
`mub = -1` and `T = 1`, for which the potential -1 would do. -/
theorem C149_neutral_false (b : Bessel) (hK : ∀ z, 1 ≤ b.K2 z) :
    ∃ (l : List Species) (T mub muq mus : ℝ), netS b l ⟨T, mub, mus, muq⟩ = 0 ∧ 0 ≤ mub + T ∧ musZero b l T mub muq = none := by
  have hnn : ∀ z, 0 ≤ b.K2 z := fun z => by linarith [hK z]
  refine ⟨[⟨1, 1, 1, -1, 0, true⟩, ⟨1, 1, -1, 1, 0, true⟩], 1, -1, 0, -1, ?_, by norm_num, ?_⟩
  · rw [(C149_sums b _ _).2.2.1]
    simp only [gas, List.filter_cons, if_true, List.filter_nil, List.map_cons, List.map_nil, List.sum_cons, List.sum_nil, add_zero]
    have h : partialDensity b ⟨1, 1, 1, -1, 0, true⟩ ⟨1, -1, -1, 0⟩ = partialDensity b ⟨1, 1, -1, 1, 0, true⟩ ⟨1, -1, -1, 0⟩ := by
      unfold partialDensity scaled muOver
      norm_num
    rw [h]
    push_cast
    ring
  · refine bisect_fail _ ?_ 50 _ (by norm_num)
    intro x hx
    have hmono := (C149_monotone b hnn [⟨1, 1, 1, -1, 0, true⟩, ⟨1, 1, -1, 1, 0, true⟩] 1 (-1) 0 0 0 x hx).2.1
    refine lt_of_lt_of_le ?_ hmono
    rw [(C149_sums b _ _).2.2.1]
    simp only [gas, List.filter_cons, if_true, List.filter_nil, List.map_cons, List.map_nil, List.sum_cons, List.sum_nil, add_zero]
    have hs : ¬ ((1 : ℝ) < small) := by unfold small; norm_num
    have h1 : partialDensity b ⟨1, 1, 1, -1, 0, true⟩ ⟨1, -1, 0, 0⟩ = prefactor * (2 * (exp (-2) * b.K2 1)) := by
      unfold partialDensity scaled aux muOver
      simp only
      rw [if_neg hs, if_neg (by norm_num), if_neg (by norm_num [hs])]
      norm_num
    have h2 : partialDensity b ⟨1, 1, -1, 1, 0, true⟩ ⟨1, -1, 0, 0⟩ = prefactor * (2 * (exp 0 * b.K2 1)) := by
      unfold partialDensity scaled aux muOver
      simp only
      rw [if_neg hs, if_neg (by norm_num), if_neg (by norm_num [hs])]
      norm_num
    rw [h1, h2, exp_zero]
    have he : exp (-2) ≤ 1 / 2 := by
      rw [exp_neg]
      have : (2 : ℝ) ≤ exp 2 := by linarith [add_one_le_exp (2 : ℝ)]
      rw [inv_eq_one_div]
      exact one_div_le_one_div_of_le (by norm_num) this
    have hpre : 1 ≤ prefactor := by
      unfold prefactor hbarc
      rw [le_div_iff₀ (by norm_num)]
      have h4 := Real.pi_lt_four
      have h0 := Real.pi_pos
      have : (1 : ℝ) / 4 ≤ π⁻¹ := by
        rw [one_div]
        exact inv_anti₀ h0 h4.le
      have h5 : (1 / 4 : ℝ) * (1 / 4) ≤ π⁻¹ * π⁻¹ := mul_le_mul this this (by norm_num) (by positivity)
      norm_num
      linarith
    have hk := hK 1
    have hkk : exp (-2) * b.K2 1 ≤ 1 / 2 * b.K2 1 := mul_le_mul_of_nonneg_right he (by linarith)
    push_cast
    have hfin : 1 ≤ prefactor * (2 * (1 * b.K2 1) - 2 * (exp (-2) * b.K2 1)) := by
      have : (1 : ℝ) ≤ 2 * (1 * b.K2 1) - 2 * (exp (-2) * b.K2 1) := by linarith
      calc (1 : ℝ) = 1 * 1 := by norm_num
        _ ≤ _ := mul_le_mul hpre this (by norm_num) (by linarith)
    have : (1 : ℝ) / 100000000 < 1 := by norm_num
    linarith

/-! ### Solver -/

theorem solveLoop_spec (o : ℕ → Step) : ∀ (n k : ℕ) (cont : Bool) (r : Th), (cont = false → n ≠ 0) →
    solveLoop o n k cont = (r, false) →
    (r = ⟨0, 0, 0, 0⟩ ∧ ∃ j, k ≤ j ∧ j < k + n ∧ (o j).x.T < 15 / 1000) ∨
    (∃ j, k ≤ j ∧ j < k + n ∧ r = (o j).x ∧ 15 / 1000 ≤ r.T ∧ (o j).res < 1 / 100000000) ∨
    (cont = false ∧ (o k).stuck = true ∧ r = (o k).x)
  | 0, k, cont, r, hc, h => by
    unfold solveLoop at h
    have := (Prod.mk.inj h).2
    exact absurd rfl (hc this)
  | n + 1, k, cont, r, hc, h => by
    unfold solveLoop at h
    split_ifs at h with h1 h2 h3
    · exact Or.inl ⟨(Prod.mk.inj h).1.symm, k, le_refl _, by omega, h1⟩
    · exact Or.inr (Or.inr ⟨(Prod.mk.inj h).2, h2, (Prod.mk.inj h).1.symm⟩)
    · have hr := (Prod.mk.inj h).1
      exact Or.inr (Or.inl ⟨k, le_refl _, by omega, hr.symm, by rw [← hr]; exact not_lt.1 h1, h3⟩)
    · rcases solveLoop_spec o n (k + 1) true r (by simp) h with ⟨e, j, j1, j2, j3⟩ | ⟨j, j1, j2, j3⟩ | ⟨e, -⟩
      · exact Or.inl ⟨e, j, by omega, by omega, j3⟩
      · exact Or.inr (Or.inl ⟨j, by omega, by omega, j3⟩)
      · simp at e

/-- **C149 (solver), part.** Whatever the solver of the library does: a result without warning is either zero, because the temperature
fell below 0.015, or a point at which the residuals add up to less than 1e-8, or the solver got stuck in its first step.
The last case is missing in the intended property. -/
theorem C149_solver_partial (o : ℕ → Step) (r : Th) (h : solveEos o = (r, false)) :
    (r = ⟨0, 0, 0, 0⟩ ∧ ∃ j, 1 ≤ j ∧ j ≤ 1000 ∧ (o j).x.T < 15 / 1000) ∨
    (∃ j, 1 ≤ j ∧ j ≤ 1000 ∧ r = (o j).x ∧ 15 / 1000 ≤ r.T ∧ (o j).res < 1 / 100000000) ∨
    ((o 1).stuck = true ∧ r = (o 1).x) := by
  rcases solveLoop_spec o 1000 1 false r (by simp) h with ⟨e, j, j1, j2, j3⟩ | ⟨j, j1, j2, j3⟩ | ⟨-, e⟩
  · exact Or.inl ⟨e, j, j1, by omega, j3⟩
  · exact Or.inr (Or.inl ⟨j, j1, by omega, j3⟩)
  · exact Or.inr (Or.inr e)

/-- A solver which gets stuck in its first step gives its point without any warning, however large the residuals are: the status is
initialised with success. -/
theorem C149_solver_false (x : Th) (hx : 15 / 1000 ≤ x.T) (res : ℝ) : solveEos (fun _ => ⟨x, true, res⟩) = (x, false) := by
  unfold solveEos solveLoop
  simp only
  rw [if_neg (not_lt.2 hx), if_pos trivial]

/-! ### Initial approximation -/

theorem aux_shift (b : Bessel) (z mu : ℝ) (hz : 0 ≤ z) (h : z + |mu| ≤ 500) : aux b z mu = exp mu * aux b z 0 := by
  have h1 := neg_abs_le mu
  have h2 := abs_nonneg mu
  unfold aux
  simp only
  have c1 : ¬ mu - z < -500 := by rw [not_lt]; linarith
  have c2 : ¬ 0 - z < -500 := by rw [not_lt]; linarith
  rw [if_neg c1, if_neg c2]
  have : exp (mu - z) = exp mu * exp (0 - z) := by rw [← exp_add]; congr 1; ring
  rw [this]
  split_ifs <;> ring

theorem sumOne_eq (b : Bessel) (T : ℝ) (one : Species → Bool) : ∀ (l : List Species) (r : ℝ),
    sumOne b T one l r = r + (((gas l).filter one).map fun s => scaled b s ⟨T, 0, 0, 0⟩).sum
  | [], r => by simp [sumOne, gas]
  | s :: l, r => by
    unfold sumOne
    by_cases he : s.eos = true
    · have hg : gas (s :: l) = s :: gas l := List.filter_cons_of_pos (by simp [he])
      rw [hg]
      by_cases ho : one s = true
      · rw [if_pos (by simp [he, ho]), sumOne_eq b T one l, List.filter_cons_of_pos ho, List.map_cons, List.sum_cons]
        ring
      · rw [if_neg (by simp [ho]), sumOne_eq b T one l, List.filter_cons_of_neg ho]
    · have hg : gas (s :: l) = gas l := List.filter_cons_of_neg (by simp [he])
      rw [hg, if_neg (by simp [he]), sumOne_eq b T one l]

theorem split_sum (f : Species → ℝ) (x y : ℝ) : ∀ (l : List Species), (∀ s ∈ l, s.B = 1 ∨ s.B = -1 ∨ s.B = 0) →
    (l.map fun s => if s.B = 1 then f s * x else if s.B = -1 then -(f s * y) else 0).sum =
      ((l.filter fun s => s.B == 1).map f).sum * x - ((l.filter fun s => s.B == -1).map f).sum * y
  | [], _ => by simp
  | s :: l, h => by
    have ih := split_sum f x y l fun s' hs' => h s' (List.mem_cons_of_mem _ hs')
    rw [List.map_cons, List.sum_cons, ih]
    rcases h s List.mem_cons_self with hb | hb | hb
    · rw [List.filter_cons_of_pos (by simp [hb]), List.filter_cons_of_neg (by simp [hb]), List.map_cons, List.sum_cons, if_pos hb]
      ring
    · rw [List.filter_cons_of_neg (by simp [hb]), List.filter_cons_of_pos (by simp [hb]), List.map_cons, List.sum_cons,
        if_neg (by omega), if_pos hb]
      ring
    · rw [List.filter_cons_of_neg (by simp [hb]), List.filter_cons_of_neg (by simp [hb]), if_neg (by omega), if_neg (by omega)]
      ring

/-- **C149 (initial approximation).** For a gas of particles and antiparticles with baryon numbers 1, 0 and -1 the initial approximation for
the baryon chemical potential is exact at the initial temperature: without other potentials the net baryon density is the
one asked for (unless a species is suppressed). -/
theorem C149_guess (b : Bessel) (l : List Species) (hl : (l.map conj).Perm l) (T nb : ℝ) (hT : small ≤ T)
    (hB : ∀ s ∈ gas l, s.B = 1 ∨ s.B = -1 ∨ s.B = 0) (hm : ∀ s ∈ gas l, 0 ≤ s.mass)
    (hs : ∀ s ∈ gas l, s.mass / T + |mubInit b l T nb| / T ≤ 500)
    (hN : 0 < (((gas l).filter fun s => s.B == 1).map fun s => partialDensity b s ⟨T, 0, 0, 0⟩).sum) :
    netB b l ⟨T, mubInit b l T nb, 0, 0⟩ = nb := by
  have hT0 : 0 < T := lt_of_lt_of_le small_pos hT
  have hTn : ¬ T < small := not_lt.2 hT
  have hp := prefactor_pos
  have hperm : ((gas l).map conj).Perm (gas l) := by
    rw [← gas_conj]
    exact hl.filter _
  -- the sums over baryons and antibaryons agree
  set f : Species → ℝ := fun s => scaled b s ⟨T, 0, 0, 0⟩ with hf
  have hfc : ∀ s, f (conj s) = f s := by
    intro s
    simp only [hf, scaled, muOver, conj]
    norm_num
  have hanti : (((gas l).filter fun s => s.B == -1).map f).sum = (((gas l).filter fun s => s.B == 1).map f).sum := by
    rw [← ((hperm.filter fun s => s.B == -1).map f).sum_eq, List.filter_map, List.map_map]
    congr 1
    have : ((fun s : Species => s.B == -1) ∘ conj) = fun s => s.B == 1 := by
      funext s
      simp only [Function.comp, conj]
      by_cases h : s.B = 1
      · simp [h]
      · have : ¬ -s.B = -1 := by omega
        simp [h]
    rw [this]
    apply List.map_congr_left
    intro s _
    exact hfc s
  set N := (((gas l).filter fun s => s.B == 1).map f).sum with hNdef
  have hone : sumOne b T (fun s => s.B == 1) l 0 = N := by
    rw [sumOne_eq, zero_add]
  have hNpos : 0 < N := by
    have h1 : (((gas l).filter fun s => s.B == 1).map fun s => partialDensity b s ⟨T, 0, 0, 0⟩).sum =
        N * (prefactor * T * T * T) := by
      rw [hNdef, ← List.sum_map_mul_right]
      congr 1
      apply List.map_congr_left
      intro s _
      unfold partialDensity
      simp only [if_neg hTn]
      ring
    rw [h1] at hN
    have : 0 < prefactor * T * T * T := by positivity
    exact (pos_iff_pos_of_mul_pos hN).2 this
  set mu := mubInit b l T nb with hmu
  have hsc : ∀ s ∈ gas l, scaled b s ⟨T, mu, 0, 0⟩ * (s.B : ℝ) =
      if s.B = 1 then f s * exp (mu / T) else if s.B = -1 then -(f s * exp (-(mu / T))) else 0 := by
    intro s hsm
    have hz : 0 ≤ s.mass * (1 / T) := mul_nonneg (hm s hsm) (by positivity)
    have hbound : s.mass * (1 / T) + |mu / T| ≤ 500 := by
      rw [abs_div, abs_of_pos hT0]
      have := hs s hsm
      rw [mul_one_div]
      exact this
    have h0 : muOver s ⟨T, 0, 0, 0⟩ = 0 := by unfold muOver; ring
    rcases hB s hsm with h | h | h
    · rw [if_pos h]
      have hmuo : muOver s ⟨T, mu, 0, 0⟩ = mu / T := by unfold muOver; rw [h]; push_cast; ring
      simp only [hf, scaled, h0, hmuo]
      rw [aux_shift b _ _ hz hbound, h]
      push_cast
      ring
    · rw [if_neg (by omega), if_pos h]
      have hmuo : muOver s ⟨T, mu, 0, 0⟩ = -(mu / T) := by unfold muOver; rw [h]; push_cast; ring
      simp only [hf, scaled, h0, hmuo]
      rw [aux_shift b _ _ hz (by rw [abs_neg]; exact hbound), h]
      push_cast
      ring
    · rw [if_neg (by omega), if_neg (by omega), h]
      push_cast
      ring
  unfold netB
  simp only [if_neg hTn]
  rw [loopSum_skip, List.map_congr_left hsc, split_sum f _ _ _ hB, hanti, ← hNdef]
  have hsinh : exp (mu / T) - exp (-(mu / T)) = 2 * sinh (mu / T) := by rw [sinh_eq]; ring
  have hmuT : mu / T = arsinh (nb / prefactor / (T * T * T) / N / 2) := by
    rw [hmu]
    unfold mubInit
    rw [hone]
    field_simp
  have : N * exp (mu / T) - N * exp (-(mu / T)) = N * (2 * sinh (mu / T)) := by rw [← hsinh]; ring
  rw [this, hmuT, sinh_arsinh]
  field_simp

/-- A gas which meets the hypotheses: nucleons, antinucleons and pions at a temperature of 0.15. -/
example (b : Bessel) (hK : ∀ z, 0 < b.K2 z) : ∃ l : List Species, (l.map conj).Perm l ∧
    (∀ s ∈ gas l, s.B = 1 ∨ s.B = -1 ∨ s.B = 0) ∧ (∀ s ∈ gas l, small ≤ s.mass / (15 / 100)) ∧
    (∀ s ∈ gas l, ¬ Suppressed s ⟨15 / 100, 3 / 10, 0, 0⟩) ∧ 0 < density b l ⟨15 / 100, 3 / 10, 0, 0⟩ := by
  refine ⟨[⟨938 / 1000, 1, 1, 0, 1, true⟩, ⟨938 / 1000, 1, -1, 0, -1, true⟩, ⟨138 / 1000, 0, 0, 0, 0, true⟩], ?_, ?_, ?_, ?_, ?_⟩
  · simp only [List.map_cons, List.map_nil, conj]
    exact List.Perm.swap _ _ _
  · intro s hs
    simp [gas] at hs
    rcases hs with rfl | rfl | rfl <;> simp
  · intro s hs
    simp [gas] at hs
    rcases hs with rfl | rfl | rfl <;> (unfold small; norm_num)
  · intro s hs
    simp [gas] at hs
    rcases hs with rfl | rfl | rfl <;> (unfold Suppressed; norm_num)
  · rw [(C149_sums b _ _).1]
    simp only [gas, List.filter_cons, if_true, List.filter_nil, List.map_cons, List.map_nil, List.sum_cons, List.sum_nil, add_zero]
    have h1 := partial_nonneg b (fun z => (hK z).le) ⟨938 / 1000, 1, 1, 0, 1, true⟩ ⟨15 / 100, 3 / 10, 0, 0⟩
    have h1' := partial_nonneg b (fun z => (hK z).le) ⟨938 / 1000, 1, -1, 0, -1, true⟩ ⟨15 / 100, 3 / 10, 0, 0⟩
    have h2 : 0 < partialDensity b ⟨138 / 1000, 0, 0, 0, 0, true⟩ ⟨15 / 100, 3 / 10, 0, 0⟩ := by
      unfold partialDensity scaled aux muOver
      simp only
      rw [if_neg (by unfold small; norm_num), if_neg (by norm_num), if_neg (by unfold small; norm_num)]
      have h3 := hK (138 / 1000 * (1 / (15 / 100)))
      have h4 := prefactor_pos
      positivity
    linarith

end Verif.Eos
