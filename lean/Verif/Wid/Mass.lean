import Mathlib.Tactic.Ring
import Mathlib.Tactic.Linarith
import Mathlib.Tactic.Positivity
import Mathlib.Tactic.FieldSimp
import Mathlib.Tactic.SplitIfs
import Mathlib.Tactic.LinearCombination
import Verif.Rand.Props
import Verif.Wid.Width
import Verif.Wid.Bw

/-!
C119: the masses of resonances: the smallest mass, and the masses drawn for the final state of an action.
-/

namespace Verif.Wid

open Verif Kin

/-! ### The smallest mass -/

theorem bisect_spec {sf : ℝ → ℝ} (n : ℕ) {l r : ℝ} (hw : r - l ≤ 1 / 1000000 * 2 ^ n) (hlr : l < r)
    (hl : sf l ≤ small) (hr : sf r > small) :
    ∃ x, bisect sf n l r = some x ∧ l < x ∧ x ≤ r ∧ sf x > small ∧
      ∃ y, l ≤ y ∧ y < x ∧ x - y ≤ 1 / 1000000 ∧ sf y ≤ small := by
  induction n generalizing l r with
  | zero =>
    rw [bisect, if_neg (by push Not; linarith)]
    exact ⟨r, rfl, hlr, le_rfl, hr, l, le_rfl, hlr, by linarith, hl⟩
  | succ n ih =>
    rw [bisect]
    split
    · split
      · rename_i h1 h2
        obtain ⟨x, e, a, b, c, y, d1, d2, d3, d4⟩ := ih (l := l) (r := (l + r) / 2)
          (by rw [pow_succ] at hw; linarith) (by linarith) hl h2
        exact ⟨x, e, a, by linarith, c, y, d1, d2, d3, d4⟩
      · rename_i h1 h2
        obtain ⟨x, e, a, b, c, y, d1, d2, d3, d4⟩ := ih (l := (l + r) / 2) (r := r)
          (by rw [pow_succ] at hw; linarith) (by linarith) (not_lt.1 h2) hr
        exact ⟨x, e, by linarith, b, c, y, by linarith, d2, d3, d4⟩
    · rename_i h1
      exact ⟨r, rfl, hlr, le_rfl, hr, l, le_rfl, hlr, not_lt.1 h1, hl⟩

/-- **C119.** The smallest mass of a resonance that is used: the kinematic one if the spectral function is
not negligible there; otherwise a mass at which it is not negligible, at most 10⁻⁶ above one at which it
is, in the first interval of 10 MeV at whose end the function is not negligible. The bisection always
ends. -/
theorem C119_smallest (stable : Bool) (sf : ℝ → ℝ) (mmin : ℝ) (n : ℕ) :
    ((stable = true ∨ 1 / 1000000 ≤ sf mmin) → minMassSpectral stable sf mmin n = some mmin) ∧
    (stable = false → sf mmin < 1 / 1000000 →
      (∀ k < n, (∀ j < k, sf (mmin + 1 / 100 * (j : ℝ)) ≤ 1 / 1000000) →
        1 / 1000000 < sf (mmin + 1 / 100 * (k : ℝ)) →
        ∃ m, minMassSpectral stable sf mmin n = some m ∧
          mmin + 1 / 100 * ((k : ℝ) - 1) < m ∧ m ≤ mmin + 1 / 100 * k ∧ mmin < m ∧ 1 / 1000000 < sf m ∧
          ∃ y, mmin ≤ y ∧ y < m ∧ m - y ≤ 1 / 1000000 ∧ sf y ≤ 1 / 1000000)) := by
  refine ⟨?_, ?_⟩
  · intro h
    unfold minMassSpectral
    rw [if_neg]
    simp only [Bool.and_eq_true, Bool.not_eq_true', decide_eq_true_eq, not_and]
    intro h1
    rcases h with h | h
    · rw [h] at h1; cases h1
    · exact not_lt.2 h
  · intro hs h0 k hk hj hp
    unfold minMassSpectral
    rw [if_pos (by
      simp only [Bool.and_eq_true, Bool.not_eq_true', decide_eq_true_eq]
      exact ⟨hs, h0⟩)]
    have find : ∀ (a i : ℕ), i ≤ k → k < i + a → findRight sf mmin a i = some (mmin + 1 / 100 * k) := by
      intro a
      induction a with
      | zero => intro i h1 h2; omega
      | succ a ih =>
        intro i h1 h2
        rw [findRight]
        rcases Nat.lt_or_eq_of_le h1 with h | rfl
        · rw [if_neg (by unfold small; exact not_lt.2 (hj i h))]
          exact ih (i + 1) (by omega) (by omega)
        · rw [if_pos (by unfold small; exact hp)]
    rw [find n 0 (by omega) (by omega)]
    have k1 : 1 ≤ k := by
      rcases Nat.eq_zero_or_pos k with rfl | h
      · rw [Nat.cast_zero, mul_zero, add_zero] at hp; linarith
      · exact h
    have hl : sf (mmin + 1 / 100 * (k : ℝ) - 1 / 100) ≤ small := by
      have := hj (k - 1) (by omega)
      rw [Nat.cast_sub k1, Nat.cast_one] at this
      have e : mmin + 1 / 100 * (k : ℝ) - 1 / 100 = mmin + 1 / 100 * ((k : ℝ) - 1) := by ring
      rw [e]; exact this
    obtain ⟨x, e, a, b, c, y, d1, d2, d3, d4⟩ := bisect_spec (sf := sf) 14
      (l := mmin + 1 / 100 * (k : ℝ) - 1 / 100) (r := mmin + 1 / 100 * (k : ℝ))
      (by norm_num) (by linarith) hl hp
    have kr : (1 : ℝ) ≤ k := by exact_mod_cast k1
    refine ⟨x, e, by linarith, b, by linarith, c, y, by linarith, d2, d3, d4⟩

/-! ### One resonance -/

theorem pCM_anti {E a m m' : ℝ} (ha : 0 ≤ a) (hm : 0 ≤ m) (h : m ≤ m') (hE : a + m' ≤ E) (h0 : 0 < E) :
    pCM E a m' ≤ pCM E a m := by
  have q := pCM_sq ha (hm.trans h) h0 hE
  have q' := pCM_sq ha hm h0 (by linarith : a + m ≤ E)
  refine le_of_sq_le_sq ?_ q'.2
  rw [q.1, q'.1, pCMsqr_factor (by positivity), pCMsqr_factor (by positivity)]
  apply div_le_div_of_nonneg_right _ (by positivity)
  have e1 : 0 ≤ m' ^ 2 - m ^ 2 := by nlinarith
  have e2 : 0 ≤ 2 * E ^ 2 + 2 * a ^ 2 - m' ^ 2 - m ^ 2 := by nlinarith
  nlinarith [mul_nonneg e1 e2]

theorem blw_mono {p q : ℝ} (L : ℕ) (hp : 0 ≤ p) (h : p ≤ q) :
    p * blattWeisskopfSqr p L ≤ q * blattWeisskopfSqr q L := by
  have b : blattWeisskopfSqr p L ≤ blattWeisskopfSqr q L := by
    rcases Nat.eq_zero_or_pos L with rfl | hl
    · simp [blattWeisskopfSqr]
    · rcases h.lt_or_eq with h | h
      · exact (C116_monotone L hl hp h).le
      · rw [h]
  exact mul_le_mul h b (C116_range _ L).1 (hp.trans h)

theorem blw_pos {p : ℝ} (L : ℕ) (hp : 0 < p) : 0 < p * blattWeisskopfSqr p L := by
  rcases (C116_range p L).1.lt_or_eq with h | h
  · exact mul_pos hp h
  · exact absurd ((C116_zero p L).1.1 h.symm).2 hp.ne'

/-- A resonance whose spectral function is not negative. -/
def Shape.Valid (S : Shape) : Prop := 0 < S.width ∧ 0 ≤ S.mmin ∧ ∀ m, 0 ≤ S.sf m

theorem nonrel_pos {m M G : ℝ} (hG : 0 < G) : 0 < breitWignerNonrel m M G :=
  (C118_cauchy (by positivity : 0 < G / 2) 0 0).1 m

theorem top_pos {S : Shape} (hS : S.Valid) {mst cms mmax : ℝ} (L : ℕ) (h1 : 0 ≤ mst)
    (h2 : S.mmin ≤ mmax) (h3 : mst + mmax < cms) : 0 < sampleTop S mst cms L mmax := by
  unfold sampleTop
  exact mul_pos (blw_pos L (pCM_pos h1 hS.2.1 (by linarith))) (lt_of_lt_of_le one_pos (le_max_left _ _))

/-- **C119.** The mass drawn for a resonance lies between the smallest mass and the largest one that the
energy allows, so that there is a momentum left; the envelope that was used covers the value at this mass,
and the factor is never decreased. -/
theorem C119_single {S : Shape} (hS : S.Valid) {mst cms mmax : ℝ} (L : ℕ) (h1 : 0 ≤ mst)
    (h2 : S.mmin ≤ mmax) (h3 : mst + mmax < cms) {draws : List (ℝ × ℝ)}
    (hd : ∀ d ∈ draws, (0 ≤ d.1 ∧ d.1 < 1) ∧ 0 ≤ d.2 ∧ d.2 < 1) {f m f' : ℝ} (hf : 0 < f)
    (h : sampleMass S mst cms mmax L f draws = some (m, f')) :
    S.mmin ≤ m ∧ m ≤ mmax ∧ mst + m < cms ∧ 0 < pCM cms mst m ∧ f ≤ f' ∧
      sampleVal S mst cms L m ≤ sampleTop S mst cms L mmax * f' := by
  induction draws generalizing f with
  | nil => cases h
  | cons d rest ih =>
    obtain ⟨u, v⟩ := d
    obtain ⟨⟨u0, u1⟩, v0, v1⟩ := hd _ List.mem_cons_self
    have ih' := fun f => ih (f := f) (fun d hd' => hd d (List.mem_cons_of_mem _ hd'))
    obtain ⟨x, e, x1, x2⟩ := Rand.C55_cauchy (pole := S.mass) (width := S.width / 2)
      (half_pos hS.1).ne' h2 u0 u1
    rw [sampleMass, e] at h
    simp only [Option.bind_eq_bind, Option.bind_some] at h
    have tp := top_pos hS L h1 h2 h3
    split at h
    · exact ih' f hf h
    · split at h
      · rename_i _ hv
        have r : 1 < sampleVal S mst cms L x / (sampleTop S mst cms L mmax * f) := by
          rw [one_lt_div (mul_pos tp hf)]; exact hv
        have := ih' _ (mul_pos hf (one_pos.trans r)) h
        exact ⟨this.1, this.2.1, this.2.2.1, this.2.2.2.1, by nlinarith [this.2.2.2.2.1], this.2.2.2.2.2⟩
      · rename_i _ hv
        cases h
        exact ⟨x1, x2, by linarith, pCM_pos h1 (hS.2.1.trans x1) (by linarith), le_rfl, not_lt.1 hv⟩

/-- **C119.** A proposed mass whose value the envelope covers is accepted with the probability value over
envelope: exactly if the second random number is at most this ratio. -/
theorem C119_accept {S : Shape} (hS : S.Valid) {mst cms mmax : ℝ} (L : ℕ) (h1 : 0 ≤ mst)
    (h2 : S.mmin ≤ mmax) (h3 : mst + mmax < cms) {u v f m : ℝ} (hf : 0 < f)
    (e : Rand.cauchy S.mass (S.width / 2) S.mmin mmax u = some m)
    (hv : sampleVal S mst cms L m ≤ sampleTop S mst cms L mmax * f) (rest : List (ℝ × ℝ)) :
    sampleMass S mst cms mmax L f ((u, v) :: rest) =
      (open Classical in
      if v ≤ sampleVal S mst cms L m / (sampleTop S mst cms L mmax * f) then some (m, f)
      else sampleMass S mst cms mmax L f rest) := by
  have tp := mul_pos (top_pos hS L h1 h2 h3) hf
  rw [sampleMass, e]
  simp only [Option.bind_eq_bind, Option.bind_some, Rand.uniform, sub_zero, add_zero]
  by_cases hc : v ≤ sampleVal S mst cms L m / (sampleTop S mst cms L mmax * f)
  · rw [if_pos hc, if_neg, if_neg (not_lt.2 hv)]
    rw [le_div_iff₀ tp] at hc
    exact not_lt.2 hc
  · rw [if_neg hc, if_pos]
    rw [le_div_iff₀ tp] at hc
    exact not_le.1 hc

/-- **C119.** The density of the proposed masses times the value is the wanted density: spectral function
times phase space p·B²(p). -/
theorem C119_density {S : Shape} (hS : S.Valid) (mst cms : ℝ) (L : ℕ) (m : ℝ) :
    cauchyPdf m S.mass (S.width / 2) * sampleVal S mst cms L m =
      S.sf m * (pCM cms mst m * blattWeisskopfSqr (pCM cms mst m) L) := by
  have := nonrel_pos (m := m) (M := S.mass) hS.1
  unfold sampleVal
  have e : cauchyPdf m S.mass (S.width / 2) = breitWignerNonrel m S.mass S.width := rfl
  rw [e]
  field_simp

/-- **C119.** If the ratio of the spectral function to the simple one is never above 1 or its value at the
largest mass, the envelope covers all masses from the start, and the factor stays 1. -/
theorem C119_envelope {S : Shape} (hS : S.Valid) {mst cms mmax : ℝ} (L : ℕ) (h1 : 0 ≤ mst)
    (h3 : mst + mmax < cms)
    (hr : ∀ m, S.mmin ≤ m → m ≤ mmax → S.sf m / breitWignerNonrel m S.mass S.width ≤
      max 1 (S.sf mmax / breitWignerNonrel mmax S.mass S.width)) :
    ∀ m, S.mmin ≤ m → m ≤ mmax → sampleVal S mst cms L m ≤ sampleTop S mst cms L mmax := by
  intro m a b
  have m0 := hS.2.1
  have E0 : 0 < cms := by linarith
  unfold sampleVal sampleTop
  rw [mul_comm (pCM cms mst S.mmin * _)]
  have pp := pCM_pos h1 (m0.trans a) (by linarith : mst + m < cms)
  exact mul_le_mul (hr m a b) (blw_mono L pp.le (pCM_anti h1 m0 a (by linarith) E0))
    (blw_pos L pp).le (le_trans zero_le_one (le_max_left _ _))

/-! ### Two resonances -/

/-- **C119.** The two masses drawn for two resonances are at least the smallest ones and leave a momentum,
unless the third random number is exactly 0. -/
theorem C119_pair_partial {S T : Shape} (hS : S.Valid) (hT : T.Valid) {cms max1 max2 : ℝ} (L : ℕ)
    (h1 : S.mmin ≤ max1) (h2 : T.mmin ≤ max2) (b1 : max1 < cms - T.mmin) (b2 : max2 < cms - S.mmin)
    {draws : List (ℝ × ℝ × ℝ)}
    (hd : ∀ d ∈ draws, (0 ≤ d.1 ∧ d.1 < 1) ∧ (0 ≤ d.2.1 ∧ d.2.1 < 1) ∧ 0 < d.2.2 ∧ d.2.2 < 1)
    {f m1 m2 f' : ℝ} (hf : 0 < f) (h : samplePair S T cms max1 max2 L f draws = some ((m1, m2), f')) :
    S.mmin ≤ m1 ∧ T.mmin ≤ m2 ∧ m1 + m2 < cms ∧ 0 < pCM cms m1 m2 ∧ f ≤ f' ∧
      pairVal S T cms L m1 m2 ≤ pairTop S T cms L * f' := by
  induction draws generalizing f with
  | nil => cases h
  | cons d rest ih =>
    obtain ⟨u1, u2, v⟩ := d
    obtain ⟨⟨u10, u11⟩, ⟨u20, u21⟩, v0, v1⟩ := hd _ List.mem_cons_self
    have ih' := fun f => ih (f := f) (fun d hd' => hd d (List.mem_cons_of_mem _ hd'))
    obtain ⟨x, e, x1, x2⟩ := Rand.C55_cauchy (pole := S.mass) (width := S.width / 2)
      (half_pos hS.1).ne' h1 u10 u11
    obtain ⟨y, e', y1, y2⟩ := Rand.C55_cauchy (pole := T.mass) (width := T.width / 2)
      (half_pos hT.1).ne' h2 u20 u21
    simp only at u10 u20 v0
    rw [samplePair, e, e'] at h
    simp only [Option.bind_eq_bind, Option.bind_some] at h
    have s0 := hS.2.1
    have t0 := hT.2.1
    have tp : 0 < pairTop S T cms L := blw_pos L (pCM_pos s0 t0 (by linarith))
    split at h
    · exact ih' f hf h
    · split at h
      · rename_i _ hv
        have r : 1 < pairVal S T cms L x y / (pairTop S T cms L * f) := by
          rw [one_lt_div (mul_pos tp hf)]; exact hv
        have := ih' _ (mul_pos hf (one_pos.trans r)) h
        exact ⟨this.1, this.2.1, this.2.2.1, this.2.2.2.1, by nlinarith [this.2.2.2.2.1], this.2.2.2.2.2⟩
      · rename_i hu hv
        cases h
        have pos : 0 < pairVal S T cms L m1 m2 := by
          rw [not_lt, Rand.uniform, sub_zero, add_zero] at hu
          exact lt_of_lt_of_le (mul_pos v0 (mul_pos tp hf)) hu
        have sum : m1 + m2 < cms := by
          by_contra hc
          have z : pCM cms m1 m2 = 0 :=
            C30_below_partial cms m1 m2 (s0.trans x1) (t0.trans y1) (by linarith) (not_lt.1 hc)
              (abs_le.2 ⟨by linarith, by linarith⟩)
          unfold pairVal at pos
          rw [z, zero_mul, mul_zero] at pos
          exact lt_irrefl _ pos
        exact ⟨x1, y1, sum, pCM_pos (s0.trans x1) (t0.trans y1) sum, le_rfl, not_lt.1 hv⟩

/-- **C119 (violated).** If the third random number is exactly 0, two masses are accepted that need more
energy than there is. -/
theorem C119_pair_false {S T : Shape} (hS : S.Valid) (hT : T.Valid) {cms max1 max2 : ℝ} (L : ℕ)
    (h1 : S.mmin ≤ max1) (h2 : T.mmin ≤ max2) (b1 : max1 < cms - T.mmin) (b2 : max2 < cms - S.mmin)
    {u1 u2 m1 m2 f : ℝ} (hf : 0 < f)
    (hu1 : 0 ≤ u1 ∧ u1 < 1) (hu2 : 0 ≤ u2 ∧ u2 < 1)
    (e1 : Rand.cauchy S.mass (S.width / 2) S.mmin max1 u1 = some m1)
    (e2 : Rand.cauchy T.mass (T.width / 2) T.mmin max2 u2 = some m2)
    (hsum : cms ≤ m1 + m2) (rest : List (ℝ × ℝ × ℝ)) :
    samplePair S T cms max1 max2 L f ((u1, u2, 0) :: rest) = some ((m1, m2), f) := by
  have s0 := hS.2.1
  have t0 := hT.2.1
  obtain ⟨x, e, x1, x2⟩ := Rand.C55_cauchy (pole := S.mass) (width := S.width / 2)
    (half_pos hS.1).ne' h1 hu1.1 hu1.2
  obtain ⟨y, e', y1, y2⟩ := Rand.C55_cauchy (pole := T.mass) (width := T.width / 2)
    (half_pos hT.1).ne' h2 hu2.1 hu2.2
  rw [e1] at e; cases e
  rw [e2] at e'; cases e'
  have z : pCM cms m1 m2 = 0 :=
    C30_below_partial cms m1 m2 (s0.trans x1) (t0.trans y1) (by linarith) hsum
      (abs_le.2 ⟨by linarith, by linarith⟩)
  have tp : 0 < pairTop S T cms L := blw_pos L (pCM_pos s0 t0 (by linarith))
  have v0 : pairVal S T cms L m1 m2 = 0 := by unfold pairVal; rw [z, zero_mul, mul_zero]
  rw [samplePair, e1, e2]
  simp only [Option.bind_eq_bind, Option.bind_some]
  rw [v0, Rand.uniform, zero_mul, zero_add, if_neg (lt_irrefl _), if_neg]
  exact not_lt.2 (mul_pos tp hf).le

/-- **C119.** For two resonances the densities of the proposed masses times the value is the wanted
density. -/
theorem C119_pair_density {S T : Shape} (hS : S.Valid) (hT : T.Valid) (cms : ℝ) (L : ℕ) (m1 m2 : ℝ) :
    cauchyPdf m1 S.mass (S.width / 2) * cauchyPdf m2 T.mass (T.width / 2) * pairVal S T cms L m1 m2 =
      S.sf m1 * T.sf m2 * (pCM cms m1 m2 * blattWeisskopfSqr (pCM cms m1 m2) L) := by
  have a := nonrel_pos (m := m1) (M := S.mass) hS.1
  have b := nonrel_pos (m := m2) (M := T.mass) hT.1
  unfold pairVal
  have e : ∀ (m : ℝ) (S : Shape), cauchyPdf m S.mass (S.width / 2) = breitWignerNonrel m S.mass S.width :=
    fun _ _ => rfl
  rw [e, e]
  field_simp

/-! ### The masses of the final state -/

/-- What the particle types guarantee: a stable particle has its pole mass as smallest mass. -/
def Final.Valid (A : Final) : Prop :=
  A.shape.Valid ∧ 0 ≤ A.mkin ∧ A.mkin ≤ A.shape.mmin ∧
    (A.stable = true → A.shape.mmin = A.shape.mass ∧ A.mkin = A.shape.mass)

/-- **C119.** If the energy is above the sum of the smallest masses and the last random number of each
draw is not 0, the masses of the final state are the pole masses of stable particles and masses of
resonances that are not below the smallest ones; together they are below the energy. With too little
energy there is an exception. -/
theorem C119_masses_partial {next : ℝ → ℝ} {A B : Final} (hA : A.Valid) (hB : B.Valid) {E : ℝ} {L : ℕ} {f : ℝ}
    {draws : List (ℝ × ℝ × ℝ)} (hf : 0 < f)
    (hn : next (E - A.shape.mmin) < E - A.shape.mmin ∧ next (E - B.shape.mmin) < E - B.shape.mmin ∧
      B.shape.mmin ≤ next (E - A.shape.mmin) ∧ A.shape.mmin ≤ next (E - B.shape.mmin))
    (hd : ∀ d ∈ draws, (0 ≤ d.1 ∧ d.1 < 1) ∧ (0 ≤ d.2.1 ∧ d.2.1 < 1) ∧ 0 < d.2.2 ∧ d.2.2 < 1) :
    ∃ r, sampleMasses next A B E L f draws = .ok r ∧ ∀ a b, r = some (a, b) →
      (A.stable = true → a = A.shape.mass) ∧ (B.stable = true → b = B.shape.mass) ∧
      A.shape.mmin ≤ a ∧ B.shape.mmin ≤ b ∧ a + b < E ∧ 0 < pCM E a b := by
  obtain ⟨n1, n2, n3, n4⟩ := hn
  obtain ⟨sA, kA, lA, stA⟩ := hA
  obtain ⟨sB, kB, lB, stB⟩ := hB
  have a0 := sA.2.1
  have b0 := sB.2.1
  unfold sampleMasses
  rw [if_neg (by push Not; linarith)]
  by_cases ha : A.stable = true
  · obtain ⟨ea, -⟩ := stA ha
    by_cases hb : B.stable = true
    · obtain ⟨eb, -⟩ := stB hb
      rw [ha, hb]
      refine ⟨_, rfl, ?_⟩
      rintro a b h
      cases h
      have : A.shape.mass + B.shape.mass < E := by rw [← ea, ← eb]; linarith
      exact ⟨fun _ => rfl, fun _ => rfl, ea.le, eb.le, this, pCM_pos (ea ▸ a0) (eb ▸ b0) this⟩
    · rw [Bool.not_eq_true] at hb
      rw [ha, hb]
      refine ⟨_, rfl, ?_⟩
      rintro a b h
      obtain ⟨⟨m, f'⟩, h1, h2⟩ := Option.map_eq_some_iff.1 h
      cases h2
      have n1' : next (E - A.shape.mass) < E - A.shape.mass := by rw [← ea]; exact n1
      have := C119_single sB (mst := A.shape.mass) (cms := E) L (ea ▸ a0) (by rw [← ea]; exact n3)
        (by linarith)
        (draws := draws.map fun d => (d.2.1, d.2.2))
        (by
          intro d hd'
          obtain ⟨d', m, rfl⟩ := List.mem_map.1 hd'
          exact ⟨(hd d' m).2.1, (hd d' m).2.2.1.le, (hd d' m).2.2.2⟩) hf h1
      exact ⟨fun _ => rfl, fun h => (by cases h), ea.le, this.1, this.2.2.1, this.2.2.2.1⟩
  · rw [Bool.not_eq_true] at ha
    by_cases hb : B.stable = true
    · obtain ⟨eb, -⟩ := stB hb
      rw [ha, hb]
      refine ⟨_, rfl, ?_⟩
      rintro a b h
      obtain ⟨⟨m, f'⟩, h1, h2⟩ := Option.map_eq_some_iff.1 h
      cases h2
      have n2' : next (E - B.shape.mass) < E - B.shape.mass := by rw [← eb]; exact n2
      have := C119_single sA (mst := B.shape.mass) (cms := E) L (eb ▸ b0) (by rw [← eb]; exact n4)
        (by linarith)
        (draws := draws.map fun d => (d.1, d.2.2))
        (by
          intro d hd'
          obtain ⟨d', m, rfl⟩ := List.mem_map.1 hd'
          exact ⟨(hd d' m).1, (hd d' m).2.2.1.le, (hd d' m).2.2.2⟩) hf h1
      have hs : m + B.shape.mass < E := by linarith [this.2.2.1]
      exact ⟨fun h => (by cases h), fun _ => rfl, this.1, eb.le, hs,
        pCM_pos (a0.trans this.1) (eb ▸ b0) hs⟩
    · rw [Bool.not_eq_true] at hb
      rw [ha, hb]
      refine ⟨_, rfl, ?_⟩
      rintro a b h
      obtain ⟨⟨m, f'⟩, h1, h2⟩ := Option.map_eq_some_iff.1 h
      cases h2
      have := C119_pair_partial sA sB L n4 n3 n2 n1 hd hf h1
      exact ⟨fun h => (by cases h), fun h => (by cases h), this.1, this.2.1, this.2.2.1, this.2.2.2.1⟩

theorem C119_too_little (next : ℝ → ℝ) (A B : Final) {E f : ℝ} (L : ℕ) (draws : List (ℝ × ℝ × ℝ)) :
    sampleMasses next A B E L f draws = .error .notEnough ↔ E < A.mkin + B.mkin := by
  unfold sampleMasses
  constructor
  · intro h
    by_contra hc
    rw [if_neg hc] at h
    split_ifs at h
  · intro h
    rw [if_pos h]

/-- **C119 (violated).** Only the kinematic thresholds are checked: with an energy between the kinematic
threshold and the smallest mass of a resonance, there is no exception, and the uniform distribution is asked for a
number between bounds in the wrong order. -/
theorem C119_gap_false {next : ℝ → ℝ} (hn : ∀ x, 0 < x → next x < x) {A B : Final} (hA : A.Valid) (hB : B.Valid)
    (hb : B.stable = true) {E : ℝ} (h1 : A.mkin + B.shape.mass < E)
    (h2 : E ≤ A.shape.mmin + B.shape.mass) :
    (∀ L f draws, sampleMasses next A B E L f draws ≠ .error .notEnough) ∧
      ¬ Rand.uniformOk (Real.arctan ((A.shape.mmin - A.shape.mass) / (A.shape.width / 2)))
        (Real.arctan ((next (E - B.shape.mass) - A.shape.mass) / (A.shape.width / 2))) := by
  obtain ⟨sA, kA, lA, stA⟩ := hA
  obtain ⟨sB, kB, lB, stB⟩ := hB
  obtain ⟨e1, e2⟩ := stB hb
  refine ⟨?_, ?_⟩
  · intro L f draws h
    unfold sampleMasses at h
    rw [if_neg (by push Not; linarith)] at h
    split_ifs at h
  · unfold Rand.uniformOk
    rw [not_le]
    apply Real.arctan_strictMono
    have w := sA.1
    have := hn (E - B.shape.mass) (by linarith)
    exact div_lt_div_of_pos_right (by linarith) (half_pos w)

/-- A resonance with a gap between the kinematic and the smallest mass, and a stable partner. -/
example : ∃ A B : Final, A.Valid ∧ B.Valid ∧ A.stable = false ∧ B.stable = true ∧ A.mkin < A.shape.mmin := by
  refine ⟨⟨false, 1, ⟨776 / 1000, 149 / 1000, 11 / 10, fun _ => 1⟩⟩,
    ⟨true, 938 / 1000, ⟨938 / 1000, 1, 938 / 1000, fun _ => 0⟩⟩, ?_, ?_, rfl, rfl, by norm_num⟩ <;>
  · refine ⟨⟨?_, ?_, ?_⟩, ?_, ?_, ?_⟩ <;> norm_num

/-- The hypotheses of the pair theorems can be met. -/
example : ∃ (S T : Shape) (cms max1 max2 : ℝ), S.Valid ∧ T.Valid ∧ S.mmin ≤ max1 ∧ T.mmin ≤ max2 ∧
    max1 < cms - T.mmin ∧ max2 < cms - S.mmin := by
  refine ⟨⟨776 / 1000, 149 / 1000, 28 / 100, fun _ => 1⟩, ⟨1232 / 1000, 115 / 1000, 1076 / 1000, fun _ => 1⟩,
    3, 19 / 10, 27 / 10, ?_, ?_, ?_, ?_, ?_, ?_⟩ <;> norm_num [Shape.Valid]

end Verif.Wid
