import Mathlib.MeasureTheory.Integral.IntervalIntegral.IntegrationByParts
import Mathlib.MeasureTheory.Integral.IntervalIntegral.FundThmCalculus
import Mathlib.Analysis.SpecialFunctions.Trigonometric.ArctanDeriv
import Verif.ThMass.Model
import Verif.Wid.Mass
import Verif.Rand.Props
/-
C167: thermal masses of resonances.
-/
namespace Verif.ThMass

open Wid (cauchyPdf breitWignerNonrel nonrel_pos)

/-- A resonance: positive width, masses between the smallest one and 5 GeV, spectral function that is not negative. -/
structure Valid (R : Res) : Prop where
  unstable : R.stable = false
  width : 0 < R.width
  low : R.mth ≤ R.mass
  high : R.mass ≤ 5
  lt : R.mth < 5
  sf : ∀ m, 0 ≤ R.sf m

theorem bw_pos (m M G : ℝ) (hG : 0 < G) : 0 < breitWignerNonrel m M G :=
  (Wid.C118_cauchy (by positivity : 0 < G / 2) 0 0).1 m

/-- **C167.** Stable particles have their pole mass. -/
theorem C167_stable (K2 : ℝ → ℝ) (beta : ℝ) (R : Res) (h : R.stable = true) (draws : List (ℝ × ℝ)) :
    sample K2 beta R draws = some R.mass := by
  unfold sample
  rw [if_pos h]

/-! ### The envelope -/

theorem scan_mono (q : ℝ → ℝ) (lower dm : ℝ) : ∀ (n i : ℕ) (b : ℝ × ℝ), b.1 ≤ (scan q lower dm n i b).1
  | 0, _, _ => le_rfl
  | n + 1, i, b => by
    unfold scan
    refine le_trans ?_ (scan_mono q lower dm n (i + 1) _)
    by_cases h : q (lower + dm * i) > b.1
    · rw [if_pos h]; exact h.le
    · rw [if_neg h]

theorem scan_ge (q : ℝ → ℝ) (lower dm : ℝ) : ∀ (n i : ℕ) (b : ℝ × ℝ) (k : ℕ), i ≤ k → k < i + n →
    q (lower + dm * k) ≤ (scan q lower dm n i b).1
  | 0, i, _, k, h1, h2 => by omega
  | n + 1, i, b, k, h1, h2 => by
    unfold scan
    rcases Nat.eq_or_lt_of_le h1 with rfl | h
    · refine le_trans ?_ (scan_mono q lower dm n (i + 1) _)
      by_cases h : q (lower + dm * i) > b.1
      · rw [if_pos h]
      · rw [if_neg h]; exact not_lt.1 h
    · exact scan_ge q lower dm n (i + 1) _ k (by omega) (by omega)

/-- The best point is a point of the window with the value stored. -/
def Best (q : ℝ → ℝ) (lo hi : ℝ) (b : ℝ × ℝ) : Prop := b.1 = q b.2 ∧ lo ≤ b.2 ∧ b.2 ≤ hi

theorem scan_best (q : ℝ → ℝ) (lo hi lower dm : ℝ) (hl : lo ≤ lower) (hd : 0 ≤ dm) (hu : lower + dm * 31 ≤ hi) :
    ∀ (n i : ℕ) (b : ℝ × ℝ), i + n ≤ 31 → Best q lo hi b → Best q lo hi (scan q lower dm n i b)
  | 0, _, _, _, h => h
  | n + 1, i, b, hi', h => by
    unfold scan
    refine scan_best q lo hi lower dm hl hd hu n (i + 1) _ (by omega) ?_
    by_cases hc : q (lower + dm * i) > b.1
    · rw [if_pos hc]
      have h0 : (0 : ℝ) ≤ i := Nat.cast_nonneg i
      have h1 : (i : ℝ) ≤ 31 := by exact_mod_cast (by omega : i ≤ 31)
      exact ⟨rfl, by simp only; nlinarith, by simp only; nlinarith⟩
    · rw [if_neg hc]; exact h

theorem pass_best (q : ℝ → ℝ) (lo hi : ℝ) (s : Search) (hl : lo ≤ s.lower) (hu : s.upper ≤ hi) (hm : s.lower ≤ s.best.2)
    (hm2 : s.best.2 ≤ s.upper) (h : s.best.1 = q s.best.2) :
    (pass q s).best.1 = q (pass q s).best.2 ∧ (pass q s).lower ≤ (pass q s).best.2 ∧
    (pass q s).best.2 ≤ (pass q s).upper ∧ lo ≤ (pass q s).lower ∧ (pass q s).upper ≤ hi := by
  have hb := scan_best q s.lower s.upper s.lower ((s.upper - s.lower) / 31) le_rfl (by linarith) (by linarith) 30 1 s.best
    (by norm_num) ⟨h, hm, hm2⟩
  obtain ⟨h1, h2, h3⟩ := hb
  unfold pass
  exact ⟨h1, by dsimp only; linarith, by dsimp only; linarith, by dsimp only; linarith, by dsimp only; linarith⟩

/-- **C167.** The envelope is one and a half times the largest of the ratios at the pole mass and at the points visited; these
include 30 equidistant points between the smallest mass and 5 GeV. -/
theorem C167_envelope (q : ℝ → ℝ) (m0 mth : ℝ) (h1 : mth ≤ m0) (h2 : m0 ≤ 5) :
    (∃ m, mth ≤ m ∧ m ≤ 5 ∧ envelope q m0 mth = 3 / 2 * q m) ∧
    3 / 2 * q m0 ≤ envelope q m0 mth ∧
    ∀ k : ℕ, 1 ≤ k → k ≤ 30 → 3 / 2 * q (mth + (5 - mth) / 31 * k) ≤ envelope q m0 mth := by
  have p1 := pass_best q mth 5 ⟨mth, maxMass, (q m0, m0)⟩ le_rfl (by simp [maxMass]) h1 (by simpa [maxMass] using h2) rfl
  have p2 := pass_best q mth 5 _ p1.2.2.2.1 p1.2.2.2.2 p1.2.1 p1.2.2.1 p1.1
  have hmono (s : Search) : s.best.1 ≤ (pass q s).best.1 := scan_mono ..
  have e : envelope q m0 mth = (pass q (pass q ⟨mth, maxMass, (q m0, m0)⟩)).best.1 * (3 / 2) := rfl
  refine ⟨⟨(pass q (pass q ⟨mth, maxMass, (q m0, m0)⟩)).best.2, ?_, ?_, ?_⟩, ?_, ?_⟩
  · linarith [p2.2.1, p2.2.2.2.1]
  · linarith [p2.2.2.1, p2.2.2.2.2]
  · rw [e, p2.1]; ring
  · have a := hmono ⟨mth, maxMass, (q m0, m0)⟩
    have b := hmono (pass q ⟨mth, maxMass, (q m0, m0)⟩)
    dsimp only at a
    rw [e]; linarith
  · intro k k1 k2
    have a : q (mth + (5 - mth) / 31 * k) ≤ (pass q ⟨mth, maxMass, (q m0, m0)⟩).best.1 :=
      scan_ge q mth ((5 - mth) / 31) 30 1 (q m0, m0) k k1 (by omega)
    have b := hmono (pass q ⟨mth, maxMass, (q m0, m0)⟩)
    rw [e]; linarith

/-! ### The masses -/

theorem draw_range (q : ℝ → ℝ) (R : Res) (hR : Valid R) : ∀ (draws : List (ℝ × ℝ)) (top m : ℝ),
    (∀ d ∈ draws, (0 ≤ d.1 ∧ d.1 < 1) ∧ 0 ≤ d.2 ∧ d.2 < 1) → draw q R top draws = some m →
    R.mth ≤ m ∧ m ≤ 5 ∧ ∃ top' ≥ top, q m ≤ top'
  | [], _, _, _, h => by cases h
  | (u, v) :: rest, top, m, hd, h => by
    obtain ⟨⟨u0, u1⟩, -⟩ := hd _ List.mem_cons_self
    have hd' : ∀ d ∈ rest, (0 ≤ d.1 ∧ d.1 < 1) ∧ 0 ≤ d.2 ∧ d.2 < 1 := fun d h' => hd d (List.mem_cons_of_mem _ h')
    obtain ⟨x, e, x1, x2⟩ := Rand.C55_cauchy (pole := R.mass) (width := 1 / 2 * R.width) (lo := R.mth) (hi := maxMass)
      (by have := hR.width; positivity) hR.lt.le u0 u1
    unfold draw at h
    rw [e] at h
    simp only [Option.bind_eq_bind, Option.bind_some] at h
    split at h
    · exact draw_range q R hR rest top m hd' h
    · split at h
      · rename_i _ hgt
        obtain ⟨a, b, t, ht, hq⟩ := draw_range q R hR rest (q x) m hd' h
        exact ⟨a, b, t, by linarith, hq⟩
      · rename_i _ hgt
        cases h
        exact ⟨x1, x2, top, le_rfl, not_lt.1 hgt⟩

/-- **C167.** The mass of a resonance lies between its smallest mass and 5 GeV. -/
theorem C167_range (K2 : ℝ → ℝ) (beta : ℝ) (R : Res) (hR : Valid R) (draws : List (ℝ × ℝ)) (m : ℝ)
    (hd : ∀ d ∈ draws, (0 ≤ d.1 ∧ d.1 < 1) ∧ 0 ≤ d.2 ∧ d.2 < 1) (h : sample K2 beta R draws = some m) :
    R.mth ≤ m ∧ m ≤ 5 := by
  unfold sample at h
  rw [if_neg (by simp [hR.unstable])] at h
  obtain ⟨a, b, -⟩ := draw_range _ R hR draws _ m hd h
  exact ⟨a, b⟩

/-- The mass proposed for the random number `u`. -/
noncomputable def proposed (M G lo hi u : ℝ) : ℝ :=
  M + G * Real.tan (Rand.uniform (Real.arctan ((lo - M) / G)) (Real.arctan ((hi - M) / G)) u)

theorem cauchy_eq (M G lo hi u : ℝ) (hG : 0 < G) : Rand.cauchy M G lo hi u = some (proposed M G lo hi u) := by
  simp only [Rand.cauchy, Rand.div, if_neg hG.ne', Option.bind_some, Option.map_some, proposed]

/-- The share of the proposals below `x`. -/
noncomputable def share (M G lo hi x : ℝ) : ℝ :=
  (Real.arctan ((x - M) / G) - Real.arctan ((lo - M) / G)) / (Real.arctan ((hi - M) / G) - Real.arctan ((lo - M) / G))

section law
variable {M G lo hi : ℝ} (hG : 0 < G) (hlt : lo < hi)
include hG hlt

theorem span_pos : 0 < Real.arctan ((hi - M) / G) - Real.arctan ((lo - M) / G) := by
  have := Real.arctan_strictMono (div_lt_div_of_pos_right (by linarith : lo - M < hi - M) hG)
  linarith

theorem arg_mem {u : ℝ} (h0 : 0 ≤ u) (h1 : u ≤ 1) :
    Rand.uniform (Real.arctan ((lo - M) / G)) (Real.arctan ((hi - M) / G)) u ∈ Set.Ioo (-(Real.pi / 2)) (Real.pi / 2) := by
  have a1 := Real.neg_pi_div_two_lt_arctan ((lo - M) / G)
  have a2 := Real.arctan_lt_pi_div_two ((hi - M) / G)
  have a3 := span_pos (M := M) hG hlt
  unfold Rand.uniform
  constructor <;> nlinarith

theorem proposed_share {x : ℝ} : proposed M G lo hi (share M G lo hi x) = x := by
  have h := span_pos (M := M) hG hlt
  have : Rand.uniform (Real.arctan ((lo - M) / G)) (Real.arctan ((hi - M) / G)) (share M G lo hi x) =
      Real.arctan ((x - M) / G) := by
    unfold Rand.uniform share
    field_simp
    ring
  unfold proposed
  rw [this, Real.tan_arctan]
  field_simp
  ring

theorem share_proposed {u : ℝ} (h0 : 0 ≤ u) (h1 : u ≤ 1) : share M G lo hi (proposed M G lo hi u) = u := by
  have h := span_pos (M := M) hG hlt
  have ha := arg_mem (M := M) hG hlt h0 h1
  unfold share proposed
  rw [show (M + G * Real.tan (Rand.uniform (Real.arctan ((lo - M) / G)) (Real.arctan ((hi - M) / G)) u) - M) / G =
    Real.tan (Rand.uniform (Real.arctan ((lo - M) / G)) (Real.arctan ((hi - M) / G)) u) by field_simp; ring]
  rw [Real.arctan_tan ha.1 ha.2, div_eq_iff h.ne']
  unfold Rand.uniform
  ring

theorem share_mono {x y : ℝ} : share M G lo hi x ≤ share M G lo hi y ↔ x ≤ y := by
  have h := span_pos (M := M) hG hlt
  unfold share
  rw [div_le_div_iff_of_pos_right h, sub_le_sub_iff_right, Real.arctan_le_arctan_iff, div_le_div_iff_of_pos_right hG]
  constructor <;> intro h' <;> linarith

theorem proposed_le {u x : ℝ} (h0 : 0 ≤ u) (h1 : u ≤ 1) : proposed M G lo hi u ≤ x ↔ u ≤ share M G lo hi x := by
  rw [← share_mono hG hlt, share_proposed hG hlt h0 h1]

theorem share_deriv (x : ℝ) : HasDerivAt (share M G lo hi)
    (cauchyPdf x M G * (Real.pi / (Real.arctan ((hi - M) / G) - Real.arctan ((lo - M) / G)))) x := by
  have h := span_pos (M := M) hG hlt
  have d := (((((hasDerivAt_id x).sub_const M).div_const G).arctan).sub_const (Real.arctan ((lo - M) / G))).div_const
    (Real.arctan ((hi - M) / G) - Real.arctan ((lo - M) / G))
  refine HasDerivAt.congr_deriv d ?_
  unfold cauchyPdf
  simp only [id]
  have : 0 < (x - M) * (x - M) + G * G := by nlinarith [mul_self_nonneg (x - M), mul_pos hG hG]
  generalize x - M = w at this ⊢
  have h2 : 0 < 1 + (w / G) ^ 2 := by positivity
  have hpi := Real.pi_pos
  field_simp
  ring

theorem pdf_cont : Continuous fun x => cauchyPdf x M G := by
  unfold cauchyPdf
  simp only
  apply Continuous.div continuous_const (by fun_prop)
  intro m
  have : 0 < (m - M) * (m - M) + G * G := by nlinarith [mul_self_nonneg (m - M), mul_pos hG hG]
  have := Real.pi_pos
  positivity

theorem proposed_cont : ContinuousOn (fun u => proposed M G lo hi u) (Set.Icc 0 1) := by
  unfold proposed
  refine continuousOn_const.add (continuousOn_const.mul ?_)
  refine Real.continuousOn_tan_Ioo.comp ?_ ?_
  · unfold Rand.uniform; fun_prop
  · intro u hu; exact arg_mem hG hlt hu.1 hu.2

/-- Change of variables from the random number to the mass. -/
theorem substitute (q : ℝ → ℝ) (hq : ContinuousOn q (Set.Icc lo hi)) {x : ℝ} (h1 : lo ≤ x) (h2 : x ≤ hi) :
    ∫ u in (0 : ℝ)..share M G lo hi x, q (proposed M G lo hi u) =
      (∫ m in lo..x, q m * cauchyPdf m M G) / ∫ m in lo..hi, cauchyPdf m M G := by
  have h := span_pos (M := M) hG hlt
  have s0 : share M G lo hi lo = 0 := by unfold share; simp
  have s1 : share M G lo hi hi = 1 := by unfold share; exact div_self h.ne'
  have hZ : ∫ m in lo..hi, cauchyPdf m M G = (Real.arctan ((hi - M) / G) - Real.arctan ((lo - M) / G)) / Real.pi :=
    (Wid.C118_cauchy hG lo hi).2
  have hpi := Real.pi_pos
  have key := intervalIntegral.integral_comp_mul_deriv'' (a := lo) (b := x) (f := share M G lo hi)
    (f' := fun m => cauchyPdf m M G * (Real.pi / (Real.arctan ((hi - M) / G) - Real.arctan ((lo - M) / G))))
    (g := fun u => q (proposed M G lo hi u))
    (fun t _ => (share_deriv hG hlt t).continuousAt.continuousWithinAt)
    (fun t _ => (share_deriv hG hlt t).hasDerivWithinAt)
    ((pdf_cont hG hlt).mul continuous_const).continuousOn ?_
  · rw [s0] at key
    rw [← key, hZ]
    have : ∀ t, ((fun u => q (proposed M G lo hi u)) ∘ share M G lo hi) t *
        (cauchyPdf t M G * (Real.pi / (Real.arctan ((hi - M) / G) - Real.arctan ((lo - M) / G)))) =
        q t * cauchyPdf t M G * (Real.pi / (Real.arctan ((hi - M) / G) - Real.arctan ((lo - M) / G))) := by
      intro t
      simp only [Function.comp, proposed_share hG hlt]
      ring
    simp only [this]
    rw [intervalIntegral.integral_mul_const]
    field_simp
  · rintro u ⟨t, ht, rfl⟩
    rw [Set.uIcc_of_le h1] at ht
    have hu0 : 0 ≤ share M G lo hi t := by rw [← s0]; exact (share_mono hG hlt).2 ht.1
    have hu1 : share M G lo hi t ≤ 1 := by rw [← s1]; exact (share_mono hG hlt).2 (ht.2.trans h2)
    have hc := proposed_cont (M := M) hG hlt
    have hmaps : Set.MapsTo (fun u => proposed M G lo hi u) (Set.Icc 0 1) (Set.Icc lo hi) := by
      intro u hu
      constructor
      · rw [← share_mono hG hlt, s0]
        dsimp only
        rw [share_proposed hG hlt hu.1 hu.2]; exact hu.1
      · dsimp only
        rw [proposed_le hG hlt hu.1 hu.2, s1]; exact hu.2
    refine ((hq.comp hc hmaps) _ ⟨hu0, hu1⟩).mono ?_
    rintro _ ⟨t', ht', rfl⟩
    rw [Set.uIcc_of_le h1] at ht'
    exact ⟨by rw [← s0]; exact (share_mono hG hlt).2 ht'.1, by rw [← s1]; exact (share_mono hG hlt).2 (ht'.2.trans h2)⟩

end law

open MeasureTheory in
/-- The probability that a round with the envelope `top` returns a mass of at most `x`: the random numbers `u` and `v` of the
round are uniform in `[0, 1)`. -/
noncomputable def accepted (q : ℝ → ℝ) (R : Res) (top x : ℝ) : ENNReal :=
  ∫⁻ u in Set.Ico (0 : ℝ) 1, volume {v : ℝ | v ∈ Set.Ico (0 : ℝ) 1 ∧ ∃ m ≤ x, draw q R top [(u, v)] = some m}

/-- A candidate covered by the envelope is returned exactly when the second number is at most the ratio to the envelope. -/
theorem draw_one (q : ℝ → ℝ) (R : Res) (hR : Valid R) {top u v : ℝ}
    (hc : q (proposed R.mass (1 / 2 * R.width) R.mth 5 u) ≤ top) (rest : List (ℝ × ℝ)) :
    draw q R top ((u, v) :: rest) =
      if q (proposed R.mass (1 / 2 * R.width) R.mth 5 u) < v * top then draw q R top rest
      else some (proposed R.mass (1 / 2 * R.width) R.mth 5 u) := by
  have e := cauchy_eq R.mass (1 / 2 * R.width) R.mth maxMass u (by have := hR.width; positivity)
  have e5 : maxMass = 5 := rfl
  have eu : Rand.uniform 0 top v = v * top := by unfold Rand.uniform; ring
  rw [draw]
  rw [e]
  simp only [Option.bind_eq_bind, Option.bind_some, e5, eu]
  by_cases h : q (proposed R.mass (1 / 2 * R.width) R.mth 5 u) < v * top
  · rw [if_pos h, if_pos h]
  · rw [if_neg h, if_neg h, if_neg (not_lt.2 hc)]

open MeasureTheory in
theorem accepted_eq (q : ℝ → ℝ) (R : Res) (hR : Valid R) (hq : ContinuousOn q (Set.Icc R.mth 5)) {top : ℝ} (ht : 0 < top)
    (h0 : ∀ m, R.mth ≤ m → m ≤ 5 → 0 ≤ q m) (hc : ∀ m, R.mth ≤ m → m ≤ 5 → q m ≤ top) {x : ℝ} (h1 : R.mth ≤ x)
    (h2 : x ≤ 5) : accepted q R top x =
      ENNReal.ofReal ((∫ m in R.mth..x, q m * cauchyPdf m R.mass (1 / 2 * R.width)) /
        (top * ∫ m in R.mth..5, cauchyPdf m R.mass (1 / 2 * R.width))) := by
  have hG : 0 < 1 / 2 * R.width := by have := hR.width; positivity
  have hlt := hR.lt
  generalize hg : 1 / 2 * R.width = G at *
  have h := span_pos (M := R.mass) hG hlt
  have s0 : share R.mass G R.mth 5 R.mth = 0 := by unfold share; simp
  have s1 : share R.mass G R.mth 5 5 = 1 := by unfold share; exact div_self h.ne'
  have hU0 : 0 ≤ share R.mass G R.mth 5 x := by rw [← s0]; exact (share_mono hG hlt).2 h1
  have hU1 : share R.mass G R.mth 5 x ≤ 1 := by rw [← s1]; exact (share_mono hG hlt).2 h2
  have hr : ∀ u, 0 ≤ u → u ≤ 1 → R.mth ≤ proposed R.mass G R.mth 5 u ∧ proposed R.mass G R.mth 5 u ≤ 5 := by
    intro u a b
    constructor
    · rw [← share_mono hG hlt, s0, share_proposed hG hlt a b]; exact a
    · rw [proposed_le hG hlt a b, s1]; exact b
  have slice : ∀ u ∈ Set.Ico (0 : ℝ) 1,
      volume {v : ℝ | v ∈ Set.Ico (0 : ℝ) 1 ∧ ∃ m ≤ x, draw q R top [(u, v)] = some m} =
      (Set.Iic (share R.mass G R.mth 5 x)).indicator
        (fun u => ENNReal.ofReal (q (proposed R.mass G R.mth 5 u) / top)) u := by
    intro u hu
    obtain ⟨r1, r2⟩ := hr u hu.1 hu.2.le
    have hcu := hc _ r1 r2
    have h0u := h0 _ r1 r2
    have ed : ∀ v, draw q R top [(u, v)] = if q (proposed R.mass G R.mth 5 u) < v * top then none
        else some (proposed R.mass G R.mth 5 u) := by
      intro v
      have := draw_one q R hR (top := top) (u := u) (v := v) (by rw [hg]; exact hcu) []
      rw [this, hg]
      rfl
    by_cases hm : u ≤ share R.mass G R.mth 5 x
    · rw [Set.indicator_of_mem (show u ∈ Set.Iic _ from hm)]
      have hset : {v : ℝ | v ∈ Set.Ico (0 : ℝ) 1 ∧ ∃ m ≤ x, draw q R top [(u, v)] = some m} =
          Set.Icc 0 (q (proposed R.mass G R.mth 5 u) / top) ∩ Set.Iio 1 := by
        ext v
        simp only [Set.mem_setOf_eq, ed, Set.mem_Ico, Set.mem_inter_iff, Set.mem_Icc, Set.mem_Iio, le_div_iff₀ ht]
        by_cases hv : q (proposed R.mass G R.mth 5 u) < v * top
        · simp [hv]
        · simp only [hv, if_false, Option.some.injEq, not_lt.1 hv, and_true]
          constructor
          · exact fun h => h.1
          · exact fun h => ⟨h, _, (proposed_le hG hlt hu.1 hu.2.le).2 hm, rfl⟩
      rw [hset]
      have hle : q (proposed R.mass G R.mth 5 u) / top ≤ 1 := (div_le_one ht).2 hcu
      have hae : (Set.Icc 0 (q (proposed R.mass G R.mth 5 u) / top) ∩ Set.Iio 1 : Set ℝ) =ᵐ[volume]
          (Set.Icc 0 (q (proposed R.mass G R.mth 5 u) / top) ∩ Set.Iic 1 : Set ℝ) :=
        (ae_eq_refl _).inter Iio_ae_eq_Iic
      rw [measure_congr hae, Set.inter_eq_left.2 (fun v hv => hv.2.trans hle), Real.volume_Icc, sub_zero]
    · rw [Set.indicator_of_notMem (show u ∉ Set.Iic _ from hm)]
      have hset : {v : ℝ | v ∈ Set.Ico (0 : ℝ) 1 ∧ ∃ m ≤ x, draw q R top [(u, v)] = some m} = ∅ := by
        ext v
        simp only [Set.mem_setOf_eq, ed, Set.mem_empty_iff_false, iff_false, not_and, not_exists]
        intro _ m hmx
        split
        · simp
        · rintro ⟨⟩
          exact hm ((proposed_le hG hlt hu.1 hu.2.le).1 hmx)
      rw [hset, measure_empty]
  unfold accepted
  rw [setLIntegral_congr_fun measurableSet_Ico slice, setLIntegral_congr Ico_ae_eq_Ioc,
    setLIntegral_indicator measurableSet_Iic]
  have hI : Set.Iic (share R.mass G R.mth 5 x) ∩ Set.Ioc 0 1 = Set.Ioc 0 (share R.mass G R.mth 5 x) := by
    ext u
    simp only [Set.mem_inter_iff, Set.mem_Iic, Set.mem_Ioc]
    constructor
    · rintro ⟨a, b, -⟩; exact ⟨b, a⟩
    · rintro ⟨a, b⟩; exact ⟨b, a, b.trans hU1⟩
  rw [hI]
  have hcont : ContinuousOn (fun u => q (proposed R.mass G R.mth 5 u) / top) (Set.Icc 0 1) := by
    refine ContinuousOn.div_const (hq.comp (f := fun u => proposed R.mass G R.mth 5 u) (proposed_cont hG hlt) ?_) top
    intro u hu
    exact hr u hu.1 hu.2
  have hint : IntegrableOn (fun u => q (proposed R.mass G R.mth 5 u) / top) (Set.Ioc 0 (share R.mass G R.mth 5 x)) :=
    (hcont.integrableOn_Icc).mono_set (fun u hu => ⟨hu.1.le, hu.2.trans hU1⟩)
  rw [← ofReal_integral_eq_lintegral_ofReal hint]
  · congr 1
    rw [← intervalIntegral.integral_of_le hU0]
    have := substitute (M := R.mass) hG hlt (fun m => q m / top) (hq.div_const top) h1 h2
    rw [this]
    have e : ∀ m, q m / top * cauchyPdf m R.mass G = q m * cauchyPdf m R.mass G / top := fun m => by ring
    simp only [e]
    rw [intervalIntegral.integral_div, div_div]
  · refine (ae_restrict_iff' measurableSet_Ioc).2 (ae_of_all _ fun u hu => ?_)
    obtain ⟨a, b⟩ := hr u hu.1.le (hu.2.trans hU1)
    exact div_nonneg (h0 _ a b) ht.le

/-- The scaled Bessel function, by the contract of the library: `exp(x) K2(x)`. -/
noncomputable def scaled (bessel : ℝ → ℝ) (x : ℝ) : ℝ := Real.exp x * bessel x

/-- **C167.** The density of the proposed masses times the ratio is the thermal density: spectral function times
`m² K2(β m)`; the Bessel function that the program uses carries a factor `exp(β m)`, which is taken away. -/
theorem C167_density (bessel : ℝ → ℝ) (beta : ℝ) (R : Res) (hR : Valid R) (m : ℝ) :
    ratio (scaled bessel) beta R m * cauchyPdf m R.mass (1 / 2 * R.width) = R.sf m * (m * m * bessel (m * beta)) := by
  have := bw_pos m R.mass R.width hR.width
  have e : cauchyPdf m R.mass (1 / 2 * R.width) = breitWignerNonrel m R.mass R.width := by
    unfold breitWignerNonrel; congr 1; ring
  rw [e]
  unfold ratio thermal scaled
  have h : Real.exp (-beta * m) * Real.exp (m * beta) = 1 := by rw [← Real.exp_add]; simp [mul_comm]
  rw [div_mul_cancel₀ _ this.ne']
  linear_combination R.sf m * m * m * bessel (m * beta) * h

/-- **C167 (for ratios that the envelope covers).** In one round, a mass of at most `x` is returned with a probability
proportional to the integral of spectral function times `m² K2(β m)` up to `x`; given that a mass is returned, the
probabilities are these integrals divided by the one over all masses: the masses returned follow the thermal distribution. -/
theorem C167_law_partial (bessel : ℝ → ℝ) (beta : ℝ) (R : Res) (hR : Valid R) (hK : ∀ x, 0 ≤ bessel x)
    (hq : ContinuousOn (ratio (scaled bessel) beta R) (Set.Icc R.mth 5)) {top : ℝ} (ht : 0 < top)
    (hc : ∀ m, R.mth ≤ m → m ≤ 5 → ratio (scaled bessel) beta R m ≤ top)
    (hpos : 0 < ∫ m in R.mth..5, R.sf m * (m * m * bessel (m * beta))) {x : ℝ} (h1 : R.mth ≤ x) (h2 : x ≤ 5) :
    accepted (ratio (scaled bessel) beta R) R top x =
      ENNReal.ofReal ((∫ m in R.mth..x, R.sf m * (m * m * bessel (m * beta))) /
        (top * ∫ m in R.mth..5, cauchyPdf m R.mass (R.width / 2))) ∧
    accepted (ratio (scaled bessel) beta R) R top x / accepted (ratio (scaled bessel) beta R) R top 5 =
      ENNReal.ofReal ((∫ m in R.mth..x, R.sf m * (m * m * bessel (m * beta))) /
        ∫ m in R.mth..5, R.sf m * (m * m * bessel (m * beta))) := by
  have h0 : ∀ m, R.mth ≤ m → m ≤ 5 → 0 ≤ ratio (scaled bessel) beta R m := by
    intro m _ _
    unfold ratio thermal scaled
    exact div_nonneg (mul_nonneg (hR.sf m) (mul_nonneg (mul_nonneg (mul_self_nonneg m) (Real.exp_pos _).le)
      (mul_nonneg (Real.exp_pos _).le (hK _)))) (bw_pos _ _ _ hR.width).le
  have e (y : ℝ) (a : R.mth ≤ y) (b : y ≤ 5) := accepted_eq (ratio (scaled bessel) beta R) R hR hq ht h0 hc a b
  simp only [C167_density bessel beta R hR] at e
  have hZ : 0 < ∫ m in R.mth..5, cauchyPdf m R.mass (1 / 2 * R.width) := by
    have hG : 0 < 1 / 2 * R.width := by have := hR.width; positivity
    rw [(Wid.C118_cauchy hG R.mth 5).2]
    exact div_pos (span_pos hG hR.lt) Real.pi_pos
  have ehalf : (1 / 2 * R.width) = R.width / 2 := by ring
  constructor
  · rw [e x h1 h2, ehalf]
  · rw [e x h1 h2, e 5 hR.lt.le le_rfl, ← ENNReal.ofReal_div_of_pos (div_pos hpos (mul_pos ht hZ))]
    rw [div_div_div_cancel_right₀ (mul_pos ht hZ).ne']

/-- **C167.** One round: the proposed mass is returned exactly when the envelope covers its ratio and the second random number
is at most the ratio divided by the envelope; a ratio above the envelope raises the envelope to it, and nothing is returned. -/
theorem C167_round (q : ℝ → ℝ) (R : Res) (hR : Valid R) {top u v m : ℝ} (ht : 0 < top) (hv : v < 1)
    (hm : Rand.cauchy R.mass (R.width / 2) R.mth 5 u = some m) (rest : List (ℝ × ℝ)) :
    (q m ≤ top → v ≤ q m / top → draw q R top ((u, v) :: rest) = some m) ∧
    (q m ≤ top → q m / top < v → draw q R top ((u, v) :: rest) = draw q R top rest) ∧
    (top < q m → draw q R top ((u, v) :: rest) = draw q R (q m) rest) := by
  have e5 : maxMass = 5 := rfl
  have ew : 1 / 2 * R.width = R.width / 2 := by ring
  have eu : Rand.uniform 0 top v = v * top := by unfold Rand.uniform; ring
  have e : draw q R top ((u, v) :: rest) = if q m < v * top then draw q R top rest
      else if q m > top then draw q R (q m) rest else some m := by
    rw [draw, ew, e5, hm]
    simp only [Option.bind_eq_bind, Option.bind_some, eu]
  rw [e]
  refine ⟨fun a b => ?_, fun a b => ?_, fun a => ?_⟩
  · rw [le_div_iff₀ ht] at b
    rw [if_neg (not_lt.2 b), if_neg (not_lt.2 a)]
  · rw [div_lt_iff₀ ht] at b
    rw [if_pos b]
  · rw [if_neg (not_lt.2 (by nlinarith)), if_pos a]

/-! ### The envelope can miss a peak -/

theorem scan_const (q : ℝ → ℝ) (lower dm : ℝ) (b : ℝ × ℝ) : ∀ (n i : ℕ),
    (∀ k : ℕ, i ≤ k → k < i + n → q (lower + dm * k) ≤ b.1) → scan q lower dm n i b = b
  | 0, _, _ => rfl
  | n + 1, i, h => by
    unfold scan
    dsimp only
    rw [if_neg (not_lt.2 (h i le_rfl (by omega)))]
    exact scan_const q lower dm b n (i + 1) fun k a c => h k (by omega) (by omega)

/-- A tent of width 2 MeV around 2.97 GeV. -/
noncomputable def tent (m : ℝ) : ℝ := 1 + 10 * max 0 (1 - 1000 * |m - 297 / 100|)

theorem tent_far {m : ℝ} (h : 1 / 1000 ≤ |m - 297 / 100|) : tent m = 1 := by
  unfold tent
  rw [max_eq_left (by linarith)]
  norm_num

theorem tent_near {m : ℝ} (h : |m - 297 / 100| < 1 / 2000) : 3 / 2 < tent m := by
  unfold tent
  have := le_max_right (0 : ℝ) (1 - 1000 * |m - 297 / 100|)
  linarith

theorem tent_envelope : envelope tent (11 / 10) (7 / 20) = 3 / 2 := by
  have t0 : tent (11 / 10) = 1 := tent_far (by rw [abs_of_neg] <;> norm_num)
  have p1 : pass tent ⟨7 / 20, maxMass, (tent (11 / 10), 11 / 10)⟩ = ⟨41 / 40, 149 / 100, (1, 11 / 10)⟩ := by
    unfold pass
    dsimp only
    rw [scan_const, t0]
    · norm_num [maxMass]
    · intro k h1 h2
      rw [t0]
      refine (tent_far ?_).le
      rcases Nat.lt_or_ge k 18 with h | h
      · have : (k : ℝ) ≤ 17 := by exact_mod_cast (by omega : k ≤ 17)
        rw [abs_of_neg] <;> norm_num [maxMass] <;> linarith
      · have : (18 : ℝ) ≤ k := by exact_mod_cast h
        rw [abs_of_pos] <;> norm_num [maxMass] <;> linarith
  unfold envelope
  rw [p1]
  unfold pass
  dsimp only
  rw [scan_const]
  · norm_num
  · intro k h1 h2
    have : (k : ℝ) ≤ 30 := by exact_mod_cast (by omega : k ≤ 30)
    refine (tent_far ?_).le
    rw [abs_of_neg] <;> norm_num <;> linarith

/-- The witness: a resonance at 1.1 GeV with a narrow peak at 2.97 GeV. -/
noncomputable def peaked : Res := ⟨false, 11 / 10, 1 / 10, 7 / 20, fun m => breitWignerNonrel m (11 / 10) (1 / 10) * tent m⟩

theorem peaked_valid : Valid peaked :=
  ⟨rfl, by norm_num [peaked], by norm_num [peaked], by norm_num [peaked], by norm_num [peaked], fun m => by
    have a := bw_pos m (11 / 10) (1 / 10) (by norm_num)
    have b : 0 < tent m := by unfold tent; have := le_max_left (0 : ℝ) (1 - 1000 * |m - 297 / 100|); linarith
    exact (mul_pos a b).le⟩

/-- A function in place of the Bessel function that makes the thermal factor 1. -/
noncomputable def flat (x : ℝ) : ℝ := 1 / (x * x)

theorem peaked_ratio {m : ℝ} (h : 0 < m) : ratio (scaled flat) 1 peaked m = tent m := by
  have a := bw_pos m (11 / 10) (1 / 10) (by norm_num)
  have hd := C167_density flat 1 peaked peaked_valid m
  have e : cauchyPdf m peaked.mass (1 / 2 * peaked.width) = breitWignerNonrel m (11 / 10) (1 / 10) := by
    unfold breitWignerNonrel; congr 1; norm_num [peaked]
  have e2 : m * m * flat (m * 1) = 1 := by unfold flat; field_simp
  rw [e, e2, mul_one] at hd
  have e3 : peaked.sf m = breitWignerNonrel m (11 / 10) (1 / 10) * tent m := rfl
  rw [e3, mul_comm] at hd
  exact mul_left_cancel₀ a.ne' hd

theorem envelope_congr {q q' : ℝ → ℝ} {m0 mth : ℝ} (h : ∀ m, 0 < m → q m = q' m) (h0 : 0 < mth) (h1 : mth ≤ m0) (h2 : m0 ≤ 5) :
    envelope q m0 mth = envelope q' m0 mth := by
  have hs (lower dm : ℝ) (hl : 0 < lower) (hd : 0 ≤ dm) : ∀ (n i : ℕ) (b : ℝ × ℝ), scan q lower dm n i b = scan q' lower dm n i b := by
    intro n
    induction n with
    | zero => intro i b; rfl
    | succ n ih =>
      intro i b
      have : 0 < lower + dm * i := by positivity
      simp only [scan, h _ this, ih]
  have hp (s : Search) (hl : 0 < s.lower) (hu : s.lower ≤ s.upper) : pass q s = pass q' s := by
    unfold pass
    rw [hs _ _ hl (by linarith)]
  have p1 := pass_best q' mth 5 ⟨mth, maxMass, (q' m0, m0)⟩ le_rfl (by simp [maxMass]) h1 (by simpa [maxMass] using h2) rfl
  unfold envelope
  rw [h m0 (by linarith), hp ⟨mth, maxMass, (q' m0, m0)⟩ h0 (by dsimp only; unfold maxMass; linarith),
    hp _ (by linarith [p1.2.2.2.1]) (by linarith [p1.2.1, p1.2.2.1])]

/-- **C167 fails for peaks that the search misses.** There is a resonance and an interval of masses in which the thermal density
is positive, and none of these masses can be returned in the first round, whatever the random numbers are: the
envelope, found on a grid, does not cover them, and a candidate above the envelope is thrown away. -/
theorem C167_law_false : ∃ (bessel : ℝ → ℝ) (beta : ℝ) (R : Res) (a b : ℝ), Valid R ∧ 0 < beta ∧ R.mth < a ∧ a < b ∧ b < 5 ∧
    ∀ m, a < m → m < b → 0 < R.sf m * (m * m * bessel (m * beta)) ∧
      ∀ u v, 0 ≤ u → u < 1 → 0 ≤ v → v < 1 → sample (scaled bessel) beta R [(u, v)] ≠ some m := by
  refine ⟨flat, 1, peaked, 297 / 100 - 1 / 2000, 297 / 100 + 1 / 2000, peaked_valid, one_pos, ?_, ?_, ?_, ?_⟩
  · norm_num [peaked]
  · norm_num
  · norm_num
  intro m h1 h2
  have hm : 0 < m := by linarith
  have ht : 3 / 2 < tent m := tent_near (abs_lt.2 ⟨by linarith, by linarith⟩)
  have hb := bw_pos m (11 / 10) (1 / 10) (by norm_num)
  constructor
  · have e2 : m * m * flat (m * 1) = 1 := by unfold flat; field_simp
    rw [e2, mul_one]
    exact mul_pos hb (by linarith)
  · intro u v u0 u1 v0 v1 h
    have henv : envelope (ratio (scaled flat) 1 peaked) peaked.mass peaked.mth = 3 / 2 := by
      rw [envelope_congr (q' := tent) (fun m hm => peaked_ratio hm) (by norm_num [peaked]) (by norm_num [peaked])
        (by norm_num [peaked])]
      exact tent_envelope
    unfold sample at h
    rw [if_neg (by simp [peaked]), henv] at h
    have hG : 0 < peaked.width / 2 := by norm_num [peaked]
    have hc := cauchy_eq peaked.mass (peaked.width / 2) peaked.mth 5 u hG
    obtain ⟨r1, r2, r3⟩ := C167_round (ratio (scaled flat) 1 peaked) peaked peaked_valid (top := 3 / 2) (u := u) (v := v)
      (by norm_num) v1 hc []
    generalize proposed peaked.mass (peaked.width / 2) peaked.mth 5 u = x at *
    have nil : ∀ t, draw (ratio (scaled flat) 1 peaked) peaked t [] = none := fun _ => rfl
    rcases le_or_gt (ratio (scaled flat) 1 peaked x) (3 / 2) with hle | hgt
    · rcases le_or_gt v (ratio (scaled flat) 1 peaked x / (3 / 2)) with hv | hv
      · rw [r1 hle hv] at h
        cases h
        rw [peaked_ratio hm] at hle
        linarith
      · rw [r2 hle hv, nil] at h; cases h
    · rw [r3 hgt, nil] at h; cases h

/-- The hypotheses of the law can be met: constant ratio 1, that is, spectral function equal to the simple one. -/
example : ∃ (bessel : ℝ → ℝ) (R : Res), Valid R ∧ (∀ x, 0 ≤ bessel x) ∧
    ContinuousOn (ratio (scaled bessel) 1 R) (Set.Icc R.mth 5) ∧
    (∀ m, R.mth ≤ m → m ≤ 5 → ratio (scaled bessel) 1 R m ≤ envelope (ratio (scaled bessel) 1 R) R.mass R.mth) ∧
    0 < envelope (ratio (scaled bessel) 1 R) R.mass R.mth ∧
    0 < ∫ m in R.mth..5, R.sf m * (m * m * bessel (m * 1)) := by
  have hV : Valid ⟨false, 11 / 10, 1 / 10, 7 / 20, fun m => breitWignerNonrel m (11 / 10) (1 / 10)⟩ :=
    ⟨rfl, by norm_num, by norm_num, by norm_num, by norm_num, fun m => (bw_pos m _ _ (by norm_num)).le⟩
  have hr : ∀ m, 0 < m → ratio (scaled flat) 1 ⟨false, 11 / 10, 1 / 10, 7 / 20, fun m => breitWignerNonrel m (11 / 10) (1 / 10)⟩ m
      = 1 := by
    intro m hm
    have a := bw_pos m (11 / 10) (1 / 10) (by norm_num)
    have hd := C167_density flat 1 _ hV m
    have e : cauchyPdf m (11 / 10) (1 / 2 * (1 / 10)) = breitWignerNonrel m (11 / 10) (1 / 10) := by
      unfold breitWignerNonrel; congr 1; norm_num
    have e2 : m * m * flat (m * 1) = 1 := by unfold flat; field_simp
    dsimp only at hd
    rw [e, e2, mul_one] at hd
    exact mul_right_cancel₀ a.ne' (hd.trans (one_mul _).symm)
  obtain ⟨⟨x, x1, x2, ex⟩, e0, -⟩ := C167_envelope (ratio (scaled flat) 1 ⟨false, 11 / 10, 1 / 10, 7 / 20, fun m => breitWignerNonrel m (11 / 10) (1 / 10)⟩)
    (11 / 10) (7 / 20) (by norm_num) (by norm_num)
  rw [hr _ (by norm_num)] at e0
  refine ⟨flat, _, hV, fun x => by unfold flat; exact div_nonneg zero_le_one (mul_self_nonneg x), ?_, ?_, ?_, ?_⟩
  · refine continuousOn_const (c := (1 : ℝ)) |>.congr fun m hm => hr m ?_
    have := hm.1
    dsimp only at this
    linarith
  · intro m h1 _
    rw [hr m (by dsimp only at h1; linarith)]
    dsimp only
    linarith
  · dsimp only; linarith
  · dsimp only
    refine intervalIntegral.intervalIntegral_pos_of_pos_on ?_ ?_ (by norm_num)
    · refine ContinuousOn.intervalIntegrable ?_
      refine ContinuousOn.mul (f := fun m => breitWignerNonrel m (11 / 10) (1 / 10)) ?_ ?_
      · exact (pdf_cont (M := 11 / 10) (G := 1 / 10 / 2) (lo := 0) (hi := 1) (by norm_num) (by norm_num)).continuousOn
      · refine (continuousOn_const (c := (1 : ℝ))).congr fun m hm => ?_
        rw [Set.uIcc_of_le (by norm_num)] at hm
        have : 0 < m := by linarith [hm.1]
        unfold flat
        field_simp
    · intro m hm
      have : 0 < m := by linarith [hm.1]
      have a := bw_pos m (11 / 10) (1 / 10) (by norm_num)
      unfold flat
      positivity

end Verif.ThMass
