import Verif.Sec.Props

/-!
# Weights of the 2 → 2 channels of light nuclei (C109, C114)
-/

namespace Verif.Sec

open Verif

/-- What is needed for the weights of the channels of nuclei: the resonance integrals are not
negative, a build without assertions has nucleon and nucleus above their threshold, and the energy is
not one of the two at which a fit divides by zero. -/
structure Energetic (W : World) : Prop where
  piR : ∀ t, 0 ≤ W.intPiR t
  nR : ∀ t, 0 ≤ W.intNR t
  above : W.debug = false → 938 / 1000 + 18756 / 10000 ≤ W.sqrts
  poleN : W.sqrts ≠ 938 / 1000 + 18756 / 10000
  polePi : W.sqrts ≠ 138 / 1000 + 18756 / 10000

theorem pCMS_nonneg (s m n : ℝ) : 0 ≤ Kin.pCMS s m n := by
  unfold Kin.pCMS
  dsimp only
  split_ifs
  · exact Real.sqrt_nonneg _
  · exact le_rfl

theorem pCM_nonneg (s m n : ℝ) : 0 ≤ Kin.pCM s m n := pCMS_nonneg _ _ _

/-- The fit of the matrix element of πd → πd' is positive: its part with poles at the threshold has
no zero. -/
theorem dpi_fit {s t : ℝ} (ht : t ≠ 0) :
    0 < 2955 / 10 + 2862 / 1000 / (283735 / 100000000 + (s - 2181 / 1000) ^ 2) +
      672 / 10000 / t ^ 2 - 661753 / 100000 / t := by
  have h1 : 0 < 2862 / 1000 / (283735 / 100000000 + (s - 2181 / 1000) ^ 2) := by positivity
  have h2 : 672 / 10000 / t ^ 2 - 661753 / 100000 / t + 2955 / 10 =
      672 / 10000 * (1 / t) ^ 2 - 661753 / 100000 * (1 / t) + 2955 / 10 := by field_simp
  have h3 : 0 < 672 / 10000 * (1 / t) ^ 2 - 661753 / 100000 * (1 / t) + 2955 / 10 := by
    nlinarith [sq_nonneg ((1 / t) - 4923757 / 100000)]
  linarith

theorem xsDpi_nonneg {W : World} (he : Energetic W) (p pi : PType) : 0 ≤ xsDpi W p pi := by
  have ht : W.sqrts - 138 / 1000 - 18756 / 10000 ≠ 0 := fun h => he.polePi (by linarith)
  have hm := (dpi_fit (s := W.sqrts) ht).le
  unfold xsDpi
  dsimp only
  have hx := div_nonneg (mul_nonneg hm (by positivity : (0 : ℝ) ≤
    ((p.spin + 1 : ℕ) : ℝ) * ((pi.spin + 1 : ℕ) : ℝ)))
    (mul_nonneg (mul_self_nonneg W.sqrts) (pCM_nonneg W.sqrts W.m1 W.m2))
  split_ifs
  · exact mul_nonneg hx (pCMS_nonneg _ _ _)
  · exact mul_nonneg hx (he.piR p)

theorem xsDn_nonneg {W : World} (he : Energetic W) {p t n : PType} {x : ℝ}
    (h : xsDn W p t n = .ok x) : 0 ≤ x := by
  unfold xsDn at h
  dsimp only at h
  by_cases hd : W.debug = true ∧ W.sqrts - 938 / 1000 - 18756 / 10000 < 0
  · rw [if_pos hd] at h; cases h
  rw [if_neg hd] at h
  have ht : 0 ≤ W.sqrts - 938 / 1000 - 18756 / 10000 := by
    by_cases hb : W.debug = true
    · by_contra hx
      exact hd ⟨hb, not_le.1 hx⟩
    · have := he.above (by simpa using hb)
      linarith
  generalize hm : (if (Pdg.baryonNumber n.pdg < 0) = (Pdg.baryonNumber t.pdg < 0)
      then 790474 / 10000 / (W.sqrts - 938 / 1000 - 18756 / 10000) ^ (7897 / 10000 : ℝ) +
        654596 / 1000 * (W.sqrts - 938 / 1000 - 18756 / 10000)
      else 342572 / 1000 / (W.sqrts - 938 / 1000 - 18756 / 10000) ^ (6 / 10 : ℝ)) = m at h
  have hm0 : 0 ≤ m := by
    rw [← hm]
    split_ifs
    · have := Real.rpow_nonneg ht (7897 / 10000 : ℝ)
      positivity
    · have := Real.rpow_nonneg ht (6 / 10 : ℝ)
      positivity
  have hx := div_nonneg (mul_nonneg hm0 (by positivity : (0 : ℝ) ≤
    ((p.spin + 1 : ℕ) : ℝ) * ((n.spin + 1 : ℕ) : ℝ)))
    (mul_nonneg (mul_self_nonneg W.sqrts) (pCM_nonneg W.sqrts W.m1 W.m2))
  split_ifs at h
  · injection h with h
    rw [← h]
    exact mul_nonneg hx (pCMS_nonneg _ _ _)
  · injection h with h
    rw [← h]
    exact mul_nonneg hx (he.nR p)

theorem dnLoop_nonneg {W : World} (he : Energetic W) {t n : PType} : ∀ {ps : List PType}
    {l : List Branch}, dnLoop W t n ps = .ok l → ∀ br ∈ l, 0 ≤ br.weight
  | [], l, h => by
    injection h with h
    subst h
    intro br hbr
    exact absurd hbr List.not_mem_nil
  | p :: ps, l, h => by
    unfold dnLoop at h
    split at h
    · rcases hx : xsDn W p t n with e | x
      · rw [hx] at h; cases h
      rcases hr : dnLoop W t n ps with e | r
      · rw [hx, hr] at h; cases h
      rw [hx, hr] at h
      injection h with h
      subst h
      intro br hbr
      rcases List.mem_cons.1 hbr with rfl | hbr
      · exact xsDn_nonneg he hx
      · exact dnLoop_nonneg he hr br hbr
    · exact dnLoop_nonneg he h

theorem nucPairs_nonneg {W : World} {a b : PType} {nuc : List PType} {f : PType → PType → ℝ} :
    ∀ br ∈ nucPairs W a b nuc f, 0 ≤ br.weight := by
  intro br hbr
  unfold nucPairs at hbr
  obtain ⟨n1, -, hbr⟩ := List.mem_flatMap.1 hbr
  obtain ⟨n2, -, hbr⟩ := List.mem_flatMap.1 hbr
  split at hbr
  · exact absurd hbr List.not_mem_nil
  obtain ⟨i, -, hbr⟩ := List.mem_flatMap.1 hbr
  unfold nucChannel at hbr
  dsimp only at hbr
  split at hbr
  · exact absurd hbr List.not_mem_nil
  split at hbr
  · exact absurd hbr List.not_mem_nil
  generalize W.iso a b n1 n2 i * _ * _ / _ * f n1 n2 * matrixElement W.sqrts a b i / _ = x at hbr
  split at hbr
  · rename_i h3
    rw [List.mem_singleton.1 hbr]
    exact le_trans (by norm_num [small]) (le_of_lt h3)
  · exact absurd hbr List.not_mem_nil

/-- **C109** (weights, light nuclei). If one of the particles is a nucleus, no 2 → 2 channel has a
negative cross section. -/
theorem C109_nuclei_weight (W : World) (he : Energetic W) (inc : Included) (k : ℝ) (a b : PType)
    (hn : Pdg.isNucleus a.pdg = true ∨ Pdg.isNucleus b.pdg = true)
    (l : List Branch) (h : twoToTwo W inc k a b = .ok l) (br : Branch) (hbr : br ∈ l) :
    0 ≤ br.weight := by
  have nb : ∀ {d : Nat}, Pdg.isNucleus d = true → Pdg.isBaryon d = false ∧ Pdg.isMeson d = false := by
    intro d hd
    have : Pdg.isHadron d = false := by
      by_contra hx
      have := Pdg.hadron_not_nucleus (by simpa using hx)
      rw [hd] at this; cases this
    simp [Pdg.isBaryon, Pdg.isMeson, this]
  have h' : (if (isNucleon a && Pdg.isNucleus b.pdg) ||
        (isNucleon b && Pdg.isNucleus a.pdg) then dnXx W inc a b
      else if ((isDeuteron a || isDprime a) && isPion b) || ((isDeuteron b || isDprime b) && isPion a)
      then .ok (dpiXx W inc a b) else .ok []) = Except.ok l := by
    unfold twoToTwo at h
    have hor : (Pdg.isNucleus a.pdg || Pdg.isNucleus b.pdg) = true := by
      rcases hn with hn | hn <;> simp [hn]
    have n1 : (Pdg.isBaryon a.pdg && Pdg.isBaryon b.pdg) = false := by
      rcases hn with hn | hn <;> simp [(nb hn).1]
    have n2 : ((Pdg.isBaryon a.pdg && Pdg.isMeson b.pdg) ||
        (Pdg.isMeson a.pdg && Pdg.isBaryon b.pdg)) = false := by
      rcases hn with hn | hn <;> simp [(nb hn).1, (nb hn).2]
    rw [n1, n2, hor] at h
    simpa using h
  split at h'
  · unfold dnXx at h'
    split at h'
    · exact dnLoop_nonneg he h' br hbr
    · injection h' with h'
      subst h'
      exact absurd hbr List.not_mem_nil
  · split at h'
    · injection h' with h'
      subst h'
      unfold dpiXx at hbr
      rcases List.mem_append.1 hbr with hbr | hbr
      · split at hbr
        · exact nucPairs_nonneg br hbr
        · exact absurd hbr List.not_mem_nil
      · split at hbr
        · obtain ⟨p, -, rfl⟩ := List.mem_map.1 hbr
          exact xsDpi_nonneg he _ _
        · exact absurd hbr List.not_mem_nil
    · injection h' with h'
      subst h'
      exact absurd hbr List.not_mem_nil

end Verif.Sec
