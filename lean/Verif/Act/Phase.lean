import Verif.Act.Props
import Mathlib.Algebra.BigOperators.Group.Finset.Basic
import Mathlib.Algebra.BigOperators.Intervals
/-! C34: sampled final states conserve four-momentum and masses. -/
namespace Verif.Act
open Verif.Kin Finset

/-- Sum of the first `n` four-momenta. -/
noncomputable def sum4 (p : ℕ → V4) : ℕ → V4
  | 0 => ⟨0, 0, 0, 0⟩
  | n + 1 => (sum4 p n).add (p n)

/-- Unit vector. -/
def Unit3 (u : V3) : Prop := u.x ^ 2 + u.y ^ 2 + u.z ^ 2 = 1

/-- On the mass shell with mass `m`: `E² - p² = m²` and `E ≥ 0`. -/
def HasMass (p : V4) (m : ℝ) : Prop := minkowski p p = m ^ 2 ∧ 0 ≤ p.t

theorem sum4_boost (p : ℕ → V4) (v : V3) (n : ℕ) :
    sum4 (fun j => boost (p j) v) n = boost (sum4 p n) v := by
  induction n with
  | zero =>
    unfold sum4 boost V4.mk' V3.sub V3.smul V4.vec V3.dot
    ext <;> simp
  | succ n ih => rw [sum4, ih, sum4, C29_linear]

theorem sum4_congr {p q : ℕ → V4} {n : ℕ} (h : ∀ j, j < n → p j = q j) : sum4 p n = sum4 q n := by
  induction n with
  | zero => rfl
  | succ n ih =>
    rw [sum4, sum4, ih (fun j hj => h j (Nat.lt_succ_of_lt hj)), h n (Nat.lt_succ_self n)]

/-- A particle at rest, boosted. -/
theorem boost_rest (M pcm : ℝ) (u : V3) (hu : Unit3 u) (hM : 0 < M) :
    let E := Real.sqrt (pcm * pcm + M * M)
    boost ⟨M, 0, 0, 0⟩ ((u.smul pcm).div E) = V4.mk' E (u.smul (-pcm)) ∧
    Subluminal ((u.smul pcm).div E) := by
  intro E
  have hpos : 0 < pcm * pcm + M * M := by nlinarith [mul_self_nonneg pcm]
  have hE : 0 < E := Real.sqrt_pos.2 hpos
  have hEsq : E ^ 2 = pcm ^ 2 + M ^ 2 := by
    have := Real.sq_sqrt hpos.le
    simp only [E]; rw [this]; ring
  -- the boosted vector moves with velocity `-p/E`; use that boosting it back brings it to rest
  set a : V4 := V4.mk' E (u.smul (-pcm)) with ha
  have hat : a.t = E := rfl
  have hax : a.x ^ 2 + a.y ^ 2 + a.z ^ 2 = pcm ^ 2 := by
    simp only [ha, V4.mk', V3.smul]
    unfold Unit3 at hu
    linear_combination pcm ^ 2 * hu
  have hlt : a.x ^ 2 + a.y ^ 2 + a.z ^ 2 < a.t ^ 2 := by
    rw [hax, hat, hEsq]; nlinarith
  obtain ⟨h1, h2⟩ := C29_rest a (by rw [hat]; exact hE) hlt
  have hm : Real.sqrt (a.t ^ 2 - a.x ^ 2 - a.y ^ 2 - a.z ^ 2) = M := by
    have : a.t ^ 2 - a.x ^ 2 - a.y ^ 2 - a.z ^ 2 = M * M := by
      rw [hat, hEsq]; linarith
    rw [this, Real.sqrt_mul_self hM.le]
  have hv : (u.smul pcm).div E = a.velocity.neg := by
    rw [velocity_eq]
    simp only [ha, V4.mk', V3.smul, V3.div, V3.neg]
    ext <;> simp only <;> ring
  have hsub : Subluminal a.velocity.neg := by
    unfold Subluminal V3.neg at *; simpa using h1
  rw [hv]
  refine ⟨?_, hsub⟩
  have := C29_inverse a a.velocity h1
  rw [h2, hm] at this
  exact this

/-- **C34**, two-body final states: masses as requested and total momentum
`(ecm, 0, 0, 0)`. -/
theorem C34_two_body (m1 m2 ecm : ℝ) (u : V3) (h1 : 0 ≤ m1) (h2 : 0 ≤ m2) (h0 : 0 < ecm)
    (h : m1 + m2 ≤ ecm) (hu : Unit3 u) :
    let r := sampleAngles m1 m2 ecm u
    HasMass r.1 m1 ∧ HasMass r.2 m2 ∧ r.1.add r.2 = ⟨ecm, 0, 0, 0⟩ := by
  obtain ⟨-, hb⟩ := C30_energy_balance ecm m1 m2 h1 h2 h0 h
  unfold Unit3 at hu
  have e1 : (u.smul (pCM ecm m1 m2)).dot (u.smul (pCM ecm m1 m2)) = pCM ecm m1 m2 ^ 2 := by
    unfold V3.smul V3.dot; linear_combination (pCM ecm m1 m2) ^ 2 * hu
  have e2 : (u.neg.smul (pCM ecm m1 m2)).dot (u.neg.smul (pCM ecm m1 m2)) = pCM ecm m1 m2 ^ 2 := by
    unfold V3.smul V3.dot V3.neg; linear_combination (pCM ecm m1 m2) ^ 2 * hu
  have s1 := Real.sq_sqrt (show 0 ≤ m1 * m1 + pCM ecm m1 m2 ^ 2 by positivity)
  have s2 := Real.sq_sqrt (show 0 ≤ m2 * m2 + pCM ecm m1 m2 ^ 2 by positivity)
  have n1 := Real.sqrt_nonneg (m1 * m1 + pCM ecm m1 m2 ^ 2)
  have n2 := Real.sqrt_nonneg (m2 * m2 + pCM ecm m1 m2 ^ 2)
  have hb' : Real.sqrt (m1 * m1 + pCM ecm m1 m2 ^ 2) + Real.sqrt (m2 * m2 + pCM ecm m1 m2 ^ 2) = ecm := by
    rw [show m1 * m1 + pCM ecm m1 m2 ^ 2 = pCM ecm m1 m2 ^ 2 + m1 ^ 2 by ring,
      show m2 * m2 + pCM ecm m1 m2 ^ 2 = pCM ecm m1 m2 ^ 2 + m2 ^ 2 by ring]
    exact hb
  unfold sampleAngles onShell
  simp only
  rw [e1, e2]
  generalize pCM ecm m1 m2 = p at *
  generalize Real.sqrt (m1 * m1 + p ^ 2) = E1 at *
  generalize Real.sqrt (m2 * m2 + p ^ 2) = E2 at *
  refine ⟨⟨?_, n1⟩, ⟨?_, n2⟩, ?_⟩
  · unfold minkowski V4.mk' V3.smul; simp only; linear_combination s1 - p ^ 2 * hu
  · unfold minkowski V4.mk' V3.smul V3.neg; simp only; linear_combination s2 - p ^ 2 * hu
  · unfold V4.add V4.mk' V3.smul V3.neg
    ext <;> simp only <;> linarith

theorem energy_pos (m p : ℝ) : 0 ≤ m * m + p * p := add_nonneg (mul_self_nonneg _) (mul_self_nonneg _)

/-- Boosting keeps the mass shell. -/
theorem boost_mass (p : V4) (m : ℝ) (v : V3) (hv : Subluminal v) (h : HasMass p m) :
    HasMass (boost p v) m := by
  refine ⟨by rw [C29_isometry _ _ _ hv]; exact h.1, ?_⟩
  rw [boost_t]
  refine mul_nonneg (gamma_spec hv).1.le ?_
  have hps : p.x ^ 2 + p.y ^ 2 + p.z ^ 2 ≤ p.t ^ 2 := by
    have := h.1; unfold minkowski at this; nlinarith [sq_nonneg m]
  -- Cauchy-Schwarz
  have cs : (p.x * v.x + p.y * v.y + p.z * v.z) ^ 2 ≤
      (p.x ^ 2 + p.y ^ 2 + p.z ^ 2) * (v.x ^ 2 + v.y ^ 2 + v.z ^ 2) := by
    nlinarith [sq_nonneg (p.x * v.y - p.y * v.x), sq_nonneg (p.x * v.z - p.z * v.x),
      sq_nonneg (p.y * v.z - p.z * v.y)]
  unfold Subluminal at hv
  have hle : (p.x * v.x + p.y * v.y + p.z * v.z) ^ 2 ≤ p.t ^ 2 := by
    have : (p.x ^ 2 + p.y ^ 2 + p.z ^ 2) * (v.x ^ 2 + v.y ^ 2 + v.z ^ 2) ≤
        (p.x ^ 2 + p.y ^ 2 + p.z ^ 2) * 1 :=
      mul_le_mul_of_nonneg_left hv.le (by positivity)
    linarith
  have := abs_le_of_sq_le_sq' hle h.2
  linarith [this.2]

/-- The invariant masses the boosts need. -/
structure Chain (M m : ℕ → ℝ) (n : ℕ) : Prop where
  zero : M 0 = m 0
  nonneg : ∀ i, i < n → 0 ≤ m i
  pos : ∀ i, 1 ≤ i → i < n → 0 < M i
  step : ∀ i, i + 1 < n → M i + m (i + 1) ≤ M (i + 1)

theorem Chain.Mnonneg {M m : ℕ → ℝ} {n : ℕ} (c : Chain M m n) (i : ℕ) (h : i < n) : 0 ≤ M i := by
  cases i with
  | zero => rw [c.zero]; exact c.nonneg 0 h
  | succ i => exact (c.pos (i + 1) (by omega) h).le

theorem boostLoop_after (M m : ℕ → ℝ) (u : ℕ → V3) (k j : ℕ) (h : k + 1 < j) :
    boostLoop M m u k j = initialMomenta M m u j := by
  induction k with
  | zero => rfl
  | succ k ih =>
    rw [boostLoop, boostFirst, if_neg (by omega)]
    exact ih (by omega)

theorem initial_mass (M m : ℕ → ℝ) (u : ℕ → V3) (hu : ∀ i, Unit3 (u i)) (i : ℕ) :
    HasMass (initialMomenta M m u i) (m i) := by
  unfold initialMomenta
  simp only
  split_ifs with h
  · subst h
    have hs := Real.sq_sqrt (energy_pos (m 0) (pCM (M 1) (M 0) (m 1)))
    refine ⟨?_, Real.sqrt_nonneg _⟩
    have h1 := hu 1
    unfold Unit3 at h1
    unfold minkowski V4.mk' V3.smul
    simp only
    linear_combination hs - (pCM (M 1) (M 0) (m 1)) ^ 2 * h1
  · have hs := Real.sq_sqrt (energy_pos (m i) (pCM (M i) (M (i - 1)) (m i)))
    refine ⟨?_, Real.sqrt_nonneg _⟩
    have h1 := hu i
    unfold Unit3 at h1
    unfold minkowski V4.mk' V3.smul
    simp only
    linear_combination hs - (pCM (M i) (M (i - 1)) (m i)) ^ 2 * h1

theorem loop_inv (M m : ℕ → ℝ) (u : ℕ → V3) (hu : ∀ i, Unit3 (u i)) (n : ℕ) (c : Chain M m n)
    (k : ℕ) (hk : k + 1 < n) :
    sum4 (boostLoop M m u k) (k + 2) = ⟨M (k + 1), 0, 0, 0⟩ ∧
    ∀ j, j < n → HasMass (boostLoop M m u k j) (m j) := by
  induction k with
  | zero =>
    refine ⟨?_, fun j _ => initial_mass M m u hu j⟩
    obtain ⟨-, hb⟩ := C30_energy_balance (M 1) (M 0) (m 1) (c.Mnonneg 0 (by omega))
      (c.nonneg 1 hk) (c.pos 1 (le_refl _) hk) (c.step 0 hk)
    rw [c.zero] at hb
    rw [sum4, sum4, sum4, boostLoop]
    unfold initialMomenta
    rw [if_pos rfl, if_neg (by omega)]
    simp only [Nat.sub_self, c.zero, zero_add]
    generalize pCM (M 1) (m 0) (m 1) = p at *
    rw [show p ^ 2 + m 0 ^ 2 = m 0 * m 0 + p * p by ring,
      show p ^ 2 + m 1 ^ 2 = m 1 * m 1 + p * p by ring] at hb
    unfold V4.add V4.mk' V3.smul
    ext <;> simp only <;> linarith
  | succ k ih =>
    obtain ⟨i1, i2⟩ := ih (by omega)
    have hM : 0 < M (k + 1) := c.pos (k + 1) (by omega) (by omega)
    obtain ⟨b1, b2⟩ := boost_rest (M (k + 1)) (pCM (M (k + 2)) (M (k + 1)) (m (k + 2))) (u (k + 2))
      (hu _) hM
    have hbeta : betaOf M m u k = ((u (k + 2)).smul (pCM (M (k + 2)) (M (k + 1)) (m (k + 2)))).div
        (Real.sqrt (pCM (M (k + 2)) (M (k + 1)) (m (k + 2)) * pCM (M (k + 2)) (M (k + 1)) (m (k + 2)) +
          M (k + 1) * M (k + 1))) := rfl
    rw [← hbeta] at b1 b2
    refine ⟨?_, ?_⟩
    · rw [sum4]
      have e1 : sum4 (boostLoop M m u (k + 1)) (k + 2) = boost (sum4 (boostLoop M m u k) (k + 2))
          (betaOf M m u k) := by
        rw [← sum4_boost]
        apply sum4_congr
        intro j hj
        rw [boostLoop, boostFirst, if_pos (by omega)]
      have e2 : boostLoop M m u (k + 1) (k + 2) = initialMomenta M m u (k + 2) := by
        rw [boostLoop, boostFirst, if_neg (by omega)]
        exact boostLoop_after M m u k (k + 2) (by omega)
      rw [e1, i1, b1, e2]
      unfold initialMomenta
      rw [if_neg (by omega)]
      simp only [show k + 2 - 1 = k + 1 by omega]
      obtain ⟨-, hb⟩ := C30_energy_balance (M (k + 2)) (M (k + 1)) (m (k + 2)) hM.le
        (c.nonneg _ hk) (c.pos (k + 2) (by omega) hk) (c.step (k + 1) hk)
      generalize pCM (M (k + 2)) (M (k + 1)) (m (k + 2)) = p at *
      rw [show p ^ 2 + M (k + 1) ^ 2 = p * p + M (k + 1) * M (k + 1) by ring,
        show p ^ 2 + m (k + 2) ^ 2 = m (k + 2) * m (k + 2) + p * p by ring] at hb
      unfold V4.add V4.mk' V3.smul
      ext <;> simp only [show k + 1 + 1 = k + 2 by omega] <;> linarith
    · intro j hj
      rw [boostLoop, boostFirst]
      split_ifs with h
      · exact boost_mass _ _ _ b2 (i2 j hj)
      · exact i2 j hj

/-! The sampled invariant masses form a chain. -/

theorem sortedT_spec (x : ℝ) (us : List ℝ) (hx : 0 ≤ x) (hus : ∀ y ∈ us, 0 ≤ y ∧ y ≤ x) :
    (sortedT x us).length = us.length + 2 ∧
    (sortedT x us).getD 0 0 = 0 ∧ (sortedT x us).getD (us.length + 1) 0 = x ∧
    (∀ i, 0 ≤ (sortedT x us).getD i 0) ∧
    ∀ i, i + 1 < us.length + 2 → (sortedT x us).getD i 0 ≤ (sortedT x us).getD (i + 1) 0 := by
  have hlen : (sortedT x us).length = us.length + 2 := by
    unfold sortedT; rw [List.length_mergeSort]; simp
  have hpw : (sortedT x us).Pairwise (fun a b => a ≤ b) := by
    have := List.pairwise_mergeSort (le := fun a b : ℝ => decide (a ≤ b))
      (fun a b c h1 h2 => by simp only [decide_eq_true_eq] at *; exact h1.trans h2)
      (fun a b => by simp only [Bool.or_eq_true, decide_eq_true_eq]; exact le_total a b)
      (0 :: us ++ [x])
    exact this.imp (by simp)
  have hmem (y : ℝ) : y ∈ sortedT x us ↔ y = 0 ∨ y ∈ us ∨ y = x := by
    unfold sortedT; rw [List.mem_mergeSort]; simp
  have hrange (y : ℝ) (hy : y ∈ sortedT x us) : 0 ≤ y ∧ y ≤ x := by
    rcases (hmem y).1 hy with h | h | h
    · subst h; exact ⟨le_refl _, hx⟩
    · exact hus y h
    · subst h; exact ⟨hx, le_refl _⟩
  have hget (i : ℕ) (h : i < (sortedT x us).length) : (sortedT x us).getD i 0 = (sortedT x us)[i] := by
    simp [List.getD, h]
  have hle (i j : ℕ) (hj : j < (sortedT x us).length) (hij : i < j) :
      (sortedT x us)[i]'(hij.trans hj) ≤ (sortedT x us)[j] :=
    List.pairwise_iff_getElem.1 hpw i j (hij.trans hj) hj hij
  refine ⟨hlen, ?_, ?_, ?_, ?_⟩
  · rw [hget 0 (by omega)]
    apply le_antisymm _ (hrange _ (List.getElem_mem _)).1
    obtain ⟨i, hi, e⟩ := List.getElem_of_mem ((hmem 0).2 (.inl rfl))
    rcases Nat.eq_zero_or_pos i with h | h
    · subst h; exact e.le
    · exact (hle 0 i hi h).trans e.le
  · rw [hget _ (by omega)]
    apply le_antisymm (hrange _ (List.getElem_mem _)).2
    obtain ⟨i, hi, e⟩ := List.getElem_of_mem ((hmem x).2 (.inr (.inr rfl)))
    rcases Nat.lt_or_ge i (us.length + 1) with h | h
    · exact e.ge.trans (hle i (us.length + 1) (by omega) h)
    · have : i = us.length + 1 := by omega
      subst this; exact e.ge
  · intro i
    by_cases h : i < (sortedT x us).length
    · rw [hget i h]; exact (hrange _ (List.getElem_mem _)).1
    · simp [List.getD, h]
  · intro i hi
    rw [hget i (by omega), hget (i + 1) (by omega)]
    exact hle i (i + 1) (by omega) (by omega)

theorem msum_nonneg (m : ℕ → ℝ) (n : ℕ) (h : ∀ i, i < n → 0 ≤ m i) (i : ℕ) (hi : i < n) : 0 ≤ msum m i := by
  induction i with
  | zero => exact h 0 hi
  | succ i ih => rw [msum]; exact add_nonneg (ih (by omega)) (h _ hi)

/-- The sum of the masses, independently. -/
theorem msum_eq (m : ℕ → ℝ) (i : ℕ) : msum m i = ∑ j ∈ range (i + 1), m j := by
  induction i with
  | zero => simp [msum]
  | succ i ih => rw [msum, ih, Finset.sum_range_succ _ (i + 1)]

/-- **C34**, final states of `n = us.length + 2` particles of positive masses `m 0, …, m (n-1)`: the
sampler refuses exactly if the energy does not exceed the sum of the masses; otherwise the momenta
have the requested masses, non-negative energies, and add up to `(sqrts, 0, 0, 0)`. `us` are the
random numbers for the invariant masses, in [0, sqrts - sum of masses]; `u` the random directions. -/
theorem C34_many_body (sqrts : ℝ) (m : ℕ → ℝ) (us : List ℝ) (u : ℕ → V3)
    (hm : ∀ i, i < us.length + 2 → 0 < m i) (hu : ∀ i, Unit3 (u i))
    (hus : ∀ y ∈ us, 0 ≤ y ∧ y ≤ sqrts - ∑ j ∈ range (us.length + 2), m j) :
    (manyBody sqrts m us u = none ↔ sqrts ≤ ∑ j ∈ range (us.length + 2), m j) ∧
    ∀ p, manyBody sqrts m us u = some p →
      sum4 p (us.length + 2) = ⟨sqrts, 0, 0, 0⟩ ∧ ∀ j, j < us.length + 2 → HasMass (p j) (m j) := by
  rw [← msum_eq] at hus
  have hmm : ∑ j ∈ range (us.length + 2), m j = msum m (us.length + 1) := (msum_eq m _).symm
  rw [hmm]
  unfold manyBody
  split_ifs with h
  · simp [h]
  · refine ⟨by simp [h], ?_⟩
    intro p hp
    simp only [Option.some.injEq] at hp
    subst hp
    obtain ⟨t1, t2, t3, t4, t5⟩ := sortedT_spec (sqrts - msum m (us.length + 1)) us
      (by linarith) hus
    have c : Chain (minv sqrts m us) m (us.length + 2) := by
      refine ⟨?_, fun i hi => (hm i hi).le, ?_, ?_⟩
      · unfold minv; rw [t2, msum, zero_add]
      · intro i h1 hi
        unfold minv
        have a := t4 i
        have b : 0 < msum m i := by
          cases i with
          | zero => exact hm 0 hi
          | succ i =>
            rw [msum]
            have := msum_nonneg m (us.length + 2) (fun i hi => (hm i hi).le) i (by omega)
            linarith [hm (i + 1) hi]
        linarith
      · intro i hi
        unfold minv
        have := t5 i hi
        have e : msum m (i + 1) = msum m i + m (i + 1) := rfl
        linarith
    obtain ⟨r1, r2⟩ := loop_inv (minv sqrts m us) m u hu (us.length + 2) c us.length (by omega)
    refine ⟨?_, r2⟩
    rw [r1]
    unfold minv
    rw [t3, sub_add_cancel]

/-- **C34**, back to the computational frame: boosting each particle by minus the velocity of the
total momentum turns a final state with sum `(sqrts, 0, 0, 0)` into one whose sum is the total
momentum, and keeps the masses. -/
theorem C34_to_lab (P : V4) (p : ℕ → V4) (n : ℕ) (h0 : 0 < P.t)
    (hP : P.x ^ 2 + P.y ^ 2 + P.z ^ 2 < P.t ^ 2)
    (hp : sum4 p n = ⟨Real.sqrt (P.t ^ 2 - P.x ^ 2 - P.y ^ 2 - P.z ^ 2), 0, 0, 0⟩) :
    sum4 (fun j => toLab P (p j)) n = P ∧
    ∀ j m, HasMass (p j) m → HasMass (toLab P (p j)) m := by
  obtain ⟨h1, h2⟩ := C29_rest P h0 hP
  have hsub : Subluminal P.velocity.neg := by
    unfold Subluminal V3.neg at *; simpa using h1
  refine ⟨?_, fun j m hj => boost_mass _ _ _ hsub hj⟩
  unfold toLab
  rw [sum4_boost, hp, ← h2]
  exact C29_inverse P _ h1

/-- Three particles of mass 1 and energy 6: one admissible choice of random numbers. -/
example : ∃ p, manyBody 6 (fun _ => 1) [1] (fun _ => ⟨0, 0, 1⟩) = some p ∧ sum4 p 3 = ⟨6, 0, 0, 0⟩ := by
  have hs : ∑ j ∈ range (2 + 1), (1 : ℝ) = 3 := by norm_num
  have h := C34_many_body 6 (fun _ => 1) [1] (fun _ => ⟨0, 0, 1⟩) (fun _ _ => by norm_num)
    (fun _ => by unfold Unit3; norm_num) (by
      intro y hy
      simp only [List.mem_singleton] at hy
      subst hy
      simp only [List.length_singleton]
      norm_num)
  cases hp : manyBody 6 (fun _ => 1) [1] (fun _ => ⟨0, 0, 1⟩) with
  | none =>
    have := h.1.1 hp
    simp only [List.length_singleton] at this
    norm_num at this
  | some p => exact ⟨p, rfl, (h.2 p hp).1⟩

end Verif.Act
