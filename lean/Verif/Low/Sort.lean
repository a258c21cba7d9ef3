import Verif.Low.Model
import Verif.Low.Spec
import Mathlib.Tactic.Linarith
import Mathlib.Tactic.Ring
import Mathlib.Tactic.NormNum
import Mathlib.Logic.Equiv.Basic
import Mathlib.Data.Finset.Card
import Mathlib.Order.Interval.Finset.Nat

/-!
C146: the partial sort of the smoother finds the element of the given rank.
-/

namespace Verif.Low

theorem swap_eq (a : ℕ → ℝ) (i j m : ℕ) : swap a i j m = a (Equiv.swap i j m) := by
  unfold swap
  by_cases h1 : m = j
  · subst h1; simp
  · rw [Function.update_of_ne h1]
    by_cases h2 : m = i
    · subst h2; simp
    · rw [Function.update_of_ne h2, Equiv.swap_apply_of_ne_of_ne h2 h1]

theorem scanUp_spec {a : ℕ → ℝ} {v : ℝ} : ∀ {f i m}, i ≤ m → m < i + f → v ≤ a m →
    ∃ i', scanUp a v f i = some i' ∧ i ≤ i' ∧ i' ≤ m ∧ v ≤ a i' ∧ ∀ q, i ≤ q → q < i' → a q < v
  | 0, i, m, h1, h2, _ => by omega
  | f + 1, i, m, h1, h2, h3 => by
    unfold scanUp
    by_cases h : a i < v
    · rw [if_pos h]
      have hne : i ≠ m := by
        rintro rfl
        exact absurd h (not_lt.2 h3)
      obtain ⟨i', e, b1, b2, b3, b4⟩ := scanUp_spec (f := f) (i := i + 1) (m := m) (by omega) (by omega) h3
      refine ⟨i', e, by omega, b2, b3, ?_⟩
      intro q hq1 hq2
      rcases Nat.eq_or_lt_of_le hq1 with h0 | h0
      · rw [← h0]; exact h
      · exact b4 q h0 hq2
    · rw [if_neg h]
      exact ⟨i, rfl, le_refl _, h1, not_lt.1 h, fun q h1 h2 => by omega⟩

theorem scanDown_spec {a : ℕ → ℝ} {v : ℝ} : ∀ {j m}, m ≤ j → a m ≤ v →
    ∃ j', scanDown a v j = some j' ∧ m ≤ j' ∧ j' ≤ j ∧ a j' ≤ v ∧ ∀ q, j' < q → q ≤ j → v < a q
  | 0, m, h1, h3 => by
    have : m = 0 := by omega
    subst this
    unfold scanDown
    rw [if_neg (not_lt.2 h3)]
    exact ⟨0, rfl, le_refl _, le_refl _, h3, fun q h1 h2 => by omega⟩
  | j + 1, m, h1, h3 => by
    unfold scanDown
    by_cases h : v < a (j + 1)
    · rw [if_pos h]
      have hne : m ≠ j + 1 := by
        rintro rfl
        exact absurd h (not_lt.2 h3)
      obtain ⟨j', e, b1, b2, b3, b4⟩ := scanDown_spec (j := j) (m := m) (by omega) h3
      refine ⟨j', e, b1, by omega, b3, ?_⟩
      intro q hq1 hq2
      rcases Nat.eq_or_lt_of_le hq2 with h0 | h0
      · rw [h0]; exact h
      · exact b4 q hq1 (by omega)
    · rw [if_neg h]
      exact ⟨j + 1, rfl, h1, le_refl _, not_lt.1 h, fun q h1 h2 => by omega⟩

theorem swap_l (a : ℕ → ℝ) (i j : ℕ) : swap a i j i = a j := by rw [swap_eq]; simp
theorem swap_r (a : ℕ → ℝ) (i j : ℕ) : swap a i j j = a i := by rw [swap_eq]; simp
theorem swap_ne (a : ℕ → ℝ) {i j m : ℕ} (h1 : m ≠ i) (h2 : m ≠ j) : swap a i j m = a m := by
  rw [swap_eq, Equiv.swap_apply_of_ne_of_ne h1 h2]

/-- The partition ends, stays in the array, and splits it. `Q` is anything preserved by the exchanges. -/
theorem partition_spec {n pL pR : ℕ} {v : ℝ} (hn : pR < n) (Q : (ℕ → ℝ) → Prop)
    (hQ : ∀ a i j, pL ≤ i → i ≤ j → j ≤ pR → v ≤ a i → a j ≤ v → Q a → Q (swap a i j)) :
    ∀ f a i j, Q a → pL ≤ i → pL ≤ j + 1 → j ≤ pR → i ≤ pR + 1 → j + 1 - i < f →
      (∀ m, pL ≤ m → m < i → a m ≤ v) → (∀ m, j < m → m ≤ pR → v ≤ a m) →
      (i ≤ j → ∃ m, i ≤ m ∧ m ≤ pR ∧ v ≤ a m) →
      (i ≤ j → ∃ m, pL ≤ m ∧ m ≤ j ∧ a m ≤ v ∧ (1 ≤ i ∨ 1 ≤ m)) →
      ∃ b i' j', partition n v f a i j = some (b, i', j') ∧ Q b ∧ j' < i' ∧ i ≤ i' ∧ j' ≤ j ∧ i' ≤ pR + 1 ∧ pL ≤ j' + 1 ∧
        (∀ m, pL ≤ m → m < i' → b m ≤ v) ∧ (∀ m, j' < m → m ≤ pR → v ≤ b m) ∧
        ((∃ m, i ≤ m ∧ m ≤ j ∧ a m = v) → i < i' ∧ j' < j) := by
  intro f
  induction f with
  | zero => intro a i j _ _ _ _ _ h; omega
  | succ f ih =>
    intro a i j hq hi hji hj hi2 hf hlo hup s1 s2
    unfold partition
    by_cases hij : i ≤ j
    · rw [if_pos hij]
      obtain ⟨m, hm1, hm2, hm3⟩ := s1 hij
      obtain ⟨i', e1, u1, u2, u3, u4⟩ := scanUp_spec (a := a) (v := v) (f := n - i) hm1 (by omega) hm3
      obtain ⟨m', hk1, hk2, hk3, hk4⟩ := s2 hij
      obtain ⟨j', e2, d1, d2, d3, d4⟩ := scanDown_spec hk2 hk3
      clear s1 s2
      rw [e1, e2]
      have lo' : ∀ q, pL ≤ q → q < i' → a q ≤ v := by
        intro q h1 h2
        by_cases h : q < i
        · exact hlo q h1 h
        · exact (u4 q (by omega) h2).le
      have up' : ∀ q, j' < q → q ≤ pR → v ≤ a q := by
        intro q h1 h2
        by_cases h : j < q
        · exact hup q h h2
        · exact (d4 q h1 (by omega)).le
      dsimp only
      by_cases hle : i' ≤ j'
      · rw [if_pos hle]
        have hj0 : j' ≠ 0 := by
          rintro rfl
          rcases hk4 with h | h <;> omega
        rw [if_neg hj0]
        have hpL : pL ≤ i' := by omega
        obtain ⟨b, I, J, e, r1, r2, r3, r4, r5, r8, r6, r7, -⟩ := ih (swap a i' j') (i' + 1) (j' - 1)
          (hQ a i' j' hpL hle (by omega) u3 d3 hq) (by omega) (by omega) (by omega) (by omega) (by omega)
          (by
            intro q h1 h2
            by_cases hqi : q = i'
            · rw [hqi, swap_l]; exact d3
            · by_cases hqj : q = j'
              · rw [hqj, swap_r]
                have : i' = j' := by omega
                rw [this]; exact d3
              · rw [swap_ne a hqi hqj]; exact lo' q h1 (by omega))
          (by
            intro q h1 h2
            by_cases hqj : q = j'
            · rw [hqj, swap_r]; exact u3
            · by_cases hqi : q = i'
              · omega
              · rw [swap_ne a hqi hqj]; exact up' q (by omega) h2)
          (fun h => ⟨j', by omega, by omega, by rw [swap_r]; exact u3⟩)
          (fun h => ⟨i', by omega, by omega, by rw [swap_l]; exact d3, Or.inl (by omega)⟩)
        exact ⟨b, I, J, e, r1, r2, by omega, by omega, r5, r8, r6, r7, fun _ => ⟨by omega, by omega⟩⟩
      · rw [if_neg hle]
        refine ⟨a, i', j', rfl, hq, by omega, u1, d2, by omega, by omega, lo', up', ?_⟩
        rintro ⟨q, hq1, hq2, hq3⟩
        exfalso
        apply hle
        by_contra hc
        have a1 : i' ≤ q := by
          by_contra h
          exact absurd (u4 q hq1 (by omega)) (not_lt.2 hq3.ge)
        have a2 : q ≤ j' := by
          by_contra h
          exact absurd (d4 q (by omega) hq2) (not_lt.2 hq3.le)
        omega
    · rw [if_neg hij]
      exact ⟨a, i, j, rfl, hq, by omega, le_refl _, le_refl _, hi2, hji, hlo, hup,
        fun ⟨q, h1, h2, _⟩ => absurd (h1.trans h2) hij⟩

/-- `a k` is the element of rank `k` of the first `n`. -/
def Ranked (a : ℕ → ℝ) (n k : ℕ) : Prop :=
  (∀ m, m < k → a m ≤ a k) ∧ ∀ m, k < m → m < n → a k ≤ a m

theorem swap_range (a : ℕ → ℝ) {i j m lo hi : ℕ} (hi1 : lo ≤ i) (hij : i ≤ j) (hj : j ≤ hi) (h1 : lo ≤ m)
    (h2 : m ≤ hi) : ∃ q, lo ≤ q ∧ q ≤ hi ∧ swap a i j m = a q := by
  by_cases e1 : m = i
  · exact ⟨j, by omega, hj, by rw [e1, swap_l]⟩
  · by_cases e2 : m = j
    · exact ⟨i, hi1, by omega, by rw [e2, swap_r]⟩
    · exact ⟨m, h1, h2, swap_ne a e1 e2⟩

theorem select_spec {n k : ℕ} (hk : 1 ≤ k) (Q : (ℕ → ℝ) → Prop)
    (hQ : ∀ (a : ℕ → ℝ) i j (v : ℝ), (∃ c : ℕ → ℝ, Q c ∧ v = c k) → i ≤ j → j < n → v ≤ a i → a j ≤ v → Q a →
      Q (swap a i j)) :
    ∀ f a pL pR, Q a → pR < n → 0 < f → pR < pL + f →
      (∀ m m', m < pL → pL ≤ m' → m' < n → a m ≤ a m') → (∀ m m', m ≤ pR → pR < m' → m' < n → a m ≤ a m') →
      (pL ≤ k ∧ k ≤ pR ∨ Ranked a n k ∧ pR < pL) →
      ∃ b, select n k f a pL pR = some b ∧ Q b ∧ Ranked b n k := by
  intro f
  induction f with
  | zero => intro a pL pR _ _ h; omega
  | succ f ih =>
    intro a pL pR hq hn hf0 hf hA hB hkk
    unfold select
    by_cases hlt : pL < pR
    · rw [if_pos hlt]
      have hkk' : pL ≤ k ∧ k ≤ pR := by
        rcases hkk with h | h
        · exact h
        · omega
      clear hkk
      obtain ⟨k1, k2⟩ := hkk'
      obtain ⟨b, i, j, e, ⟨q1, qA, qB⟩, r1, r2, r3, r4, r5, r6, r7, r8⟩ :=
        partition_spec (v := a k) hn
          (fun c => Q c ∧ (∀ m m', m < pL → pL ≤ m' → m' < n → c m ≤ c m') ∧
            (∀ m m', m ≤ pR → pR < m' → m' < n → c m ≤ c m'))
          (by
            rintro c i j h1 h2 h3 h4 h5 ⟨c1, c2, c3⟩
            refine ⟨hQ c i j (a k) ⟨a, hq, rfl⟩ h2 (by omega) h4 h5 c1, ?_, ?_⟩
            · intro m m' hm hm' hn'
              rw [swap_ne c (by omega) (by omega)]
              obtain ⟨q, g1, g2, g3⟩ := swap_range c (lo := pL) (hi := n - 1) h1 h2 (by omega) hm' (by omega)
              rw [g3]
              exact c2 m q hm g1 (by omega)
            · intro m m' hm hm' hn'
              rw [swap_ne c (m := m') (by omega) (by omega)]
              obtain ⟨q, g1, g2, g3⟩ := swap_range c (lo := 0) (hi := pR) (by omega) h2 h3 (by omega) hm
              rw [g3]
              exact c3 q m' g2 hm' hn')
          (n + 1) a pL pR ⟨hq, hA, hB⟩ (le_refl _) (by omega) (le_refl _) (by omega) (by omega)
          (fun m h1 h2 => by omega) (fun m h1 h2 => by omega)
          (fun _ => ⟨k, k1, k2, le_refl _⟩) (fun _ => ⟨k, k1, k2, le_refl _, Or.inr hk⟩)
      rw [e]
      obtain ⟨g1, g2⟩ := r8 ⟨k, k1, k2, rfl⟩
      clear r8
      have hlo : ∀ m m', m < i → i ≤ m' → m' < n → b m ≤ b m' := by
        intro m m' h1 h2 h3
        by_cases c1 : m < pL
        · exact qA m m' c1 (by omega) h3
        · by_cases c2 : m' ≤ pR
          · exact (r6 m (by omega) h1).trans (r7 m' (by omega) c2)
          · exact qB m m' (by omega) (by omega) h3
      have hup : ∀ m m', m ≤ j → j < m' → m' < n → b m ≤ b m' := by
        intro m m' h1 h2 h3
        by_cases c1 : m < pL
        · exact qA m m' c1 (by omega) h3
        · by_cases c2 : m' ≤ pR
          · exact (r6 m (by omega) (by omega)).trans (r7 m' h2 c2)
          · exact qB m m' (by omega) (by omega) h3
      dsimp only
      by_cases c1 : j < k
      · by_cases c2 : k < i
        · rw [if_pos c1, if_pos c2]
          apply ih b i j q1 (by omega) (by omega) (by omega) hlo hup
          refine Or.inr ⟨⟨?_, ?_⟩, r1⟩
          · intro m hm
            by_cases c3 : m < pL
            · exact qA m k c3 k1 (by omega)
            · exact (r6 m (by omega) (by omega)).trans (r7 k c1 k2)
          · intro m hm hm'
            by_cases c3 : m ≤ pR
            · exact (r6 k k1 c2).trans (r7 m (by omega) c3)
            · exact qB k m k2 (by omega) hm'
        · rw [if_pos c1, if_neg c2]
          exact ih b i pR q1 hn (by omega) (by omega) hlo qB (Or.inl ⟨by omega, k2⟩)
      · rw [if_neg c1, if_pos (by omega)]
        exact ih b pL j q1 (by omega) (by omega) (by omega) qA hup (Or.inl ⟨k1, by omega⟩)
    · rw [if_neg hlt]
      refine ⟨a, rfl, hq, ?_⟩
      rcases hkk with ⟨h1, h2⟩ | h
      · have e1 : pL = k := by omega
        have e2 : pR = k := by omega
        subst e1
        exact ⟨fun m hm => hA m pL hm (le_refl _) (by omega), fun m hm hm' => hB pL m (by omega) (by omega) hm'⟩
      · exact h.1

/-- `b` is a rearrangement of the first `n` elements of `a`. -/
def Rearranged (a b : ℕ → ℝ) (n : ℕ) : Prop :=
  ∃ σ : Equiv.Perm ℕ, (∀ m, m < n ↔ σ m < n) ∧ ∀ m, b m = a (σ m)

theorem rearranged_swap {a b : ℕ → ℝ} {n i j : ℕ} (hi : i < n) (hj : j < n) (h : Rearranged a b n) :
    Rearranged a (swap b i j) n := by
  obtain ⟨σ, h1, h2⟩ := h
  refine ⟨(Equiv.swap i j).trans σ, fun m => ?_, fun m => ?_⟩
  · rw [Equiv.trans_apply, ← h1]
    by_cases e1 : m = i
    · subst e1; simp [hi, hj]
    · by_cases e2 : m = j
      · subst e2; simp [hi, hj]
      · rw [Equiv.swap_apply_of_ne_of_ne e1 e2]
  · rw [swap_eq, h2, Equiv.trans_apply]

/-- **C146 (partial sort).** For every array and every rank `k` from 1 on, the partial sort ends, reads and writes
only elements of the array, rearranges it, and leaves the element of rank `k` at its place: nothing before it is larger
and nothing after it is smaller. -/
theorem C146_partial_sort (a : ℕ → ℝ) (n k : ℕ) (h1 : 1 ≤ k) (h2 : k < n) :
    ∃ b, psort a n k = some b ∧ Rearranged a b n ∧
      (∀ m, m < k → b m ≤ b k) ∧ (∀ m, k < m → m < n → b k ≤ b m) := by
  obtain ⟨b, e, q, r⟩ := select_spec h1 (fun c => Rearranged a c n)
    (fun c i j v _ h2 h3 _ _ hq => rearranged_swap (by omega) h3 hq) n a 0 (n - 1)
    ⟨Equiv.refl _, fun m => Iff.rfl, fun m => rfl⟩ (by omega) (by omega) (by omega)
    (fun m m' h => by omega) (fun m m' h1 h2 h3 => by omega) (Or.inl ⟨by omega, by omega⟩)
  exact ⟨b, e, q, r.1, r.2⟩

/-- **C146 (rank zero).** For rank 0 the unsigned index wraps: an array with a unique smallest element in front is read out
of bounds. The smoother asks for rank 0 only for two points, where both residuals vanish. -/
theorem C146_rank_zero_false : ∃ a : ℕ → ℝ, psort a 2 0 = none := by
  refine ⟨fun m => m, ?_⟩
  have e1 : scanUp (fun m : ℕ => (m : ℝ)) 0 (2 - 0) 0 = some 0 := by
    simp [scanUp]
  have e2 : scanDown (fun m : ℕ => (m : ℝ)) 0 1 = some 0 := by
    simp [scanDown]
  simp [psort, select, partition, e1, e2]

theorem rearranged_trans {a b c : ℕ → ℝ} {n : ℕ} (h1 : Rearranged a b n) (h2 : Rearranged a c n) : Rearranged b c n := by
  obtain ⟨σ, s1, s2⟩ := h1
  obtain ⟨τ, t1, t2⟩ := h2
  refine ⟨τ.trans σ.symm, fun m => ?_, fun m => ?_⟩
  · rw [Equiv.trans_apply, s1 (σ.symm (τ m)), Equiv.apply_symm_apply, ← t1]
  · rw [Equiv.trans_apply, s2, Equiv.apply_symm_apply, t2]

open Finset in
theorem rearranged_count {a b : ℕ → ℝ} {n : ℕ} (h : Rearranged a b n) (P : ℝ → Prop) [DecidablePred P] :
    ((range n).filter fun m => P (b m)).card = ((range n).filter fun m => P (a m)).card := by
  obtain ⟨σ, h1, h2⟩ := h
  refine Finset.card_bij (fun m _ => σ m) ?_ ?_ ?_
  · intro m hm
    rw [mem_filter, mem_range] at hm ⊢
    rw [← h2]
    exact ⟨(h1 m).1 hm.1, hm.2⟩
  · intro m _ m' _ e
    exact σ.injective e
  · intro m hm
    rw [mem_filter, mem_range] at hm
    refine ⟨σ.symm m, ?_, σ.apply_symm_apply m⟩
    rw [mem_filter, mem_range, h1, h2, σ.apply_symm_apply]
    exact hm

open Finset in
theorem ranked_stat {a b : ℕ → ℝ} {n k : ℕ} (hk : k < n) (h : Rearranged a b n) (hr : Ranked b n k) :
    Spec.OrderStat a n k (b k) := by
  classical
  refine ⟨?_, ?_⟩
  · have e := rearranged_count h (fun v => v < b k)
    have : ((range n).filter fun m => b m < b k).card ≤ (range k).card := by
      apply card_le_card
      intro m hm
      rw [mem_filter, mem_range] at hm
      rw [mem_range]
      by_contra hc
      rcases Nat.lt_or_ge k m with h2 | h2
      · exact absurd hm.2 (not_lt.2 (hr.2 m h2 hm.1))
      · have : m = k := by omega
        rw [this] at hm
        exact absurd hm.2 (lt_irrefl _)
    rw [card_range] at this
    convert e ▸ this
  · have e := rearranged_count h (fun v => v ≤ b k)
    have : (range (k + 1)).card ≤ ((range n).filter fun m => b m ≤ b k).card := by
      apply card_le_card
      intro m hm
      rw [mem_range] at hm
      rw [mem_filter, mem_range]
      refine ⟨by omega, ?_⟩
      rcases Nat.lt_or_ge m k with h2 | h2
      · exact hr.1 m h2
      · have : m = k := by omega
        rw [this]
    rw [card_range, Nat.succ_le_iff] at this
    convert e ▸ this

/-- **C146 (median).** For more than two residuals the robustness scale is six times their median. -/
theorem C146_median (r : ℕ → ℝ) (n : ℕ) (hn : 3 ≤ n) : ∃ M, Spec.Median r n M ∧ cmad r n = some (6 * M) := by
  obtain ⟨b, e, q, r1, r2⟩ := C146_partial_sort r n (n / 2) (by omega) (by omega)
  have hb := ranked_stat (by omega) q ⟨r1, r2⟩
  unfold cmad
  dsimp only
  rw [e]
  by_cases hp : n % 2 = 0
  · simp only [if_pos hp]
    have hm : n - n / 2 - 1 = n / 2 - 1 := by omega
    rw [hm]
    generalize hK : n / 2 = K at *
    have hK2 : 2 ≤ K := by omega
    have hKn : K < n := by omega
    clear hm
    obtain ⟨c, e2, ⟨g1, g2, g3, g4⟩, g5⟩ := select_spec (n := n) (k := K - 1) (by omega)
      (fun c => Rearranged b c n ∧ c K = b K ∧ (∀ m, m < K → c m ≤ b K) ∧ (∀ m, K ≤ m → m < n → b K ≤ c m))
      (by
        rintro c i j v ⟨d, ⟨-, -, d3, -⟩, rfl⟩ hij hj hvi hvj ⟨c1, c2, c3, c4⟩
        have hv := d3 (K - 1) (by omega)
        refine ⟨rearranged_swap (by omega) hj c1, ?_, ?_, ?_⟩
        · rw [swap_eq]
          by_cases e1 : K = i
          · subst e1
            rw [Equiv.swap_apply_left]
            exact le_antisymm (hvj.trans hv) (c4 j hij hj)
          · by_cases e2 : K = j
            · subst e2
              rw [Equiv.swap_apply_right]
              have h1 := c3 i (by omega)
              have h2 := c4 K (le_refl _) hj
              linarith
            · rw [Equiv.swap_apply_of_ne_of_ne e1 e2]
              exact c2
        · intro m hm
          rw [swap_eq]
          by_cases e1 : m = i
          · subst e1
            rw [Equiv.swap_apply_left]
            exact hvj.trans hv
          · by_cases e2 : m = j
            · subst e2
              rw [Equiv.swap_apply_right]
              exact c3 i (by omega)
            · rw [Equiv.swap_apply_of_ne_of_ne e1 e2]
              exact c3 m hm
        · intro m hm hmn
          rw [swap_eq]
          by_cases e1 : m = i
          · subst e1
            rw [Equiv.swap_apply_left]
            exact c4 j (by omega) hj
          · by_cases e2 : m = j
            · subst e2
              rw [Equiv.swap_apply_right]
              have h2 := c4 m hm hmn
              linarith
            · rw [Equiv.swap_apply_of_ne_of_ne e1 e2]
              exact c4 m hm hmn)
      n b 0 (n - 1) ⟨⟨Equiv.refl _, fun m => Iff.rfl, fun m => rfl⟩, rfl, r1,
        fun m hm hmn => by
          rcases Nat.lt_or_ge K m with h2 | h2
          · exact r2 m h2 hmn
          · have : m = K := by omega
            rw [this]⟩ (by omega) (by omega) (by omega)
      (fun m m' h => by omega) (fun m m' h1 h2 h3 => by omega) (Or.inl ⟨by omega, by omega⟩)
    have hc := ranked_stat (by omega) (rearranged_trans (rearranged_trans q
      ⟨Equiv.refl _, fun m => Iff.rfl, fun m => rfl⟩) g1) g5
    have e3 : psort b n (K - 1) = some c := e2
    simp only [Option.bind_eq_bind, Option.bind_some, e3, g2]
    refine ⟨(b K + c (K - 1)) / 2, ⟨b K, c (K - 1), ?_, ?_, rfl⟩, ?_⟩
    · rw [hK]; exact hb
    · have : (n - 1) / 2 = K - 1 := by omega
      rw [this]; exact hc
    · congr 1
      ring
  · refine ⟨b (n / 2), ⟨b (n / 2), b (n / 2), hb, ?_, by ring⟩, by simp [hp]⟩
    have : (n - 1) / 2 = n / 2 := by omega
    rw [this]; exact hb

example : Spec.Median (fun m => (m : ℝ)) 3 1 := by
  refine ⟨1, 1, ⟨?_, ?_⟩, ⟨?_, ?_⟩, by norm_num⟩ <;>
    norm_num [Finset.range_add_one, Finset.filter_insert, Finset.filter_singleton]

end Verif.Low
