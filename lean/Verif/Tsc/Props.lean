import Mathlib.Tactic.Ring
import Mathlib.Tactic.Linarith
import Mathlib.Tactic.NormNum
import Mathlib.Tactic.IntervalCases
import Verif.Tsc.Model
/-!
C182: the printed number of processor cycles.
-/
namespace Verif.Tsc

/-- The number a reader sees in a text: the digits one after the other, everything else skipped. -/
def value (l : List Char) (v : ℕ) : ℕ :=
  l.foldl (fun v ch => if '0' ≤ ch ∧ ch ≤ '9' then 10 * v + (ch.toNat - 48) else v) v

theorem value_append (a b : List Char) (v : ℕ) : value (a ++ b) v = value b (value a v) := List.foldl_append

theorem value_digit (d v : ℕ) (h : d < 10) : value [digit d] v = 10 * v + d := by
  have hd : '0' ≤ digit d ∧ digit d ≤ '9' ∧ (digit d).toNat - 48 = d := by
    interval_cases d <;> decide
  unfold value
  simp only [List.foldl_cons, List.foldl_nil]
  rw [if_pos ⟨hd.1, hd.2.1⟩, hd.2.2]

theorem value_cons (ch : Char) (l : List Char) (v : ℕ) : value (ch :: l) v = value l (value [ch] v) := rfl

theorem value_pad3 (b v : ℕ) (h : b < 1000) : value (pad3 b) v = 1000 * v + b := by
  unfold pad3
  rw [value_cons, value_cons (digit (b / 10 % 10)), value_digit _ _ (by omega), value_digit _ _ (by omega),
    value_digit _ _ (by omega)]
  omega

theorem value_plain (b : ℕ) (h : b < 1000) : value (plain b) 0 = b := by
  unfold plain
  split_ifs with h1 h2
  · rw [value_pad3 _ _ h]; omega
  · rw [value_cons, value_digit _ _ (by omega), value_digit _ _ (by omega)]; omega
  · rw [value_digit _ _ (by omega)]; omega

/-- The number made of blocks of three digits. -/
def joined (l : List ℕ) (v : ℕ) : ℕ := l.foldl (fun v b => 1000 * v + b) v

theorem value_blocks (l : List ℕ) (h : ∀ b ∈ l, b < 1000) (v : ℕ) :
    value (l.flatMap fun x => '\'' :: pad3 x) v = joined l v := by
  induction l generalizing v with
  | nil => rfl
  | cons b bs ih =>
    simp only [List.flatMap_cons]
    rw [value_append, value_cons]
    have : value ['\''] v = v := by
      unfold value; simp only [List.foldl_cons, List.foldl_nil]; rw [if_neg (by decide)]
    rw [this, value_pad3 _ _ (h b (by simp)), ih (fun x hx => h x (by simp [hx]))]
    rfl

theorem value_text (l : List ℕ) (h : ∀ b ∈ l, b < 1000) : value (text l) 0 = joined l 0 := by
  cases l with
  | nil => rfl
  | cons b bs =>
    unfold text
    rw [value_append, value_append, value_plain _ (h b (by simp)), value_blocks _ (fun x hx => h x (by simp [hx]))]
    have (v : ℕ) : value " Cycles".toList v = v := by
      show value [' ', 'C', 'y', 'c', 'l', 'e', 's'] v = v
      unfold value
      simp only [List.foldl_cons, List.foldl_nil]
      repeat rw [if_neg (by decide)]
    rw [this]
    simp [joined]

theorem blocks_spec (digits c : ℕ) (acc : List ℕ) :
    (∀ b ∈ acc, b < 1000) → (∀ b ∈ blocks digits c acc, b < 1000) ∧
    (blocks digits c acc).length = acc.length + (digits + 2) / 3 ∧
    ∀ v, joined (blocks digits c acc) v = joined acc (1000 ^ ((digits + 2) / 3) * v + c % 1000 ^ ((digits + 2) / 3)) := by
  induction digits using Nat.strong_induction_on generalizing c acc with
  | _ digits ih =>
    intro hacc
    unfold blocks
    split_ifs with h
    · subst h
      refine ⟨hacc, by simp, fun v => by simp [Nat.mod_one]⟩
    · have hb : ∀ b ∈ c % 1000 :: acc, b < 1000 := by
        intro b hb
        rcases List.mem_cons.1 hb with rfl | hb
        · omega
        · exact hacc b hb
      obtain ⟨h1, h2, h3⟩ := ih (digits - 3) (by omega) (c / 1000) (c % 1000 :: acc) hb
      have hk : (digits + 2) / 3 = (digits - 3 + 2) / 3 + 1 := by omega
      refine ⟨h1, by rw [h2, hk]; simp only [List.length_cons]; omega, fun v => ?_⟩
      rw [h3 v, hk]
      generalize (digits - 3 + 2) / 3 = n
      show joined acc (1000 * _ + c % 1000) = _
      congr 1
      rw [pow_succ', Nat.mod_mul]
      ring

/-- **C182**, the counter: the number of cycles between start and stop, also if the counter of the processor wraps around in between. -/
theorem C182_cycles (start n : ℕ) (h : start < 2 ^ 64) (hn : n < 2 ^ 64) :
    cycles start ((start + n) % 2 ^ 64) = n := by
  unfold cycles; omega

/-- **C182**, no more than seven of the ten places for blocks are used. -/
theorem C182_bounds (c : ℕ) (h : c < 2 ^ 64) : (blocks (Nat.log 10 c) c []).length ≤ 7 := by
  rw [(blocks_spec (Nat.log 10 c) c [] (by simp)).2.1]
  have : Nat.log 10 c < 20 := by
    rcases Nat.eq_zero_or_pos c with rfl | hc
    · simp
    · exact (Nat.log_lt_iff_lt_pow (by norm_num) hc.ne').2 (lt_of_lt_of_le h (by norm_num))
  simp only [List.length_nil]
  omega

/-- **C182**, what is printed for a number with `k + 1` digits: its last `3⌈k/3⌉` digits. -/
theorem C182_printed (c k : ℕ) (h0 : 10 ^ k ≤ c) (h1 : c < 10 ^ (k + 1)) :
    ∃ t, print c = some t ∧ value t 0 = c % 1000 ^ ((k + 2) / 3) := by
  have hc : c ≠ 0 := by have := Nat.pow_pos (n := k) (show 0 < 10 by norm_num); omega
  have hk : Nat.log 10 c = k := Nat.log_eq_of_pow_le_of_lt_pow h0 h1
  obtain ⟨b1, -, b3⟩ := blocks_spec k c [] (by simp)
  refine ⟨_, by unfold print; rw [if_neg hc], ?_⟩
  rw [hk, value_text _ b1, b3 0]
  simp [joined]

/-- **C182**, numbers with a number of digits that is not 1, 4, 7, … are printed correctly. -/
theorem C182_correct_partial (c k : ℕ) (h0 : 10 ^ k ≤ c) (h1 : c < 10 ^ (k + 1)) (hk : k % 3 ≠ 0) :
    ∃ t, print c = some t ∧ value t 0 = c := by
  obtain ⟨t, h, hv⟩ := C182_printed c k h0 h1
  refine ⟨t, h, ?_⟩
  rw [hv]
  apply Nat.mod_eq_of_lt
  refine lt_of_lt_of_le h1 ?_
  rw [show (1000 : ℕ) = 10 ^ 3 by norm_num, ← pow_mul]
  exact Nat.pow_le_pow_right (by norm_num) (by omega)

/-- **C182**, finding: for numbers with 1, 4, 7, … digits the first digit is lost. -/
theorem C182_leading_false (c k : ℕ) (h0 : 10 ^ k ≤ c) (h1 : c < 10 ^ (k + 1)) (hk : k % 3 = 0) :
    ∃ t, print c = some t ∧ value t 0 = c % 10 ^ k ∧ value t 0 < c := by
  obtain ⟨t, h, hv⟩ := C182_printed c k h0 h1
  have : 1000 ^ ((k + 2) / 3) = 10 ^ k := by
    rw [show (1000 : ℕ) = 10 ^ 3 by norm_num, ← pow_mul]; congr 1; omega
  rw [this] at hv
  refine ⟨t, h, hv, ?_⟩
  rw [hv]
  exact lt_of_lt_of_le (Nat.mod_lt _ (Nat.pow_pos (by norm_num))) h0

/-- **C182**, finding: nothing at all is printed below ten cycles, and zero cycles are undefined. -/
theorem C182_empty_false (c : ℕ) (h : c < 10) : print c = if c = 0 then none else some [] := by
  interval_cases c <;> simp [print, blocks, text]

/-- 1234567 and 12345678 cycles. -/
example : ∃ t, print 1234567 = some t ∧ value t 0 = 234567 ∧ value t 0 < 1234567 :=
  C182_leading_false 1234567 6 (by norm_num) (by norm_num) (by norm_num)
example : ∃ t, print 12345678 = some t ∧ value t 0 = 12345678 :=
  C182_correct_partial 12345678 7 (by norm_num) (by norm_num) (by norm_num)
example : cycles (2 ^ 64 - 1) 4 = 5 := by decide

/-- **C182**, the layout: blocks of three digits, separated by apostrophes, and the unit. -/
theorem C182_layout (c k : ℕ) (h0 : 10 ^ k ≤ c) (h1 : c < 10 ^ (k + 1)) (hk : k % 3 ≠ 0) :
    ∃ (b : ℕ) (bs : List ℕ), print c = some (plain b ++ (bs.flatMap fun x => '\'' :: pad3 x) ++ " Cycles".toList) ∧
      b < 1000 ∧ (∀ x ∈ bs, x < 1000) ∧ bs.length = k / 3 := by
  have hc : c ≠ 0 := by have := Nat.pow_pos (n := k) (show 0 < 10 by norm_num); omega
  have hlog : Nat.log 10 c = k := Nat.log_eq_of_pow_le_of_lt_pow h0 h1
  obtain ⟨b1, b2, -⟩ := blocks_spec k c [] (by simp)
  unfold print
  rw [if_neg hc, hlog]
  rcases hb : blocks k c [] with _ | ⟨b, bs⟩
  · rw [hb] at b2; simp at b2; omega
  · rw [hb] at b1 b2
    refine ⟨b, bs, rfl, b1 b (by simp), fun x hx => b1 x (by simp [hx]), ?_⟩
    simp at b2; omega

end Verif.Tsc
