import Verif.Td.Model
import Mathlib.Data.Nat.Digits.Lemmas
import Mathlib.Tactic.FinCases
import Mathlib.Tactic.Ring
import Mathlib.Data.List.Nodup

/-!
C150 and C151: names of the files.
-/

namespace Verif.Td

/-- Specification: the number which a sequence of decimal digits denotes. -/
def value (l : List Char) : ℕ := l.foldl (fun a c => 10 * a + (c.toNat - 48)) 0

theorem value_zeros (k : ℕ) (l : List Char) (a : ℕ) (ha : a = 0) :
    (List.replicate k '0' ++ l).foldl (fun a c => 10 * a + (c.toNat - 48)) a = l.foldl (fun a c => 10 * a + (c.toNat - 48)) 0 := by
  subst ha
  induction k with
  | zero => rfl
  | succ k ih => rw [List.replicate_succ, List.cons_append, List.foldl_cons]; exact ih

theorem digit_char (d : ℕ) (h : d < 10) : (Char.ofNat (48 + d)).toNat - 48 = d := by
  interval_cases d <;> rfl

theorem value_digits (L : List ℕ) (h : ∀ d ∈ L, d < 10) :
    (L.reverse.map fun d => Char.ofNat (48 + d)).foldl (fun a c => 10 * a + (c.toNat - 48)) 0 = Nat.ofDigits 10 L := by
  induction L with
  | nil => rfl
  | cons d L ih =>
    rw [List.reverse_cons, List.map_append, List.foldl_append, ih fun x hx => h x (by simp [hx])]
    simp only [List.map_cons, List.map_nil, List.foldl_cons, List.foldl_nil, Nat.ofDigits_cons]
    rw [digit_char d (h d (by simp))]; ring

theorem value_pad (w n : ℕ) : value (pad w n) = n := by
  unfold value pad
  rw [value_zeros _ _ _ rfl, value_digits _ fun d hd => Nat.digits_lt_base (by norm_num) hd, Nat.ofDigits_digits]

theorem pad_length (w n : ℕ) (h : n < 10 ^ w) : (pad w n).length = w := by
  have : (Nat.digits 10 n).length ≤ w := by
    rw [Nat.digits_length_le_iff (by norm_num)]; exact h
  simp only [pad, List.length_append, List.length_replicate, List.length_map, List.length_reverse]; omega

theorem pad_inj {w n m : ℕ} (h : pad w n = pad w m) : n = m := by
  rw [← value_pad w n, h, value_pad]

/-- All quantities and density types. -/
def allNames : List (Quantity × Dens) :=
  [Quantity.eckart, .tmn, .tmnLandau, .vLandau, .jQBS].flatMap fun q =>
    [Dens.none, .hadron, .baryon, .isospin, .pion, .isospin3, .charge, .strangeness].map fun d => (q, d)

theorem mem_allNames (q : Quantity) (d : Dens) : (q, d) ∈ allNames := by
  cases q <;> cases d <;> decide

theorem allNames_nodup : (allNames.map fun x => varName x.1 x.2).Nodup := by decide +kernel

theorem varName_inj (q q' : Quantity) (d d' : Dens) (h : varName q d = varName q' d') : q = q' ∧ d = d' := by
  have := List.inj_on_of_nodup_map allNames_nodup (mem_allNames q d) (mem_allNames q' d') h
  exact Prod.mk.inj this

/-- C150: for less than 10 000 000 events the name of a file tells quantity, density type, event and format. -/
theorem C150_names {q q' : Quantity} {d d' : Dens} {n n' : ℕ} {a a' : Bool} (hn : n < 10000000) (hn' : n' < 10000000)
    (h : latName (varName q d) n a = latName (varName q' d') n' a') : q = q' ∧ d = d' ∧ n = n' ∧ a = a' := by
  have len : ∀ (n : ℕ) (a : Bool), n < 10000000 →
      snprintf 13 (['_'] ++ pad 7 n ++ (if a then ".dat" else ".bin").toList) = ['_'] ++ pad 7 n ++ (if a then ".dat" else ".bin").toList ∧
      (['_'] ++ pad 7 n ++ (if a then ".dat" else ".bin").toList).length = 12 := by
    intro n a hn
    have hl : (['_'] ++ pad 7 n ++ (if a then ".dat" else ".bin").toList).length = 12 := by
      rw [List.length_append, List.length_append, pad_length 7 n hn]; cases a <;> rfl
    exact ⟨by unfold snprintf; rw [List.take_of_length_le (by omega)], hl⟩
  unfold latName at h
  rw [(len n a hn).1, (len n' a' hn').1] at h
  have h1 := List.append_inj' h (by rw [(len n a hn).2, (len n' a' hn').2])
  obtain ⟨hq, hd⟩ := varName_inj _ _ _ _ h1.1
  have h2 := List.append_inj h1.2 (by simp [pad_length 7 n hn, pad_length 7 n' hn'])
  have h3 := (List.append_inj h2.1 rfl).2
  refine ⟨hq, hd, pad_inj h3, ?_⟩
  have h4 := h2.2
  cases a <;> cases a' <;> first | rfl | exact absurd h4 (by decide +kernel)

end Verif.Td
