import Verif.Pdg.Parse
/-!
C14-C17, C62: PDG codes.
-/
set_option linter.unusedSimpArgs false
set_option linter.unusedVariables false
namespace Verif.Pdg

/-! ### Which words the constructors produce -/

/-- A word whose digits are all decimal and which passed the checks. -/
def Printable (d : Nat) : Prop :=
  (∃ s n r l q1 q2 q3 j, s < 2 ∧ n ≤ 9 ∧ r ≤ 9 ∧ l ≤ 9 ∧ q1 ≤ 6 ∧ q2 ≤ 6 ∧ q3 ≤ 6 ∧ j < 16 ∧
    d = mk s n r l q1 q2 q3 j ∧ check d = .ok ()) ∨
  (∃ s l z a i, s < 2 ∧ l ≤ 9 ∧ z ≤ 999 ∧ a ≤ 999 ∧ i ≤ 9 ∧ d = mkNuc s l z a i)

theorem setFields_word (b : Bool) (c : Nat) :
    setBits (bits c 0 28) 31 1 (if b then 1 else 0) =
      mk (if b then 1 else 0) (c / 16777216 % 16) (c / 1048576 % 16) (c / 65536 % 16)
        (c / 4096 % 16) (c / 256 % 16) (c / 16 % 16) (c % 16) := by
  cases b
  · simp only [setBits, bits, mk, Bool.false_eq_true, if_false]; omega
  · simp only [setBits, bits, mk, if_true]; omega

theorem testCode_mk {s n' r l q1 q2 q3 j : Nat} (hs : s < 2) (hn : n' < 16) (hr : r < 16)
    (hl : l < 16) (h1 : q1 < 16) (h2 : q2 < 16) (h3 : q3 < 16) (hj : j < 16) :
    testCode (mk s n' r l q1 q2 q3 j) = false ↔
      n' ≤ 9 ∧ r ≤ 9 ∧ l ≤ 9 ∧ q1 ≤ 6 ∧ q2 ≤ 6 ∧ q3 ≤ 6 := by
  simp only [testCode, nJ_mk hs hn hr hl h1 h2 h3 hj, nq3_mk hs hn hr hl h1 h2 h3 hj,
    nq2_mk hs hn hr hl h1 h2 h3 hj, nq1_mk hs hn hr hl h1 h2 h3 hj, nL_mk hs hn hr hl h1 h2 h3 hj,
    nR_mk hs hn hr hl h1 h2 h3 hj, n_mk hs hn hr hl h1 h2 h3 hj, Bool.or_eq_false_iff,
    decide_eq_false_iff_not]
  omega

theorem setFields_ok {b : Bool} {c d : Nat} :
    setFields b c = .ok d ↔ (c / 16777216 % 16 ≤ 9 ∧ c / 1048576 % 16 ≤ 9 ∧ c / 65536 % 16 ≤ 9 ∧
      c / 4096 % 16 ≤ 6 ∧ c / 256 % 16 ≤ 6 ∧ c / 16 % 16 ≤ 6) ∧
      d = mk (if b then 1 else 0) (c / 16777216 % 16) (c / 1048576 % 16) (c / 65536 % 16)
        (c / 4096 % 16) (c / 256 % 16) (c / 16 % 16) (c % 16) ∧ check d = .ok () := by
  unfold setFields
  rw [setFields_word]
  simp only
  have ht := testCode_mk (s := if b then 1 else 0) (n' := c / 16777216 % 16)
    (r := c / 1048576 % 16) (l := c / 65536 % 16) (q1 := c / 4096 % 16) (q2 := c / 256 % 16)
    (q3 := c / 16 % 16) (j := c % 16) (by split <;> omega) (by omega) (by omega) (by omega)
    (by omega) (by omega) (by omega) (by omega)
  generalize mk (if b then 1 else 0) (c / 16777216 % 16) (c / 1048576 % 16) (c / 65536 % 16)
        (c / 4096 % 16) (c / 256 % 16) (c / 16 % 16) (c % 16) = w at ht ⊢
  by_cases h : testCode w = true
  · rw [if_pos h]
    constructor
    · intro h'; cases h'
    · rintro ⟨h1, _⟩; exact absurd (ht.2 h1) (by simp [h])
  · rw [if_neg h]
    simp only [bind_ok, pure, Except.pure, Except.ok.injEq]
    constructor
    · rintro ⟨_, h', rfl⟩; exact ⟨ht.1 (by simpa using h), rfl, h'⟩
    · rintro ⟨_, rfl, h'⟩; exact ⟨(), h', rfl⟩

theorem setFields_printable {b : Bool} {c d : Nat} (h : setFields b c = .ok d) : Printable d := by
  obtain ⟨h1, h2, h3⟩ := setFields_ok.1 h
  exact .inl ⟨_, _, _, _, _, _, _, _, by split <;> omega, h1.1, h1.2.1, h1.2.2.1, h1.2.2.2.1,
    h1.2.2.2.2.1, h1.2.2.2.2.2, by omega, h2, h3⟩

theorem ofInt_printable {c : Int} {d : Nat} (h : ofInt c = .ok d) : Printable d := by
  unfold ofInt at h
  split_ifs at h
  · exact setFields_printable h
  · exact setFields_printable h

theorem isDigit_bounds {c : Char} (h : c.isDigit = true) : 48 ≤ c.toNat ∧ c.toNat ≤ 57 := by
  simp only [Char.isDigit, Bool.and_eq_true, decide_eq_true_eq, ge_iff_le, UInt32.le_iff_toNat_le] at h
  exact h

theorem digit_dec {c : Char} (h : c.isDigit = true) : digit c = .ok (c.toNat - 48) := by
  unfold digit; rw [if_pos (isDigit_bounds h)]

theorem isHex_of_isDigit {c : Char} (h : c.isDigit = true) : IsHex c := .inl (isDigit_bounds h)

theorem forall_dec {cs : List Char} (h : ∀ c ∈ cs, c.isDigit = true) :
    List.Forall₂ (fun c v => digit c = .ok v) cs (cs.map fun c => c.toNat - 48) := by
  induction cs with
  | nil => exact .nil
  | cons c cs ih => exact .cons (digit_dec (h c (by simp))) (ih fun x hx => h x (by simp [hx]))

theorem core_printable {s a n' r l q1 q2 q3 j d : Nat} (hs : s < 2) (hn : n' ≤ 9) (hr : r ≤ 9)
    (hl : l ≤ 9) (h : core s a n' r l q1 q2 q3 j = .ok d) : Printable d := by
  obtain ⟨h1, h2, h3, h4, rfl⟩ := core_ok.1 h
  exact .inl ⟨_, _, _, _, _, _, _, _, hs, hn, hr, hl, h1, h2, h3, by omega, rfl, h4⟩

theorem afterSign_printable {s d : Nat} (hs : s < 2) {cs : List Char}
    (hd : ∀ c ∈ cs, c.isDigit = true) (h : afterSign (sgnWord s) cs = .ok d) : Printable d := by
  have b {c : Char} (hc : c ∈ cs) : c.toNat - 48 ≤ 9 := by have := isDigit_bounds (hd c hc); omega
  by_cases h10 : cs.length = 10
  · have h' := h
    unfold afterSign at h'
    rw [if_pos h10] at h'
    obtain ⟨ds, rfl, hl, hx⟩ := nucleusFromString_hex h10 h'
    match ds, hl with
    | [x0, x1, x2, x3, x4, x5, x6, x7], _ =>
      have dg {c : Char} (hc : c ∈ ['1', '0', x0, x1, x2, x3, x4, x5, x6, x7]) := digit_dec (hd c hc)
      rw [nucleus_eq hs (dg (c := x0) (by simp)) (dg (c := x1) (by simp)) (dg (c := x2) (by simp))
        (dg (c := x3) (by simp)) (dg (c := x4) (by simp)) (dg (c := x5) (by simp))
        (dg (c := x6) (by simp)) (dg (c := x7) (by simp))] at h
      have b0 := b (c := x0) (by simp)
      have b1 := b (c := x1) (by simp)
      have b2 := b (c := x2) (by simp)
      have b3 := b (c := x3) (by simp)
      have b4 := b (c := x4) (by simp)
      have b5 := b (c := x5) (by simp)
      have b6 := b (c := x6) (by simp)
      have b7 := b (c := x7) (by simp)
      injection h with h
      exact .inr ⟨_, _, _, _, _, hs, b0, (Nat.mod_le _ _).trans (by omega),
        (Nat.mod_le _ _).trans (by omega), b7, h.symm⟩
  · unfold afterSign at h
    rw [if_neg h10] at h
    obtain ⟨h0, h8, _⟩ := digitsFromString_hex h
    rw [digitsFromString_eq hs (forall_dec hd) h8 h0] at h
    match cs, h8, h0 with
    | [_], _, _ => exact core_printable hs (by omega) (by omega) (by omega) h
    | [_, _], _, _ => exact core_printable hs (by omega) (by omega) (by omega) h
    | [_, _, _], _, _ => exact core_printable hs (by omega) (by omega) (by omega) h
    | [_, _, _, _], _, _ => exact core_printable hs (by omega) (by omega) (by omega) h
    | [_, _, _, _, _], _, _ => exact core_printable hs (by omega) (by omega) (b (by simp)) h
    | [_, _, _, _, _, _], _, _ => exact core_printable hs (by omega) (b (by simp)) (b (by simp)) h
    | [_, _, _, _, _, _, _], _, _ =>
      exact core_printable hs (b (by simp)) (b (by simp)) (b (by simp)) h
    | [_, _, _, _, _, _, _, _], _, _ =>
      exact core_printable hs (b (by simp)) (b (by simp)) (b (by simp)) h
    | _ :: _ :: _ :: _ :: _ :: _ :: _ :: _ :: _ :: _, h8, _ => simp at h8

/-- Characters of a decimal number with optional sign. -/
def DecimalString (s : List Char) : Prop := ∀ c ∈ s, c.isDigit = true ∨ c = '+' ∨ c = '-'

theorem isHex_sign : ¬ IsHex '+' ∧ ¬ IsHex '-' := by unfold IsHex; decide

theorem ofString_printable {s : List Char} {d : Nat} (hd : DecimalString s)
    (h : ofString s = .ok d) : Printable d := by
  obtain ⟨sg, cs, h, hs⟩ := ofString_split h
  have hcs : ∀ c ∈ cs, c ∈ s := by
    intro c hc; rcases hs with ⟨rfl, _⟩ | ⟨rfl, _⟩ | ⟨rfl, _⟩ <;> simp [hc]
  have hsg : sg < 2 := by omega
  refine afterSign_printable hsg ?_ h
  have hx : ∀ c ∈ cs, IsHex c := by
    unfold afterSign at h
    split_ifs at h with h10
    · obtain ⟨ds, rfl, _, hx⟩ := nucleusFromString_hex h10 h
      intro c hc
      simp only [List.mem_cons] at hc
      rcases hc with rfl | rfl | hc
      · unfold IsHex; decide
      · unfold IsHex; decide
      · exact hx c hc
    · exact (digitsFromString_hex h).2.2
  intro c hc
  rcases hd c (hcs c hc) with h | rfl | rfl
  · exact h
  · exact absurd (hx _ hc) isHex_sign.1
  · exact absurd (hx _ hc) isHex_sign.2

/-! ### Printing and parsing back -/

theorem digitChar_head {N : Nat} : ∃ c cs, Nat.toDigits 10 N = c :: cs ∧ c ≠ '-' ∧ c ≠ '+' := by
  cases h : Nat.toDigits 10 N with
  | nil => exact absurd h Nat.toDigits_ne_nil
  | cons c cs =>
    have : c.isDigit := Nat.isDigit_of_mem_toDigits (b := 10) (n := N) (by omega) (by omega) (by simp [h])
    refine ⟨c, cs, rfl, ?_, ?_⟩ <;> rintro rfl <;> simp at this

theorem ofString_toStr (x : Int) :
    ofString (toStr x) = afterSign (sgnWord (if x < 0 then 1 else 0)) (Nat.toDigits 10 x.natAbs) := by
  unfold toStr
  by_cases h : x < 0
  · rw [if_pos h, if_pos h, ofString_minus]; congr 2; omega
  · rw [if_neg h, if_neg h]
    obtain ⟨c, cs, e, h1, h2⟩ := digitChar_head (N := x.toNat)
    have : x.natAbs = x.toNat := by omega
    rw [this, e, ofString_cons h1 h2]

theorem check_neg_zero : check (mk 1 0 0 0 0 0 0 0) = .error .invalidPdgCode := by decide +kernel

theorem mk_congr {s n r l q1 q2 q3 j n' r' l' q1' q2' q3' j' : Nat} (h1 : n = n') (h2 : r = r')
    (h3 : l = l') (h4 : q1 = q1') (h5 : q2 = q2') (h6 : q3 = q3') (h7 : j = j') :
    mk s n r l q1 q2 q3 j = mk s n' r' l' q1' q2' q3' j' := by subst_vars; rfl

theorem toDigits_nucleus {N : Nat} (h1 : 1000000000 ≤ N) (h2 : N < 1100000000) :
    Nat.toDigits 10 N = ['1', '0', (N / 10000000 % 10).digitChar, (N / 1000000 % 10).digitChar,
      (N / 100000 % 10).digitChar, (N / 10000 % 10).digitChar, (N / 1000 % 10).digitChar,
      (N / 100 % 10).digitChar, (N / 10 % 10).digitChar, (N % 10).digitChar] := by
  have step {M : Nat} (h : 10 ≤ M) : Nat.toDigits 10 M = Nat.toDigits 10 (M / 10) ++ [(M % 10).digitChar] :=
    Nat.toDigits_of_base_le (by omega) h
  rw [step (by omega), step (by omega : 10 ≤ N / 10), step (by omega : 10 ≤ N / 10 / 10),
    step (by omega : 10 ≤ N / 10 / 10 / 10), step (by omega : 10 ≤ N / 10 / 10 / 10 / 10),
    step (by omega : 10 ≤ N / 10 / 10 / 10 / 10 / 10),
    step (by omega : 10 ≤ N / 10 / 10 / 10 / 10 / 10 / 10),
    step (by omega : 10 ≤ N / 10 / 10 / 10 / 10 / 10 / 10 / 10)]
  have e8 : N / 10 / 10 / 10 / 10 / 10 / 10 / 10 / 10 = 10 := by omega
  rw [e8]
  have e7 : N / 10 / 10 / 10 / 10 / 10 / 10 / 10 = N / 10000000 := by omega
  have e6 : N / 10 / 10 / 10 / 10 / 10 / 10 = N / 1000000 := by omega
  have e5 : N / 10 / 10 / 10 / 10 / 10 = N / 100000 := by omega
  have e4 : N / 10 / 10 / 10 / 10 = N / 10000 := by omega
  have e3 : N / 10 / 10 / 10 = N / 1000 := by omega
  have e2 : N / 10 / 10 = N / 100 := by omega
  rw [e7, e6, e5, e4, e3, e2]
  have e10 : Nat.toDigits 10 10 = ['1', '0'] := by decide
  rw [e10]; rfl

theorem decimalOf_digits {n' r l q1 q2 q3 j : Nat} (hn : n' ≤ 9) (hr : r ≤ 9) (hl : l ≤ 9)
    (h1 : q1 ≤ 6) (h2 : q2 ≤ 6) (h3 : q3 ≤ 6) (hj : j < 16) :
    decimalOf n' r l q1 q2 q3 j / 1000000 % 10 = n' ∧
    decimalOf n' r l q1 q2 q3 j / 100000 % 10 = r ∧ decimalOf n' r l q1 q2 q3 j / 10000 % 10 = l ∧
    decimalOf n' r l q1 q2 q3 j / 1000 % 10 = q1 ∧ decimalOf n' r l q1 q2 q3 j / 100 % 10 = q2 ∧
    decimalOf n' r l q1 q2 q3 j / 10 % 10 = q3 ∧
    decimalOf n' r l q1 q2 q3 j / 10000000 = (if 9 < j then j - 9 else 0) ∧
    decimalOf n' r l q1 q2 q3 j % 10 = (if 9 < j then 9 else j) := by
  unfold decimalOf
  have b1 : (if 9 < j then j - 9 else 0) < 10 := by split <;> omega
  have b2 : (if 9 < j then 9 else j) < 10 := by split <;> omega
  generalize (if 9 < j then j - 9 else 0) = x at *
  generalize (if 9 < j then 9 else j) = y at *
  refine ⟨?_, ?_, ?_, ?_, ?_, ?_, ?_, ?_⟩ <;> omega

theorem three (M : Nat) : 100 * (M / 100 % 10) + 10 * (M / 10 % 10) + M % 10 = M % 1000 := by omega

theorem nucleus_digits {l z a i N : Nat} (hl : l ≤ 9) (hz : z ≤ 999) (ha : a ≤ 999) (hi : i ≤ 9)
    (hN : i + 10 * a + 10000 * z + 10000000 * l + 1000000000 = N) :
    N / 10000000 % 10 = l ∧
    (100 * (N / 1000000 % 10) + 10 * (N / 100000 % 10) + N / 10000 % 10) % 1024 = z ∧
    (100 * (N / 1000 % 10) + 10 * (N / 100 % 10) + N / 10 % 10) % 1024 = a ∧ N % 10 = i := by
  refine ⟨by omega, ?_, ?_, by omega⟩
  · have := three (N / 10000)
    rw [Nat.div_div_eq_div_mul, Nat.div_div_eq_div_mul] at this
    have e : N / 10000 % 1000 = z := by clear this; omega
    rw [this, e]; clear this; exact Nat.mod_eq_of_lt (by omega)
  · have := three (N / 10)
    rw [Nat.div_div_eq_div_mul, Nat.div_div_eq_div_mul] at this
    have e : N / 10 % 1000 = a := by clear this; omega
    rw [this, e]; clear this; exact Nat.mod_eq_of_lt (by omega)

theorem decimalOf_lt {n' r l q1 q2 q3 j : Nat} (hn : n' ≤ 9) (hr : r ≤ 9) (hl : l ≤ 9)
    (h1 : q1 ≤ 6) (h2 : q2 ≤ 6) (h3 : q3 ≤ 6) (hj : j < 16) :
    decimalOf n' r l q1 q2 q3 j < 100000000 ∧ decimalOf n' r l q1 q2 q3 j ≠ 10000000 := by
  unfold decimalOf
  by_cases h : 9 < j
  · simp only [if_pos h]; omega
  · simp only [if_neg h]; omega

theorem decimalOf_pos {n' r l q1 q2 q3 j : Nat} (h0 : decimalOf n' r l q1 q2 q3 j = 0) :
    n' = 0 ∧ r = 0 ∧ l = 0 ∧ q1 = 0 ∧ q2 = 0 ∧ q3 = 0 ∧ j = 0 := by
  unfold decimalOf at h0
  by_cases h : 9 < j
  · simp only [if_pos h] at h0; omega
  · simp only [if_neg h] at h0; omega

theorem sign_abs {s N : Nat} (hs : s < 2) (hpos : s = 1 → 0 < N) :
    (if (if s = 1 then (-1 : Int) else 1) * (N : Nat) < 0 then 1 else 0) = s ∧
    ((if s = 1 then (-1 : Int) else 1) * (N : Nat)).natAbs = N := by
  by_cases h : s = 1
  · have := hpos h
    simp only [if_pos h]
    exact ⟨by rw [if_pos (by omega)]; exact h.symm, by omega⟩
  · simp only [if_neg h]
    exact ⟨by rw [if_neg (by omega)]; omega, by omega⟩

theorem printable_round {d : Nat} (h : Printable d) : ofString (string d) = .ok d := by
  unfold string
  rw [ofString_toStr]
  rcases h with ⟨s, n', r, l, q1, q2, q3, j, hs, hn, hr, hl, h1, h2, h3, hj, rfl, hc⟩ |
    ⟨s, l, z, a, i, hs, hl, hz, ha, hi, rfl⟩
  · rw [getDecimal_mk hs (by omega) (by omega) (by omega) (by omega) (by omega) (by omega) hj]
    have hN := (decimalOf_lt hn hr hl h1 h2 h3 hj).1
    have hpos : s = 1 → 0 < decimalOf n' r l q1 q2 q3 j := by
      rintro rfl
      rw [Nat.pos_iff_ne_zero]
      intro h0
      obtain ⟨rfl, rfl, rfl, rfl, rfl, rfl, rfl⟩ := decimalOf_pos h0
      rw [check_neg_zero] at hc; cases hc
    obtain ⟨hsg, hab⟩ := sign_abs hs hpos
    rw [hsg, hab, parse_dec hs hN, core_ok]
    have e : mk s (decimalOf n' r l q1 q2 q3 j / 1000000 % 10)
        (decimalOf n' r l q1 q2 q3 j / 100000 % 10) (decimalOf n' r l q1 q2 q3 j / 10000 % 10)
        (decimalOf n' r l q1 q2 q3 j / 1000 % 10) (decimalOf n' r l q1 q2 q3 j / 100 % 10)
        (decimalOf n' r l q1 q2 q3 j / 10 % 10)
        ((decimalOf n' r l q1 q2 q3 j / 10000000 + decimalOf n' r l q1 q2 q3 j % 10) % 16) =
        mk s n' r l q1 q2 q3 j := by
      obtain ⟨g1, g2, g3, g4, g5, g6, g7, g8⟩ := decimalOf_digits hn hr hl h1 h2 h3 hj
      rw [g1, g2, g3, g4, g5, g6]
      exact mk_congr rfl rfl rfl rfl rfl rfl (by rw [g7, g8]; split <;> omega)
    rw [e]
    obtain ⟨g1, g2, g3, g4, g5, g6, g7, g8⟩ := decimalOf_digits hn hr hl h1 h2 h3 hj
    rw [g4, g5, g6]
    exact ⟨h1, h2, h3, hc, rfl⟩
  · rw [getDecimal_mkNuc hs (by omega) (by omega) (by omega) (by omega)]
    generalize hN : i + 10 * a + 10000 * z + 10000000 * l + 1000000000 = N
    obtain ⟨hsg, hab⟩ := sign_abs (N := N) hs (by omega)
    rw [hsg, hab, toDigits_nucleus (by omega) (by omega)]
    have dm (M : Nat) : digit (M % 10).digitChar = .ok (M % 10) := digit_digitChar (by omega)
    rw [nucleus_eq hs (dm _) (dm _) (dm _) (dm _) (dm _) (dm _) (dm _) (dm _)]
    obtain ⟨e1, e2, e3, e4⟩ := nucleus_digits hl hz ha hi hN
    rw [e1, e2, e3, e4]

/-! ### from_decimal -/

theorem toHex_eq {N : Nat} (h : N < 10000000) :
    toHex 10 N = mk 0 (N / 1000000 % 10) (N / 100000 % 10) (N / 10000 % 10) (N / 1000 % 10)
      (N / 100 % 10) (N / 10 % 10) (N % 10) := by
  simp only [toHex, mk]; omega

theorem setFields_core {s N : Nat} {b : Bool} (hs : s = if b then 1 else 0) (h : N < 10000000) :
    setFields b (mk 0 (N / 1000000 % 10) (N / 100000 % 10) (N / 10000 % 10) (N / 1000 % 10)
      (N / 100 % 10) (N / 10 % 10) (N % 10)) =
    core s (N / 10000000) (N / 1000000 % 10) (N / 100000 % 10) (N / 10000 % 10)
        (N / 1000 % 10) (N / 100 % 10) (N / 10 % 10) (N % 10) := by
  generalize e1 : N / 1000000 % 10 = x1
  generalize e2 : N / 100000 % 10 = x2
  generalize e3 : N / 10000 % 10 = x3
  generalize e4 : N / 1000 % 10 = x4
  generalize e5 : N / 100 % 10 = x5
  generalize e6 : N / 10 % 10 = x6
  generalize e7 : N % 10 = x7
  generalize e0 : N / 10000000 = x0
  have b1 : x1 < 10 := by omega
  have b2 : x2 < 10 := by omega
  have b3 : x3 < 10 := by omega
  have b4 : x4 < 10 := by omega
  have b5 : x5 < 10 := by omega
  have b6 : x6 < 10 := by omega
  have b7 : x7 < 10 := by omega
  have b0 : x0 = 0 := by omega
  clear e1 e2 e3 e4 e5 e6 e7 e0
  have hs2 : s < 2 := by rw [hs]; split <;> omega
  unfold setFields core
  rw [setFields_word]
  have w : mk (if b then 1 else 0) (mk 0 x1 x2 x3 x4 x5 x6 x7 / 16777216 % 16)
      (mk 0 x1 x2 x3 x4 x5 x6 x7 / 1048576 % 16) (mk 0 x1 x2 x3 x4 x5 x6 x7 / 65536 % 16)
      (mk 0 x1 x2 x3 x4 x5 x6 x7 / 4096 % 16) (mk 0 x1 x2 x3 x4 x5 x6 x7 / 256 % 16)
      (mk 0 x1 x2 x3 x4 x5 x6 x7 / 16 % 16) (mk 0 x1 x2 x3 x4 x5 x6 x7 % 16) =
      mk s x1 x2 x3 x4 x5 x6 ((x0 + x7) % 16) := by
    rw [hs]
    have g1 : mk 0 x1 x2 x3 x4 x5 x6 x7 / 16777216 % 16 = x1 := by simp only [mk]; omega
    have g2 : mk 0 x1 x2 x3 x4 x5 x6 x7 / 1048576 % 16 = x2 := by simp only [mk]; omega
    have g3 : mk 0 x1 x2 x3 x4 x5 x6 x7 / 65536 % 16 = x3 := by simp only [mk]; omega
    have g4 : mk 0 x1 x2 x3 x4 x5 x6 x7 / 4096 % 16 = x4 := by simp only [mk]; omega
    have g5 : mk 0 x1 x2 x3 x4 x5 x6 x7 / 256 % 16 = x5 := by simp only [mk]; omega
    have g6 : mk 0 x1 x2 x3 x4 x5 x6 x7 / 16 % 16 = x6 := by simp only [mk]; omega
    have g7 : mk 0 x1 x2 x3 x4 x5 x6 x7 % 16 = (x0 + x7) % 16 := by simp only [mk]; omega
    rw [g1, g2, g3, g4, g5, g6, g7]
  rw [w]
  have ht := testCode_mk (s := s) (n' := x1) (r := x2) (l := x3) (q1 := x4) (q2 := x5) (q3 := x6)
    (j := (x0 + x7) % 16) (by omega) (by omega) (by omega) (by omega) (by omega) (by omega)
    (by omega) (by omega)
  generalize mk s x1 x2 x3 x4 x5 x6 ((x0 + x7) % 16) = y at ht ⊢
  simp only
  by_cases hq : 6 < x4 ∨ 6 < x5 ∨ 6 < x6
  · rw [if_pos hq, if_pos]
    by_contra hf
    have := ht.1 (by simpa using hf)
    omega
  · rw [if_neg hq, if_neg]
    rw [ht.2 ⟨by omega, by omega, by omega, by omega, by omega, by omega⟩]
    simp

/-- `from_decimal` and the string constructor agree on every `int` but three. -/
theorem fromDecimal_eq {x : Int} (h1 : x.natAbs ≠ 10000000) (h2 : x ≠ -2 ^ 31) :
    fromDecimal x = ofString (toStr x) := by
  unfold fromDecimal
  rw [if_neg h2]
  by_cases h : 10000000 < x.natAbs
  · rw [if_pos h]
  · rw [if_neg h, ofString_toStr, parse_dec (by split <;> omega) (by omega), toHex_eq (by omega)]
    generalize hN : x.natAbs = N
    have hlt : N < 10000000 := by omega
    have hpos : 0 < N → 0 < mk 0 (N / 1000000 % 10) (N / 100000 % 10) (N / 10000 % 10)
        (N / 1000 % 10) (N / 100 % 10) (N / 10 % 10) (N % 10) := by
      intro hp; simp only [mk]; omega
    have hb : mk 0 (N / 1000000 % 10) (N / 100000 % 10) (N / 10000 % 10) (N / 1000 % 10)
      (N / 100 % 10) (N / 10 % 10) (N % 10) < 268435456 := by simp only [mk]; omega
    by_cases hx : x < 0
    · rw [if_pos hx, ← setFields_core (b := true) (by simp) hlt, Int.sign_eq_neg_one_of_neg hx]
      generalize mk 0 (N / 1000000 % 10) (N / 100000 % 10) (N / 10000 % 10) (N / 1000 % 10)
        (N / 100 % 10) (N / 10 % 10) (N % 10) = w at hpos hb ⊢
      have := hpos (by omega)
      unfold ofInt
      rw [if_pos (by omega), if_neg (by omega)]
      congr 1; omega
    · rw [if_neg hx, ← setFields_core (b := false) (by simp) hlt]
      have hz : x = 0 → mk 0 (N / 1000000 % 10) (N / 100000 % 10) (N / 10000 % 10) (N / 1000 % 10)
        (N / 100 % 10) (N / 10 % 10) (N % 10) = 0 := by
        intro h; simp only [mk]; omega
      generalize mk 0 (N / 1000000 % 10) (N / 100000 % 10) (N / 10000 % 10) (N / 1000 % 10)
        (N / 100 % 10) (N / 10 % 10) (N % 10) = w at hpos hb hz ⊢
      unfold ofInt
      have e : x.sign * (w : Int) = w := by
        by_cases h0 : x = 0
        · rw [hz h0]; simp
        · rw [Int.sign_eq_one_of_pos (by omega)]; omega
      rw [e, if_neg (by omega)]
      simp

theorem getDecimal_range {d : Nat} (h : Printable d) :
    (getDecimal d).natAbs ≠ 10000000 ∧ getDecimal d ≠ -2 ^ 31 := by
  rcases h with ⟨s, n', r, l, q1, q2, q3, j, hs, hn, hr, hl, h1, h2, h3, hj, rfl, hc⟩ |
    ⟨s, l, z, a, i, hs, hl, hz, ha, hi, rfl⟩
  · rw [getDecimal_mk hs (by omega) (by omega) (by omega) (by omega) (by omega) (by omega) hj]
    obtain ⟨hN, hN2⟩ := decimalOf_lt hn hr hl h1 h2 h3 hj
    generalize decimalOf n' r l q1 q2 q3 j = N at *
    constructor <;> split <;> omega
  · rw [getDecimal_mkNuc hs (by omega) (by omega) (by omega) (by omega)]
    constructor <;> split <;> omega

theorem printable_decimal {d : Nat} (h : Printable d) : fromDecimal (getDecimal d) = .ok d := by
  obtain ⟨h1, h2⟩ := getDecimal_range h
  rw [fromDecimal_eq h1 h2]
  exact printable_round h

/-! ### C14 -/

/-- **C14.** A code built from an integer is recovered from its printed form and from its
decimal number. -/
theorem C14_round_trip_int {c : Int} {d : Nat} (h : ofInt c = .ok d) :
    ofString (string d) = .ok d ∧ fromDecimal (getDecimal d) = .ok d :=
  ⟨printable_round (ofInt_printable h), printable_decimal (ofInt_printable h)⟩

/-- **C14**, constructor from `uint32_t`. -/
theorem C14_round_trip_uint {c d : Nat} (h : ofUInt c = .ok d) :
    ofString (string d) = .ok d ∧ fromDecimal (getDecimal d) = .ok d :=
  ⟨printable_round (setFields_printable h), printable_decimal (setFields_printable h)⟩

/-- **C14**, for codes read from a string of decimal digits (hadrons, leptons and nuclei).
Missing: strings with hexadecimal digits, for which it is false (`C14_hex_collision`,
`C14_hex_unreadable`). -/
theorem C14_round_trip_string_partial {s : List Char} {d : Nat} (hs : DecimalString s)
    (h : ofString s = .ok d) :
    ofString (string d) = .ok d ∧ fromDecimal (getDecimal d) = .ok d :=
  ⟨printable_round (ofString_printable hs h), printable_decimal (ofString_printable hs h)⟩

/-- **C14.** Distinct codes print differently. -/
theorem C14_distinct_partial {s t : List Char} {d e : Nat} (hs : DecimalString s)
    (ht : DecimalString t) (h : ofString s = .ok d) (h' : ofString t = .ok e)
    (hp : string d = string e ∨ getDecimal d = getDecimal e) : d = e := by
  have hp : string d = string e := hp.elim id fun h => by unfold string; rw [h]
  have h1 := (C14_round_trip_string_partial hs h).1
  have h2 := (C14_round_trip_string_partial ht h').1
  rw [hp, h2] at h1
  exact (Except.ok.inj h1).symm

/-- **C14.** `from_decimal` reads what the string constructor reads, except at ±10^7 and the
smallest `int`. -/
theorem C14_parsers_agree_partial (x : Int) (h1 : x.natAbs ≠ 10000000) (h2 : x ≠ -2 ^ 31) :
    fromDecimal x = ofString (toStr x) := fromDecimal_eq h1 h2

/-- Two different accepted codes that print the same. -/
theorem C14_hex_collision : ∃ d e, ofString "a00111".toList = .ok d ∧
    ofString "1000111".toList = .ok e ∧ d ≠ e ∧ string d = string e :=
  ⟨0xa00111, 0x1000111, by decide +kernel, by decide +kernel, by decide, by decide +kernel⟩

/-- An accepted code whose printed form is rejected. -/
theorem C14_hex_unreadable : ∃ d, ofString "a000111".toList = .ok d ∧
    ofString (string d) = .error .invalidPdgCode :=
  ⟨0xa000111, by decide +kernel, by decide +kernel⟩

example : ofString "-10003122".toList = .error .invalidPdgCode ∧
    ofString "10002210".toList = .error .invalidPdgCode := by decide +kernel
example : ofInt (-0x9903122) = .ok 0x89903122 ∧ string 0x89903122 = "-9903122".toList := by
  decide +kernel
/-- A nucleus, and a hadron of high spin that needs eight digits. -/
example : (do let d ← ofString "-1010020040".toList; return string d) =
      .ok "-1010020040".toList ∧
    (do let d ← ofString "19903129".toList; return (nJ d, string d)) =
      .ok (10, "19903129".toList) := by decide +kernel
example : DecimalString "-1010020040".toList := by unfold DecimalString; decide

/-! ### C17 -/

/-- **C17.** Every accepted string is an optional sign followed by one to eight digits, or by
ten digits of which the first two are 10. -/
theorem C17_accepts_only_numbers {s : List Char} {d : Nat} (h : ofString s = .ok d) :
    ∃ sign digits, s = sign ++ digits ∧ (sign = [] ∨ sign = ['+'] ∨ sign = ['-']) ∧
      (∀ c ∈ digits, IsHex c) ∧
      ((1 ≤ digits.length ∧ digits.length ≤ 8) ∨
        (digits.length = 10 ∧ ∃ rest, digits = '1' :: '0' :: rest)) := by
  obtain ⟨sg, cs, h, hs⟩ := ofString_split h
  have hx : (∀ c ∈ cs, IsHex c) ∧ ((1 ≤ cs.length ∧ cs.length ≤ 8) ∨
        (cs.length = 10 ∧ ∃ rest, cs = '1' :: '0' :: rest)) := by
    unfold afterSign at h
    split_ifs at h with h10
    · obtain ⟨ds, rfl, _, hx⟩ := nucleusFromString_hex h10 h
      refine ⟨?_, .inr ⟨h10, ds, rfl⟩⟩
      intro c hc
      simp only [List.mem_cons] at hc
      rcases hc with rfl | rfl | hc
      · unfold IsHex; decide
      · unfold IsHex; decide
      · exact hx c hc
    · obtain ⟨h0, h8, hx⟩ := digitsFromString_hex h
      exact ⟨hx, .inl ⟨h0, h8⟩⟩
  rcases hs with ⟨rfl, _⟩ | ⟨rfl, _⟩ | ⟨rfl, _⟩
  · exact ⟨[], s, rfl, .inl rfl, hx.1, hx.2⟩
  · exact ⟨['+'], cs, rfl, .inr (.inl rfl), hx.1, hx.2⟩
  · exact ⟨['-'], cs, rfl, .inr (.inr rfl), hx.1, hx.2⟩

theorem core_value {s n' r l q1 q2 q3 j d : Nat} (hs : s < 2) (hn : n' ≤ 9) (hr : r ≤ 9)
    (hl : l ≤ 9) (hj : j ≤ 9) (h : core s 0 n' r l q1 q2 q3 j = .ok d) :
    getDecimal d = (if s = 1 then -1 else 1) *
      ((j + q3 * 10 + q2 * 100 + q1 * 1000 + l * 10000 + r * 100000 + n' * 1000000 : Nat) : Int) := by
  obtain ⟨h1, h2, h3, h4, rfl⟩ := core_ok.1 h
  rw [getDecimal_mk hs (by omega) (by omega) (by omega) (by omega) (by omega) (by omega) (by omega)]
  have : (0 + j) % 16 = j := by omega
  rw [this]
  simp only [decimalOf, if_neg (show ¬ 9 < j by omega)]
  simp

/-- **C17.** A string of at most seven decimal digits, or of ten, is never turned into
another particle: the code it yields has exactly the number in the string. Missing: eight
digits and hexadecimal digits, where the code can wrap around (`C17_wraps`,
`C17_nucleus_wraps`). -/
theorem C17_same_number_partial {sign digits : List Char} {d : Nat}
    (hsign : sign = [] ∨ sign = ['+'] ∨ sign = ['-']) (hd : ∀ c ∈ digits, c.isDigit = true)
    (hlen : digits.length ≠ 8) (h : ofString (sign ++ digits) = .ok d) :
    getDecimal d = (if sign = ['-'] then -1 else 1) * (Nat.ofDigitChars 10 digits 0 : Nat) := by
  have key : ∃ sg, sg < 2 ∧ afterSign (sgnWord sg) digits = .ok d ∧
      (if sg = 1 then (-1 : Int) else 1) = (if sign = ['-'] then -1 else 1) := by
    rcases hsign with rfl | rfl | rfl
    · cases digits with
      | nil => simp [ofString] at h
      | cons c cs =>
        have hc := hd c (by simp)
        have h1 : c ≠ '-' := by rintro rfl; simp at hc
        have h2 : c ≠ '+' := by rintro rfl; simp at hc
        simp only [List.nil_append] at h
        rw [ofString_cons h1 h2] at h
        exact ⟨0, by omega, h, by simp⟩
    · exact ⟨0, by omega, h, by simp⟩
    · exact ⟨1, by omega, h, by simp⟩
  obtain ⟨sg, hs, h, e⟩ := key
  rw [← e]
  have b {c : Char} (hc : c ∈ digits) : c.toNat - 48 ≤ 9 := by
    have := isDigit_bounds (hd c hc); omega
  by_cases h10 : digits.length = 10
  · have h' := h
    unfold afterSign at h'
    rw [if_pos h10] at h'
    obtain ⟨ds, rfl, hl, hx⟩ := nucleusFromString_hex h10 h'
    match ds, hl with
    | [x0, x1, x2, x3, x4, x5, x6, x7], _ =>
      have dg {c : Char} (hc : c ∈ ['1', '0', x0, x1, x2, x3, x4, x5, x6, x7]) := digit_dec (hd c hc)
      rw [nucleus_eq hs (dg (c := x0) (by simp)) (dg (c := x1) (by simp)) (dg (c := x2) (by simp))
        (dg (c := x3) (by simp)) (dg (c := x4) (by simp)) (dg (c := x5) (by simp))
        (dg (c := x6) (by simp)) (dg (c := x7) (by simp))] at h
      have b0 := b (c := x0) (by simp)
      have b1 := b (c := x1) (by simp)
      have b2 := b (c := x2) (by simp)
      have b3 := b (c := x3) (by simp)
      have b4 := b (c := x4) (by simp)
      have b5 := b (c := x5) (by simp)
      have b6 := b (c := x6) (by simp)
      have b7 := b (c := x7) (by simp)
      injection h with h
      subst h
      rw [Nat.mod_eq_of_lt (by omega), Nat.mod_eq_of_lt (by omega),
        getDecimal_mkNuc hs (by omega) (by omega) (by omega) (by omega)]
      congr 2
      simp only [Nat.ofDigitChars_cons, Nat.ofDigitChars_nil, Char.reduceToNat]
      omega
  · unfold afterSign at h
    rw [if_neg h10] at h
    obtain ⟨h0, h8, _⟩ := digitsFromString_hex h
    rw [digitsFromString_eq hs (forall_dec hd) h8 h0] at h
    match digits, h8, h0 with
    | [_], _, _ =>
      rw [core_value hs (by omega) (by omega) (by omega) (b (by simp)) h]
      congr 2; simp only [Nat.ofDigitChars_cons, Nat.ofDigitChars_nil, Char.reduceToNat]; omega
    | [_, _], _, _ =>
      rw [core_value hs (by omega) (by omega) (by omega) (b (by simp)) h]
      congr 2; simp only [Nat.ofDigitChars_cons, Nat.ofDigitChars_nil, Char.reduceToNat]; omega
    | [_, _, _], _, _ =>
      rw [core_value hs (by omega) (by omega) (by omega) (b (by simp)) h]
      congr 2; simp only [Nat.ofDigitChars_cons, Nat.ofDigitChars_nil, Char.reduceToNat]; omega
    | [_, _, _, _], _, _ =>
      rw [core_value hs (by omega) (by omega) (by omega) (b (by simp)) h]
      congr 2; simp only [Nat.ofDigitChars_cons, Nat.ofDigitChars_nil, Char.reduceToNat]; omega
    | [_, _, _, _, _], _, _ =>
      rw [core_value hs (by omega) (by omega) (b (by simp)) (b (by simp)) h]
      congr 2; simp only [Nat.ofDigitChars_cons, Nat.ofDigitChars_nil, Char.reduceToNat]; omega
    | [_, _, _, _, _, _], _, _ =>
      rw [core_value hs (by omega) (b (by simp)) (b (by simp)) (b (by simp)) h]
      congr 2; simp only [Nat.ofDigitChars_cons, Nat.ofDigitChars_nil, Char.reduceToNat]; omega
    | [_, _, _, _, _, _, _], _, _ =>
      rw [core_value hs (b (by simp)) (b (by simp)) (b (by simp)) (b (by simp)) h]
      congr 2; simp only [Nat.ofDigitChars_cons, Nat.ofDigitChars_nil, Char.reduceToNat]; omega
    | [_, _, _, _, _, _, _, _], _, _ => simp at hlen
    | _ :: _ :: _ :: _ :: _ :: _ :: _ :: _ :: _ :: _, h8, _ => simp at h8

/-- The eight-digit string 90002219 is accepted and is the proton. -/
theorem C17_wraps : ofString "90002219".toList = .ok 0x2212 ∧
    ofString "2212".toList = .ok 0x2212 := by decide +kernel

/-- The nucleus string 100A240010 (charge digits A24 = 1024) is accepted and is a neutron
"nucleus" without charge. -/
theorem C17_nucleus_wraps : ofString "100A240010".toList = ofString "1000000010".toList := by
  decide +kernel

/-- `from_decimal(10000000)` yields the invalid code 0 without an exception. -/
theorem C17_from_decimal_boundary :
    fromDecimal 10000000 = .ok 0 ∧ ofString (toStr 10000000) = .ok 1 := by decide +kernel

example : ofString "+2212".toList = .ok 0x2212 ∧ ofString "22x2".toList = .error .invalidPdgCode ∧
    ofString "-".toList = .error .invalidPdgCode ∧ ofString "123456789".toList = .error .invalidPdgCode
    ∧ ofString "7212".toList = .error .invalidPdgCode := by decide +kernel

end Verif.Pdg
