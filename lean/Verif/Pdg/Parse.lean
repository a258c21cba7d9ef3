import Verif.Pdg.Lemmas
import Mathlib.Data.List.Forall2
/-! What the parser accepts and what a printed code looks like. -/
set_option linter.unusedSectionVars false
set_option linter.unusedSimpArgs false
set_option linter.unusedVariables false
namespace Verif.Pdg

/-! ### Accepted strings consist of digits -/

/-- A character `get_digit_from_char` accepts. -/
def IsHex (c : Char) : Prop :=
  (48 ≤ c.toNat ∧ c.toNat ≤ 57) ∨ (65 ≤ c.toNat ∧ c.toNat ≤ 70) ∨ (97 ≤ c.toNat ∧ c.toNat ≤ 102)

theorem digit_ok_iff (c : Char) : (∃ v, digit c = .ok v) ↔ IsHex c := by
  unfold digit IsHex
  split_ifs <;> simp <;> omega

/-- `k` characters have been consumed, all of them digits. -/
def Eaten (s : List Char) (k : Nat) (st : Nat × List Char) : Prop :=
  ∃ pre, s = pre ++ st.2 ∧ pre.length = k ∧ ∀ c ∈ pre, IsHex c

theorem next_inv {l : List Char} {v : Nat} (h : next l = .ok v) :
    ∃ c cs, l = c :: cs ∧ digit c = .ok v := by
  cases l with
  | nil => simp [next, digit] at h
  | cons c cs => exact ⟨c, cs, rfl, by simpa [next] using h⟩

theorem eat {s : List Char} {k : Nat} {st : Nat × List Char} {v : Nat} {w : Nat}
    (h : Eaten s k st) (hv : next st.2 = .ok v) : Eaten s (k + 1) (w, st.2.tail) := by
  obtain ⟨pre, e, hl, hx⟩ := h
  obtain ⟨c, cs, e2, hc⟩ := next_inv hv
  refine ⟨pre ++ [c], by simp [e, e2], by simp [hl], ?_⟩
  intro x hxm
  rcases List.mem_append.1 hxm with h | h
  · exact hx _ h
  · simp only [List.mem_singleton] at h; subst h
    exact (digit_ok_iff _).1 ⟨v, hc⟩

theorem eaten_addJ {s : List Char} {k : Nat} {st st' : Nat × List Char} (h : Eaten s k st)
    (e : addJ st = .ok st') : Eaten s (k + 1) st' := by
  simp only [addJ, bind_ok] at e
  obtain ⟨v, hv, e⟩ := e
  simp only [pure, Except.pure, Except.ok.injEq] at e
  subst e; exact eat h hv

theorem eaten_addJIf {s : List Char} {k : Nat} {st st' : Nat × List Char} {b : Bool}
    (h : Eaten s k st) (e : addJIf b st = .ok st') : Eaten s (k + b.toNat) st' := by
  cases b with
  | false => injection e with e; subst e; simpa using h
  | true => exact eaten_addJ h e

theorem eaten_field {s : List Char} {k lo lim : Nat} {st st' : Nat × List Char} {b : Bool}
    (h : Eaten s k st) (e : field b lo lim st = .ok st') : Eaten s (k + b.toNat) st' := by
  cases b with
  | false => injection e with e; subst e; simpa using h
  | true =>
    simp only [field, if_true, bind_ok] at e
    obtain ⟨v, hv, e⟩ := e
    split_ifs at e
    simp only [pure, Except.pure, Except.ok.injEq] at e
    subst e; exact eat h hv

theorem digitsFromString_hex {d e : Nat} {s : List Char} (h : digitsFromString d s = .ok e) :
    0 < s.length ∧ s.length ≤ 8 ∧ ∀ c ∈ s, IsHex c := by
  unfold digitsFromString at h
  simp only at h
  split_ifs at h with h8 h0
  case neg => simp only [bind_ok] at h; obtain ⟨_, _, _, _, _, _, _, _, _, _, _, _, _, _, h⟩ := h; cases h
  simp only [bind_ok] at h
  obtain ⟨s0, e0, s1, e1, s2, e2, s3, e3, s4, e4, s5, e5, s6, e6, h⟩ := h
  obtain ⟨s7, e7, _⟩ := h
  have p0 : Eaten s 0 (d, s) := ⟨[], rfl, rfl, by simp⟩
  have p := eaten_addJ (eaten_field (eaten_field (eaten_field (eaten_field (eaten_field
    (eaten_field (eaten_addJIf p0 e0) e1) e2) e3) e4) e5) e6) e7
  obtain ⟨pre, ep, hl, hx⟩ := p
  have hlen : pre.length = s.length := by
    rw [hl]
    have hs8 : s.length ≤ 8 := by omega
    generalize s.length = len at hs8 h0 ⊢
    interval_cases len <;> first | omega | rfl
  have : s7.2 = [] := by
    have := congrArg List.length ep
    simp only [List.length_append] at this
    exact List.length_eq_zero_iff.1 (by omega)
  rw [this, List.append_nil] at ep
  exact ⟨h0, by omega, fun c hc => hx c (ep ▸ hc)⟩

theorem mapM_digit {l : List Char} {g : List Nat} (h : l.mapM digit = .ok g) :
    List.Forall₂ (fun c v => digit c = .ok v) l g := by
  induction l generalizing g with
  | nil => simp [pure, Except.pure] at h; subst h; exact .nil
  | cons c cs ih =>
    simp only [List.mapM_cons, bind_ok] at h
    obtain ⟨v, hv, gs, hg, h⟩ := h
    simp only [pure, Except.pure, Except.ok.injEq] at h
    subst h
    exact .cons hv (ih hg)

theorem nucleusFromString_hex {d e : Nat} {s : List Char} (hl : s.length = 10)
    (h : nucleusFromString d s = .ok e) :
    ∃ ds, s = '1' :: '0' :: ds ∧ ds.length = 8 ∧ ∀ c ∈ ds, IsHex c := by
  match s, hl with
  | a :: b :: ds, hl =>
    unfold nucleusFromString at h
    simp only [List.head?_cons, List.tail_cons, ne_eq, Option.some.injEq] at h
    split_ifs at h with hab
    push Not at hab
    simp only [List.drop_succ_cons, List.drop_zero, bind_ok] at h
    obtain ⟨g, hg, _⟩ := h
    refine ⟨ds, by rw [hab.1, hab.2], by simpa using hl, ?_⟩
    have := mapM_digit hg
    intro c hc
    obtain ⟨i, hi, rfl⟩ := List.getElem_of_mem hc
    have hi' : i < g.length := this.length_eq ▸ hi
    exact (digit_ok_iff _).1 ⟨g[i], (List.forall₂_iff_get.1 this).2 i hi hi'⟩

theorem ofString_cons {c : Char} {cs : List Char} (h1 : c ≠ '-') (h2 : c ≠ '+') :
    ofString (c :: cs) = afterSign (sgnWord 0) (c :: cs) := by
  unfold ofString
  split <;> simp_all [sgnWord]

theorem ofString_minus (cs : List Char) : ofString ('-' :: cs) = afterSign (sgnWord 1) cs := rfl
theorem ofString_plus (cs : List Char) : ofString ('+' :: cs) = afterSign (sgnWord 0) cs := rfl

/-- Every accepted string is an optional sign followed by digits. -/
theorem ofString_split {s : List Char} {d : Nat} (h : ofString s = .ok d) :
    ∃ sg cs, afterSign (sgnWord sg) cs = .ok d ∧
      ((s = cs ∧ sg = 0) ∨ (s = '+' :: cs ∧ sg = 0) ∨ (s = '-' :: cs ∧ sg = 1)) := by
  match s with
  | [] => simp [ofString] at h
  | c :: cs =>
    by_cases h1 : c = '-'
    · subst h1; exact ⟨1, cs, h, .inr (.inr ⟨rfl, rfl⟩)⟩
    by_cases h2 : c = '+'
    · subst h2; exact ⟨0, cs, h, .inr (.inl ⟨rfl, rfl⟩)⟩
    · rw [ofString_cons h1 h2] at h
      exact ⟨0, c :: cs, h, .inl ⟨rfl, rfl⟩⟩

/-! ### The value of a digit string -/

/-- Read up to eight digit values as one code, as `digitsFromString` does. -/
def coreList (s : Nat) : List Nat → Except Err Nat
  | [j] => core s 0 0 0 0 0 0 0 j
  | [q3, j] => core s 0 0 0 0 0 0 q3 j
  | [q2, q3, j] => core s 0 0 0 0 0 q2 q3 j
  | [q1, q2, q3, j] => core s 0 0 0 0 q1 q2 q3 j
  | [l, q1, q2, q3, j] => core s 0 0 0 l q1 q2 q3 j
  | [r, l, q1, q2, q3, j] => core s 0 0 r l q1 q2 q3 j
  | [n, r, l, q1, q2, q3, j] => core s 0 n r l q1 q2 q3 j
  | [a, n, r, l, q1, q2, q3, j] => core s a n r l q1 q2 q3 j
  | _ => .error .invalidPdgCode

theorem digitsFromString_eq {s : Nat} (hs : s < 2) {cs : List Char} {vs : List Nat}
    (h : List.Forall₂ (fun c v => digit c = .ok v) cs vs) (h8 : cs.length ≤ 8)
    (h0 : 0 < cs.length) : digitsFromString (sgnWord s) cs = coreList s vs := by
  cases h with
  | nil => simp at h0
  | cons x1 h => cases h with
  | nil => exact parse1 hs x1
  | cons x2 h => cases h with
  | nil => exact parse2 hs x1 x2
  | cons x3 h => cases h with
  | nil => exact parse3 hs x1 x2 x3
  | cons x4 h => cases h with
  | nil => exact parse4 hs x1 x2 x3 x4
  | cons x5 h => cases h with
  | nil => exact parse5 hs x1 x2 x3 x4 x5
  | cons x6 h => cases h with
  | nil => exact parse6 hs x1 x2 x3 x4 x5 x6
  | cons x7 h => cases h with
  | nil => exact parse7 hs x1 x2 x3 x4 x5 x6 x7
  | cons x8 h => cases h with
  | nil => exact parse8 hs x1 x2 x3 x4 x5 x6 x7 x8
  | cons x9 h => simp at h8

theorem forall_digit {cs : List Char} (h : ∀ c ∈ cs, IsHex c) :
    ∃ vs, List.Forall₂ (fun c v => digit c = .ok v) cs vs := by
  induction cs with
  | nil => exact ⟨[], .nil⟩
  | cons c cs ih =>
    obtain ⟨v, hv⟩ := (digit_ok_iff c).2 (h c (by simp))
    obtain ⟨vs, hvs⟩ := ih fun x hx => h x (by simp [hx])
    exact ⟨v :: vs, .cons hv hvs⟩

theorem core_ok {s a n' r l q1 q2 q3 j d : Nat} :
    core s a n' r l q1 q2 q3 j = .ok d ↔
      q1 ≤ 6 ∧ q2 ≤ 6 ∧ q3 ≤ 6 ∧ check (mk s n' r l q1 q2 q3 ((a + j) % 16)) = .ok () ∧
        d = mk s n' r l q1 q2 q3 ((a + j) % 16) := by
  unfold core
  by_cases h : 6 < q1 ∨ 6 < q2 ∨ 6 < q3
  · rw [if_pos h]
    constructor
    · intro h'; cases h'
    · rintro ⟨h1, h2, h3, _⟩; omega
  · rw [if_neg h]
    generalize mk s n' r l q1 q2 q3 ((a + j) % 16) = w
    simp only [bind_ok, pure, Except.pure, Except.ok.injEq]
    constructor
    · rintro ⟨_, h', rfl⟩
      exact ⟨by omega, by omega, by omega, h', rfl⟩
    · rintro ⟨_, _, _, h', rfl⟩
      exact ⟨(), h', rfl⟩

/-- The nucleus branch on ten digits. -/
theorem nucleus_eq {s : Nat} (hs : s < 2) {cl c1 c2 c3 c4 c5 c6 ci : Char}
    {vl v1 v2 v3 v4 v5 v6 vi : Nat} (hl : digit cl = .ok vl) (h1 : digit c1 = .ok v1)
    (h2 : digit c2 = .ok v2) (h3 : digit c3 = .ok v3) (h4 : digit c4 = .ok v4)
    (h5 : digit c5 = .ok v5) (h6 : digit c6 = .ok v6) (hi : digit ci = .ok vi) :
    afterSign (sgnWord s) ['1', '0', cl, c1, c2, c3, c4, c5, c6, ci] =
      .ok (mkNuc s vl ((100 * v1 + 10 * v2 + v3) % 1024) ((100 * v4 + 10 * v5 + v6) % 1024) vi) := by
  have := digit_lt hl
  have := digit_lt hi
  have e1 : setBits (sgnWord s) 30 1 1 = mkNuc s 0 0 0 0 := by
    simp only [setBits, bits, sgnWord, mkNuc]; omega
  have e2 : setBits (mkNuc s 0 0 0 0) 0 6 vl = mkNuc s vl 0 0 0 := by
    simp only [setBits, bits, mkNuc]; omega
  have e3 (z : Nat) : setBits (mkNuc s vl 0 0 0) 6 10 z = mkNuc s vl (z % 1024) 0 0 := by
    simp only [setBits, bits, mkNuc]; omega
  have e4 (z a : Nat) : setBits (mkNuc s vl (z % 1024) 0 0) 16 10 a =
      mkNuc s vl (z % 1024) (a % 1024) 0 := by
    simp only [setBits, bits, mkNuc]; omega
  have e5 (z a : Nat) : setBits (mkNuc s vl (z % 1024) (a % 1024) 0) 26 4 vi =
      mkNuc s vl (z % 1024) (a % 1024) vi := by
    simp only [setBits, bits, mkNuc]; omega
  unfold afterSign
  rw [if_pos (by rfl)]
  unfold nucleusFromString
  rw [e1]
  generalize mkNuc s 0 0 0 0 = w0 at *
  generalize mkNuc s vl 0 0 0 = w1 at *
  simp only [List.head?_cons, List.tail_cons, ne_eq, not_true_eq_false, or_self, if_false,
    List.drop_succ_cons, List.drop_zero, List.mapM_cons, List.mapM_nil, hl, h1, h2, h3, h4, h5, h6,
    hi, ok_bind, pure, Except.pure, List.getD_cons_zero, List.getD_cons_succ]
  rw [e2, e3, e4, e5]

/-! ### Printing -/

theorem digit_digitChar {v : Nat} (h : v < 10) : digit v.digitChar = .ok v := by
  interval_cases v <;> decide

/-- `getDecimal` of a non-nucleus. -/
def decimalOf (n r l q1 q2 q3 j : Nat) : Nat :=
  (if 9 < j then 9 else j) + q3 * 10 + q2 * 100 + q1 * 1000 + l * 10000 + r * 100000 +
    n * 1000000 + (if 9 < j then j - 9 else 0) * 10000000

theorem getDecimal_mk {s n' r l q1 q2 q3 j : Nat} (hs : s < 2) (hn : n' < 16) (hr : r < 16)
    (hl : l < 16) (h1 : q1 < 16) (h2 : q2 < 16) (h3 : q3 < 16) (hj : j < 16) :
    getDecimal (mk s n' r l q1 q2 q3 j) =
      (if s = 1 then -1 else 1) * (decimalOf n' r l q1 q2 q3 j : Nat) := by
  unfold getDecimal
  rw [isNucleus_mk hs hn hr hl h1 h2 h3 hj]
  simp only [Bool.false_eq_true, if_false, antiparticleSign, anti_mk hs hn hr hl h1 h2 h3 hj,
    nJ_mk hs hn hr hl h1 h2 h3 hj, nq3_mk hs hn hr hl h1 h2 h3 hj, nq2_mk hs hn hr hl h1 h2 h3 hj,
    nq1_mk hs hn hr hl h1 h2 h3 hj, nL_mk hs hn hr hl h1 h2 h3 hj, nR_mk hs hn hr hl h1 h2 h3 hj,
    n_mk hs hn hr hl h1 h2 h3 hj, beq_iff_eq, decimalOf]

theorem getDecimal_mkNuc {s l z a i : Nat} (hs : s < 2) (hl : l < 64) (hz : z < 1024)
    (ha : a < 1024) (hi : i < 16) :
    getDecimal (mkNuc s l z a i) = (if s = 1 then -1 else 1) *
      (i + 10 * a + 10000 * z + 10000000 * l + 1000000000 : Nat) := by
  unfold getDecimal
  rw [isNucleus_mkNuc hs hl hz ha hi]
  simp only [if_true, antiparticleSign, anti_mkNuc hs hl hz ha hi, I_mk hs hl hz ha hi,
    A_mk hs hl hz ha hi, Z_mk hs hl hz ha hi, nLambda_mk hs hl hz ha hi, beq_iff_eq]

/-- Parsing the decimal digits of a number below 10^8. -/
theorem parse_dec {s N : Nat} (hs : s < 2) (hN : N < 100000000) :
    afterSign (sgnWord s) (Nat.toDigits 10 N) =
      core s (N / 10000000) (N / 1000000 % 10) (N / 100000 % 10) (N / 10000 % 10)
        (N / 1000 % 10) (N / 100 % 10) (N / 10 % 10) (N % 10) := by
  have hlen : (Nat.toDigits 10 N).length ≤ 8 :=
    (Nat.length_toDigits_le_iff (by omega) (by omega)).2 (by simpa using hN)
  have hnil : 0 < (Nat.toDigits 10 N).length := Nat.length_toDigits_pos
  unfold afterSign
  rw [if_neg (by omega)]
  have step {M : Nat} (h : 10 ≤ M) : Nat.toDigits 10 M = Nat.toDigits 10 (M / 10) ++ [(M % 10).digitChar] :=
    Nat.toDigits_of_base_le (by omega) h
  have last {M : Nat} (h : M < 10) : Nat.toDigits 10 M = [M.digitChar] := Nat.toDigits_of_lt_base h
  have dd {v : Nat} (h : v < 10) := digit_digitChar h
  have dm (M : Nat) : digit (M % 10).digitChar = .ok (M % 10) := digit_digitChar (by omega)
  by_cases c1 : N < 10
  · rw [last c1, parse1 hs (dd c1)]; congr 1 <;> omega
  rw [step (by omega)]
  by_cases c2 : N / 10 < 10
  · rw [last c2]; simp only [List.append_assoc, List.cons_append, List.nil_append]
    rw [parse2 hs (dd c2) (dm _)]; congr 1 <;> omega
  rw [step (by omega : 10 ≤ N / 10)]
  by_cases c3 : N / 10 / 10 < 10
  · rw [last c3]; simp only [List.append_assoc, List.cons_append, List.nil_append]
    rw [parse3 hs (dd c3) (dm _) (dm _)]; congr 1 <;> omega
  rw [step (by omega : 10 ≤ N / 10 / 10)]
  by_cases c4 : N / 10 / 10 / 10 < 10
  · rw [last c4]; simp only [List.append_assoc, List.cons_append, List.nil_append]
    rw [parse4 hs (dd c4) (dm _) (dm _) (dm _)]; congr 1 <;> omega
  rw [step (by omega : 10 ≤ N / 10 / 10 / 10)]
  by_cases c5 : N / 10 / 10 / 10 / 10 < 10
  · rw [last c5]; simp only [List.append_assoc, List.cons_append, List.nil_append]
    rw [parse5 hs (dd c5) (dm _) (dm _) (dm _) (dm _)]; congr 1 <;> omega
  rw [step (by omega : 10 ≤ N / 10 / 10 / 10 / 10)]
  by_cases c6 : N / 10 / 10 / 10 / 10 / 10 < 10
  · rw [last c6]; simp only [List.append_assoc, List.cons_append, List.nil_append]
    rw [parse6 hs (dd c6) (dm _) (dm _) (dm _) (dm _) (dm _)]; congr 1 <;> omega
  rw [step (by omega : 10 ≤ N / 10 / 10 / 10 / 10 / 10)]
  by_cases c7 : N / 10 / 10 / 10 / 10 / 10 / 10 < 10
  · rw [last c7]; simp only [List.append_assoc, List.cons_append, List.nil_append]
    rw [parse7 hs (dd c7) (dm _) (dm _) (dm _) (dm _) (dm _) (dm _)]; congr 1 <;> omega
  rw [step (by omega : 10 ≤ N / 10 / 10 / 10 / 10 / 10 / 10)]
  have c8 : N / 10 / 10 / 10 / 10 / 10 / 10 / 10 < 10 := by omega
  rw [last c8]; simp only [List.append_assoc, List.cons_append, List.nil_append]
  rw [parse8 hs (dd c8) (dm _) (dm _) (dm _) (dm _) (dm _) (dm _) (dm _)]; congr 1 <;> omega

end Verif.Pdg
