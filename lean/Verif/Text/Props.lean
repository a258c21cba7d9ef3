import Verif.Text.Model
import Mathlib.Tactic.SplitIfs
import Mathlib.Data.List.Basic
/-! C27 and C28. -/
namespace Verif.Text

/-! ### trim -/

/-- White space: blank, tabulator, line feed, carriage return. -/
def white : Str := [0x20, 0x09, 0x0a, 0x0d]

/-- Blank and tabulator. -/
def spaces : Str := [0x20, 0x09]

theorem blanks_eq : blanks = white := rfl
theorem spaceTab_eq : spaceTab = spaces := rfl

/-- `t` is `s` without leading and trailing characters from `set`. -/
def IsTrimOf (set : Str) (t s : Str) : Prop :=
  ∃ a b, s = a ++ t ++ b ∧ (∀ c ∈ a, c ∈ set) ∧ (∀ c ∈ b, c ∈ set) ∧
    (∀ c, t.head? = some c → c ∉ set) ∧ (∀ c, t.getLast? = some c → c ∉ set)

theorem findFirst_spec {s set : Str} {i : Nat} (h : findFirstNotOf s set = some i) :
    ∃ a c t, s = a ++ c :: t ∧ a.length = i ∧ (∀ x ∈ a, x ∈ set) ∧ c ∉ set := by
  unfold findFirstNotOf at h
  induction s generalizing i with
  | nil => cases h
  | cons x s ih =>
    rw [List.findIdx?_cons] at h
    split_ifs at h with hx
    · injection h with h
      refine ⟨[], x, s, rfl, h, by simp, ?_⟩
      simpa using hx
    · cases hs : s.findIdx? (fun c => !set.contains c) with
      | none => rw [hs] at h; cases h
      | some j =>
        rw [hs] at h
        injection h with h
        obtain ⟨a, c, t, e, hl, ha, hc⟩ := ih hs
        refine ⟨x :: a, c, t, by rw [e]; rfl, by rw [List.length_cons, hl]; exact h, ?_, hc⟩
        intro y hy
        rcases List.mem_cons.1 hy with rfl | hy
        · simpa using hx
        · exact ha y hy

theorem findFirst_none {s set : Str} : findFirstNotOf s set = none ↔ ∀ x ∈ s, x ∈ set := by
  unfold findFirstNotOf
  rw [List.findIdx?_eq_none_iff]
  simp

/-- **C27**, `trim` removes exactly the leading and trailing white space. -/
theorem C27_trim (s : Str) : IsTrimOf white (trim s) s := by
  unfold trim
  rw [blanks_eq]
  cases hb : findFirstNotOf s white with
  | none =>
    exact ⟨s, [], by simp, findFirst_none.1 hb, by simp, by simp, by simp⟩
  | some b =>
    obtain ⟨a, c, t, e, hl, ha, hc⟩ := findFirst_spec hb
    unfold findLastNotOf
    cases he : findFirstNotOf s.reverse white with
    | none =>
      have := findFirst_none.1 he c (by rw [e]; simp)
      exact absurd this hc
    | some j =>
      obtain ⟨z, d, u, e', hl', hz, hd⟩ := findFirst_spec he
      have e2 : s = u.reverse ++ d :: z.reverse := by
        have := congrArg List.reverse e'
        simpa using this
      simp only [Option.map_some]
      -- the two decompositions: a is a prefix of u.reverse ++ [d]
      have hlen : s.length = u.length + 1 + j := by
        rw [e2]; simp; omega
      have hle : b ≤ s.length - 1 - j := by
        by_contra hcon
        have : u.length < b := by omega
        -- then d lies in a
        have hda : d ∈ a := by
          have h1 : s[u.length]? = some d := by
            rw [e2, List.getElem?_append_right (by simp)]; simp
          rw [e, List.getElem?_append_left (by omega)] at h1
          exact List.mem_of_getElem? h1
        exact hd (ha d hda)
      have hsub : substr s b (s.length - 1 - j - b + 1) = (s.take (u.length + 1)).drop b := by
        unfold substr
        rw [List.take_drop]
        congr 2
        omega
      have htake : s.take (u.length + 1) = u.reverse ++ [d] := by
        rw [e2, List.take_append, List.take_of_length_le (by simp)]
        simp
      have hdrop : s = a ++ s.drop b := by
        conv_lhs => rw [← List.take_append_drop b s]
        congr 1
        rw [e, ← hl, List.take_left]
      refine ⟨a, z.reverse, ?_, ha, by simpa using hz, ?_, ?_⟩
      · rw [hsub, htake]
        have h1 : a = (u.reverse ++ [d]).take b := by
          rw [← htake, List.take_take, Nat.min_eq_left (by omega), e, ← hl, List.take_left]
        conv_rhs => rw [h1]
        rw [List.take_append_drop, e2]
        simp
      · intro x hx
        rw [hsub, List.head?_drop] at hx
        rw [List.getElem?_take_of_lt (by omega), e, List.getElem?_append_right (by omega), hl,
          Nat.sub_self] at hx
        injection hx with hx
        rw [← hx]; exact hc
      · intro x hx
        rw [hsub, htake, List.getLast?_drop] at hx
        split_ifs at hx with h
        rw [List.getLast?_append] at hx
        simp at hx
        rw [← hx]; exact hd

/-- Trimming is determined by its description. -/
theorem trim_unique {set t t' s : Str} (h : IsTrimOf set t s) (h' : IsTrimOf set t' s) : t = t' := by
  obtain ⟨a, b, e, ha, hb, hh, hl⟩ := h
  obtain ⟨a', b', e', ha', hb', hh', hl'⟩ := h'
  have key : ∀ (a b t a' b' t' : Str), a ++ t ++ b = a' ++ t' ++ b' →
      (∀ c ∈ a, c ∈ set) → (∀ c ∈ b, c ∈ set) → (∀ c ∈ a', c ∈ set) → (∀ c ∈ b', c ∈ set) →
      (∀ c, t.head? = some c → c ∉ set) → (∀ c, t.getLast? = some c → c ∉ set) →
      (∀ c, t'.head? = some c → c ∉ set) → (∀ c, t'.getLast? = some c → c ∉ set) → t = t' := by
    intro a
    induction a with
    | nil =>
      intro b t a' b' t' e ha hb ha' hb' hh hl hh' hl'
      cases a' with
      | nil =>
        -- same start; compare the ends
        simp only [List.nil_append] at e
        rw [List.append_eq_append_iff] at e
        rcases e with ⟨as, e1, e2⟩ | ⟨bs, e1, e2⟩
        · -- t' = t ++ as, b = as ++ b'
          rcases List.eq_nil_or_concat as with rfl | ⟨as, x, rfl⟩
          · simpa using e1.symm
          · exfalso
            refine hl' x (by rw [e1]; simp) (hb x (by rw [e2]; simp))
        · rcases List.eq_nil_or_concat bs with rfl | ⟨bs, x, rfl⟩
          · simpa using e1
          · exfalso
            refine hl x (by rw [e1]; simp) (hb' x (by rw [e2]; simp))
      | cons x a' =>
        cases t with
        | cons y t =>
          exfalso
          simp only [List.nil_append, List.cons_append, List.cons.injEq] at e
          exact hh y rfl (e.1 ▸ ha' x (by simp))
        | nil =>
          -- everything is in the set
          cases t' with
          | nil => rfl
          | cons y t' =>
            exfalso
            simp only [List.nil_append] at e
            exact hh' y rfl (hb y (by rw [e]; simp))
    | cons x a ih =>
      intro b t a' b' t' e ha hb ha' hb' hh hl hh' hl'
      cases a' with
      | cons y a' =>
        simp only [List.cons_append, List.cons.injEq] at e
        exact ih b t a' b' t' e.2 (fun c hc => ha c (by simp [hc])) hb
          (fun c hc => ha' c (by simp [hc])) hb' hh hl hh' hl'
      | nil =>
        cases t' with
        | cons y t' =>
          exfalso
          simp only [List.nil_append, List.cons_append, List.cons.injEq] at e
          exact hh' y rfl (e.1 ▸ ha x (by simp))
        | nil =>
          cases t with
          | nil => rfl
          | cons y t =>
            exfalso
            simp only [List.nil_append] at e
            exact hh y rfl (hb' y (by rw [← e]; simp))
  exact key a b t a' b' t' (e.symm.trans e') ha hb ha' hb' hh hl hh' hl'

/-- **C27**, `trim` is idempotent. -/
theorem C27_trim_idempotent (s : Str) : trim (trim s) = trim s := by
  obtain ⟨a, b, e, _, _, h1, h2⟩ := C27_trim s
  exact trim_unique (C27_trim (trim s)) ⟨[], [], by simp, by simp, by simp, h1, h2⟩

example : trim (lit " \t a b\r\n") = lit "a b" := by decide +kernel

/-! ### remove_substr -/

theorem find_spec {s p : Str} {i : Nat} (h : find s p = some i) :
    ∃ a b, s = a ++ p ++ b ∧ a.length = i := by
  induction s generalizing i with
  | nil =>
    unfold find at h
    split_ifs at h with hp
    · cases h
      exact ⟨[], [], by simpa using hp, rfl⟩
  | cons x s ih =>
    unfold find at h
    split_ifs at h with hp
    · cases h
      obtain ⟨b, hb⟩ := List.isPrefixOf_iff_prefix.1 hp
      exact ⟨[], b, by simpa using hb.symm, rfl⟩
    · simp only at h
      cases hs : find s p with
      | none => rw [hs] at h; cases h
      | some j =>
        rw [hs] at h
        cases h
        obtain ⟨a, b, e, hl⟩ := ih hs
        exact ⟨x :: a, b, by rw [e]; rfl, by simp [hl]⟩

theorem find_none {s p : Str} : find s p = none ↔ ¬ p <:+: s := by
  induction s with
  | nil =>
    unfold find
    split_ifs with hp
    · simp only [reduceCtorEq, false_iff, not_not]
      exact (List.isPrefixOf_iff_prefix.1 hp).isInfix
    · simp only [true_iff]
      intro h
      exact hp (by rw [List.infix_nil.1 h]; rfl)
  | cons x s ih =>
    unfold find
    split_ifs with hp
    · simp only [reduceCtorEq, false_iff, not_not]
      exact (List.isPrefixOf_iff_prefix.1 hp).isInfix
    · simp only [Option.map_eq_none_iff, ih, List.infix_cons_iff]
      rw [List.isPrefixOf_iff_prefix] at hp
      constructor
      · rintro h (h' | h')
        · exact hp h'
        · exact h h'
      · intro h h'; exact h (.inr h')

/-- `t` is obtained from `s` by deleting occurrences of `p`, one after the other. -/
inductive Deletes (p : Str) : Str → Str → Prop
  | refl (s) : Deletes p s s
  | step (a b t) : Deletes p (a ++ b) t → Deletes p (a ++ p ++ b) t

theorem removeSubstr_spec (p : Str) (hp : p ≠ []) (fuel : Nat) (s : Str) (h : s.length ≤ fuel) :
    ∃ t, removeSubstr fuel s p = some t ∧ Deletes p s t ∧ ¬ p <:+: t := by
  induction fuel generalizing s with
  | zero =>
    have : s = [] := List.length_eq_zero_iff.1 (by omega)
    subst this
    have hf : find [] p = none := by
      rw [find_none]; intro h; exact hp (List.infix_nil.1 h)
    exact ⟨[], by simp [removeSubstr, hf], .refl _, find_none.1 hf⟩
  | succ fuel ih =>
    unfold removeSubstr
    cases hf : find s p with
    | none => exact ⟨s, rfl, .refl _, find_none.1 hf⟩
    | some i =>
      obtain ⟨a, b, e, hl⟩ := find_spec hf
      have he : erase s i p.length = a ++ b := by
        unfold erase
        rw [e, ← hl, List.append_assoc, List.take_left, ← List.append_assoc,
          ← List.length_append, List.drop_left]
      have hpl : 0 < p.length := List.length_pos_iff.2 hp
      obtain ⟨t, h1, h2, h3⟩ := ih (a ++ b) (by
        have := congrArg List.length e
        simp at this ⊢
        omega)
      refine ⟨t, by simp only; rw [he]; exact h1, ?_, h3⟩
      rw [e]
      exact .step a b t h2

/-- **C27**, `remove_substr` with a non-empty pattern terminates, only deletes occurrences of
the pattern, and leaves none; without an occurrence nothing changes. -/
theorem C27_remove_substr (s p : Str) (hp : p ≠ []) :
    ∃ t, removeSubstr s.length s p = some t ∧ Deletes p s t ∧ ¬ p <:+: t ∧
      (¬ p <:+: s → t = s) := by
  obtain ⟨t, h1, h2, h3⟩ := removeSubstr_spec p hp s.length s (Nat.le_refl _)
  refine ⟨t, h1, h2, h3, fun h => ?_⟩
  have := find_none.2 h
  cases hs : s.length with
  | zero => rw [hs] at h1; simp [removeSubstr, this] at h1; exact h1.symm
  | succ n => rw [hs] at h1; simp [removeSubstr, this] at h1; exact h1.symm

/-- With an empty pattern `remove_substr` never terminates. -/
theorem C27_remove_empty (s : Str) (fuel : Nat) : removeSubstr fuel s [] = none := by
  have hf (s : Str) : find s [] = some 0 := by unfold find; simp [List.isPrefixOf]
  induction fuel generalizing s with
  | zero => unfold removeSubstr; rw [hf]
  | succ fuel ih =>
    unfold removeSubstr
    rw [hf]
    exact ih _

/-! ### split and join -/

theorem splitLoop_chunk (d : UInt8) (x s item : Str) (any : Bool) (hx : d ∉ x) :
    splitLoop d (x ++ d :: s) item any = (item ++ x) :: splitLoop d s [] false := by
  induction x generalizing item any with
  | nil => simp [splitLoop]
  | cons c x ih =>
    have hc : c ≠ d := fun h => hx (by simp [h])
    rw [List.cons_append, splitLoop, if_neg hc, ih _ _ (fun h => hx (by simp [h]))]
    simp

theorem splitLoop_last (d : UInt8) (x item : Str) (any : Bool) (hx : d ∉ x) :
    splitLoop d x item any = if x.isEmpty && !any then [] else [item ++ x] := by
  induction x generalizing item any with
  | nil => cases any <;> simp [splitLoop]
  | cons c x ih =>
    have hc : c ≠ d := fun h => hx (by simp [h])
    unfold splitLoop
    rw [if_neg hc, ih _ _ (fun h => hx (by simp [h]))]
    simp

/-- The text with the given items separated by `d`. -/
def separated (d : UInt8) (v : List Str) : Str := List.intercalate [d] v

theorem separated_cons (d : UInt8) (x y : Str) (v : List Str) :
    separated d (x :: y :: v) = x ++ d :: separated d (y :: v) := by
  simp [separated, List.intercalate, List.intersperse]

/-- **C27**, `split`: a text of items without the delimiter, the last one not empty, is
split into exactly these items. -/
theorem C27_split (d : UInt8) (v : List Str) (hv : ∀ x ∈ v, d ∉ x)
    (hl : ∀ x, v.getLast? = some x → x ≠ []) : split (separated d v) d = v := by
  unfold split
  induction v with
  | nil => rfl
  | cons x v ih =>
    cases v with
    | nil =>
      have e : separated d [x] = x := by simp [separated, List.intercalate]
      rw [e, splitLoop_last d x [] false (hv x (by simp))]
      have := hl x rfl
      cases x with
      | nil => exact absurd rfl this
      | cons c x => rfl
    | cons y v =>
      rw [separated_cons, splitLoop_chunk d x _ [] false (hv x (by simp)),
        ih (fun z hz => hv z (by simp at hz ⊢; exact .inr hz)) (fun z hz => hl z (by simpa using hz))]
      rfl

/-- **C27**, every text is its items separated by the delimiter, up to one delimiter at the
end. -/
theorem C27_split_covers (s : Str) (d : UInt8) :
    (∀ x ∈ split s d, d ∉ x) ∧
    (s = separated d (split s d) ∨ s = separated d (split s d) ++ [d]) := by
  unfold split
  have key : ∀ (n : Nat) (s : Str), s.length ≤ n → (∀ x ∈ splitLoop d s [] false, d ∉ x) ∧
      (s = separated d (splitLoop d s [] false) ∨ s = separated d (splitLoop d s [] false) ++ [d]) := by
    intro n
    induction n with
    | zero =>
      intro s hs
      have : s = [] := List.length_eq_zero_iff.1 (by omega)
      subst this
      exact ⟨by simp [splitLoop], .inl rfl⟩
    | succ n ih =>
      intro s hs
      by_cases hd : d ∈ s
      · obtain ⟨x, t, rfl, hx⟩ := List.append_of_mem hd |>.elim fun a h => h.elim fun b e => by
          exact List.eq_append_cons_of_mem hd
        obtain ⟨h1, h2⟩ := ih t (by simp at hs; omega)
        rw [splitLoop_chunk d x t [] false hx, List.nil_append]
        refine ⟨?_, ?_⟩
        · intro y hy
          rcases List.mem_cons.1 hy with rfl | hy
          · exact hx
          · exact h1 y hy
        · cases hr : splitLoop d t [] false with
          | nil =>
            have ht : t = [] ∨ t = [d] := by
              rcases h2 with h | h <;> rw [hr] at h <;> simp [separated, List.intercalate] at h
              · exact .inl h
              · exact .inr h
            rcases ht with rfl | rfl
            · right; simp [separated, List.intercalate]
            · simp [splitLoop] at hr
          | cons y v =>
            rw [separated_cons]
            rw [hr] at h2
            rcases h2 with h | h
            · left; rw [← h]
            · right; rw [List.append_assoc, List.cons_append, ← h]
      · rw [splitLoop_last d s [] false hd]
        cases s with
        | nil => exact ⟨by simp, .inl rfl⟩
        | cons c s => exact ⟨by simpa using hd, .inl (by simp [separated, List.intercalate])⟩
  exact key s.length s (Nat.le_refl _)

theorem join_aux (v : List Str) (d : Str) (ss : Str) (h : ss ≠ []) :
    v.foldl (fun ss s => if ss.isEmpty then s else ss ++ d ++ s) ss =
      ss ++ (v.map (d ++ ·)).flatten := by
  induction v generalizing ss with
  | nil => simp
  | cons x v ih =>
    rw [List.foldl_cons]
    have : ss.isEmpty = false := by cases ss <;> simp_all
    rw [this]
    simp only [Bool.false_eq_true, if_false]
    rw [ih _ (by cases ss <;> simp_all)]
    simp

theorem intercalate_cons' (d x : Str) (v : List Str) :
    List.intercalate d (x :: v) = x ++ (v.map (d ++ ·)).flatten := by
  induction v generalizing x with
  | nil => simp [List.intercalate]
  | cons y v ih =>
    have : List.intercalate d (x :: y :: v) = x ++ d ++ List.intercalate d (y :: v) := by
      simp [List.intercalate, List.intersperse]
    rw [this, ih]
    simp

/-- **C27**, `join` puts the delimiter between the items, except that empty items at the
front are dropped. -/
theorem C27_join (v : List Str) (d : Str) :
    join v d = List.intercalate d (v.dropWhile List.isEmpty) := by
  unfold join
  induction v with
  | nil => rfl
  | cons x v ih =>
    rw [List.foldl_cons]
    simp only [List.isEmpty_nil, if_true]
    cases x with
    | nil => simp only [List.dropWhile_cons, List.isEmpty_nil, if_true]; exact ih
    | cons c x =>
      rw [join_aux _ _ _ (by simp), List.dropWhile_cons_of_neg (by simp), intercalate_cons']

/-- **C27**, `split` undoes `join` for items without the delimiter if the first and the last
one are not empty. -/
theorem C27_split_join (d : UInt8) (v : List Str) (hv : ∀ x ∈ v, d ∉ x)
    (hf : ∀ x, v.head? = some x → x ≠ []) (hl : ∀ x, v.getLast? = some x → x ≠ []) :
    split (join v [d]) d = v := by
  have : v.dropWhile List.isEmpty = v := by
    cases v with
    | nil => rfl
    | cons x v =>
      have := hf x rfl
      cases x with
      | nil => exact absurd rfl this
      | cons c x => simp
  rw [C27_join, this]
  exact C27_split d v hv hl

/-- **C27**, `join` undoes `split` for texts that neither begin nor end with the delimiter. -/
theorem C27_join_split (d : UInt8) (s : Str) (hf : s.head? ≠ some d) (hl : s.getLast? ≠ some d) :
    join (split s d) [d] = s := by
  obtain ⟨h1, h2⟩ := C27_split_covers s d
  have h2 : s = separated d (split s d) := by
    rcases h2 with h | h
    · exact h
    · exfalso; apply hl; rw [h]; simp
  rw [C27_join]
  have : (split s d).dropWhile List.isEmpty = split s d := by
    cases hv : split s d with
    | nil => rfl
    | cons x v =>
      cases x with
      | cons c x => simp
      | nil =>
        exfalso
        rw [hv] at h2
        cases v with
        | nil =>
          have hs : s = [] := by rw [h2]; simp [separated, List.intercalate]
          rw [hs] at hv; cases hv
        | cons y v =>
          rw [separated_cons] at h2
          apply hf; rw [h2]; rfl
  rw [this]
  exact h2.symm

/-- A leading empty item is lost. -/
theorem C27_join_drops_empty : join [[], [97]] [44] = [97] := by decide +kernel

example : split (lit "a,,bc,") 44 = [lit "a", [], lit "bc"] := by decide +kernel

/-! ### padding -/

/-- Number of columns as this code counts them: bytes minus the extra bytes of multi-byte
characters. -/
def columns (s : Str) : Int := s.length - (s.map extra).sum

theorem adjust_eq (s : Str) (w : BitVec 64) :
    adjust s w = w + BitVec.ofNat 64 (s.map extra).sum := by
  unfold adjust
  induction s generalizing w with
  | nil => simp
  | cons c s ih => rw [List.foldl_cons, ih, List.map_cons, List.sum_cons, BitVec.ofNat_add,
      BitVec.add_assoc]

theorem width_eq (s : Str) (width : BitVec 64) (hs : s.length < 2305843009213693952)
    (hw : width.toNat < 4611686018427387904) :
    ((adjust s (width - BitVec.ofNat 64 s.length)).toNat : Int) =
      if columns s ≤ width.toNat then (width.toNat : Int) - columns s
      else 18446744073709551616 + width.toNat - columns s := by
  have hsum : (s.map extra).sum ≤ 5 * s.length := by
    induction s with
    | nil => simp
    | cons c s ih =>
      have : extra c ≤ 5 := by unfold extra; split_ifs <;> omega
      have := ih (by simp at hs; omega)
      simp; omega
  rw [adjust_eq, BitVec.toNat_add, BitVec.toNat_sub, BitVec.toNat_ofNat, BitVec.toNat_ofNat]
  have p64 : (2 : Nat) ^ 64 = 18446744073709551616 := by decide +kernel
  rw [p64]
  unfold columns
  generalize width.toNat = w at hw
  generalize s.length = n at hs hsum
  generalize (s.map extra).sum = x at hsum
  have h1 : n % 18446744073709551616 = n := Nat.mod_eq_of_lt (by omega)
  have h2 : x % 18446744073709551616 = x := Nat.mod_eq_of_lt (by omega)
  rw [h1, h2]
  split_ifs with h <;> omega

/-- **C27**, `fill_left`, `fill_right`: for texts of up to 2^61 bytes and widths below 2^62, if
the text has at most the requested number of columns, it is padded with exactly the missing
number of fill characters and nothing is cut; if it is wider, the call throws. -/
theorem C27_fill_partial (s : Str) (width : BitVec 64) (fill : UInt8)
    (hs : s.length < 2305843009213693952) (hw : width.toNat < 4611686018427387904) :
    (columns s ≤ width.toNat → ∃ k : Nat, (k : Int) = width.toNat - columns s ∧
      (k < 9223372036854775808 → fillLeft s width fill = some (List.replicate k fill ++ s) ∧
        fillRight s width fill = some (s ++ List.replicate k fill))) ∧
    (width.toNat < columns s → fillLeft s width fill = none ∧ fillRight s width fill = none) := by
  have hwid := width_eq s width hs hw
  unfold fillLeft fillRight
  simp only
  generalize adjust s (width - BitVec.ofNat 64 s.length) = w at hwid
  have hz : (w > 0) ↔ 0 < w.toNat := by
    rw [gt_iff_lt, BitVec.lt_def]; simp
  constructor
  · intro hc
    rw [if_pos hc] at hwid
    refine ⟨w.toNat, hwid, fun hk => ?_⟩
    by_cases h0 : w > 0
    · rw [if_pos h0, if_pos h0]
      unfold stringOf
      rw [if_pos hk]
      exact ⟨rfl, rfl⟩
    · rw [if_neg h0, if_neg h0]
      have : w.toNat = 0 := by rw [hz] at h0; omega
      rw [this]
      simp
  · intro hc
    rw [if_neg (by omega)] at hwid
    have hcs : columns s ≤ s.length := by unfold columns; omega
    have : w > 0 := by rw [hz]; omega
    rw [if_pos this, if_pos this]
    unfold stringOf
    rw [if_neg (by omega)]
    exact ⟨rfl, rfl⟩

/-- A text wider than requested is not returned unchanged. -/
theorem C27_fill_too_wide : fillLeft (lit "abc") 2 32 = none := by decide +kernel

/-- **C27**, `fill_both`: for up to 2^31 missing columns, half of them, rounded down, is put
before and the rest after the text. -/
theorem C27_fill_both (s : Str) (width : BitVec 64) (fill : UInt8)
    (hs : s.length < 2305843009213693952) (hw : width.toNat < 4611686018427387904)
    (k : Nat) (hk : (k : Int) = width.toNat - columns s) (hk2 : k < 2147483648) :
    fillBoth s width fill =
      some (List.replicate (k / 2) fill ++ s ++ List.replicate (k - k / 2) fill) := by
  have hwid := width_eq s width hs hw
  rw [if_pos (by omega)] at hwid
  unfold fillBoth
  simp only
  generalize adjust s (width - BitVec.ofNat 64 s.length) = w at hwid
  have hwk : w.toNat = k := by omega
  have hwe : w = BitVec.ofNat 64 k := by
    apply BitVec.eq_of_toNat_eq
    rw [hwk, BitVec.toNat_ofNat, Nat.mod_eq_of_lt]
    exact Nat.lt_of_lt_of_le hk2 (by decide +kernel)
  have hz : (w > 0) ↔ 0 < w.toNat := by
    rw [gt_iff_lt, BitVec.lt_def]; simp
  have se (n : Nat) (hn : n < 2147483648) :
      (BitVec.ofNat 32 n).signExtend 64 = BitVec.ofNat 64 n := by
    have e : (BitVec.ofNat 32 n).toNat = n := by
      rw [BitVec.toNat_ofNat, Nat.mod_eq_of_lt (by omega)]
    rw [BitVec.signExtend_eq_setWidth_of_msb_false (by
      rw [BitVec.msb_eq_decide, e]; simp; omega)]
    apply BitVec.eq_of_toNat_eq
    rw [BitVec.toNat_setWidth, e, BitVec.toNat_ofNat]
  have sw (n : Nat) (hn : n < 2147483648) : (BitVec.ofNat 64 n).setWidth 32 = BitVec.ofNat 32 n := by
    apply BitVec.eq_of_toNat_eq
    rw [BitVec.toNat_setWidth, BitVec.toNat_ofNat, BitVec.toNat_ofNat]
    omega
  have hdiv : w / 2#64 = BitVec.ofNat 64 (k / 2) := by
    apply BitVec.eq_of_toNat_eq
    rw [BitVec.toNat_udiv, hwk, BitVec.toNat_ofNat, BitVec.toNat_ofNat,
      (by decide +kernel : 2 % 2 ^ 64 = 2)]
    omega
  have hsub : w - BitVec.ofNat 64 (k / 2) = BitVec.ofNat 64 (k - k / 2) := by
    apply BitVec.eq_of_toNat_eq
    rw [BitVec.toNat_sub, hwk, BitVec.toNat_ofNat, BitVec.toNat_ofNat]
    omega
  have hst (n : Nat) (hn : n < 2147483648) :
      stringOf (BitVec.ofNat 64 n) fill = some (List.replicate n fill) := by
    have e : (BitVec.ofNat 64 n).toNat = n := by
      rw [BitVec.toNat_ofNat, Nat.mod_eq_of_lt (by omega)]
    unfold stringOf
    rw [e, if_pos (by omega)]
  by_cases h0 : w > 0
  · rw [if_pos h0, hdiv, sw _ (by omega), se _ (by omega), hsub, sw _ (by omega), se _ (by omega),
      hst _ (by omega), hst _ (by omega)]
    rfl
  · rw [if_neg h0]
    have : k = 0 := by rw [hz] at h0; omega
    rw [this]
    simp

/-- A character in UTF-8: a lead byte and the continuation bytes it announces. -/
def IsUtf8Char (c : Str) : Prop :=
  (∃ a, c = [a] ∧ a < 0x80) ∨
  (∃ a b, c = [a, b] ∧ 0xC0 ≤ a ∧ a < 0xE0 ∧ 0x80 ≤ b ∧ b < 0xC0) ∨
  (∃ a b d, c = [a, b, d] ∧ 0xE0 ≤ a ∧ a < 0xF0 ∧ 0x80 ≤ b ∧ b < 0xC0 ∧ 0x80 ≤ d ∧ d < 0xC0) ∨
  (∃ a b d e, c = [a, b, d, e] ∧ 0xF0 ≤ a ∧ a < 0xF8 ∧ 0x80 ≤ b ∧ b < 0xC0 ∧ 0x80 ≤ d ∧
    d < 0xC0 ∧ 0x80 ≤ e ∧ e < 0xC0)

/-- A combining character, as far as this code knows them: U+0300 to U+037F. -/
def IsCombining (c : Str) : Bool := c.head? == some 0xCC || c.head? == some 0xCD

theorem extra_low (c : UInt8) (h : c < 0xC0) : extra c = 0 := by
  unfold extra
  simp only [UInt8.lt_iff_toNat_lt, UInt8.le_iff_toNat_le, ge_iff_le, ← UInt8.toNat_inj] at *
  have e1 : (0xFC : UInt8).toNat = 252 := rfl
  have e2 : (0xF8 : UInt8).toNat = 248 := rfl
  have e3 : (0xF0 : UInt8).toNat = 240 := rfl
  have e4 : (0xE0 : UInt8).toNat = 224 := rfl
  have e5 : (0xC0 : UInt8).toNat = 192 := rfl
  have e6 : (0xCC : UInt8).toNat = 204 := rfl
  have e7 : (0xCD : UInt8).toNat = 205 := rfl
  rw [e5] at h
  rw [e1, e2, e3, e4, e5, e6, e7, if_neg (by omega), if_neg (by omega), if_neg (by omega),
    if_neg (by omega), if_neg (by omega), if_neg (by omega)]

/-- **C27**, columns of a text in UTF-8: the number of its characters that are not
combining characters. -/
theorem C27_columns (cs : List Str) (h : ∀ c ∈ cs, IsUtf8Char c) :
    columns cs.flatten = (cs.countP fun c => !IsCombining c : Nat) := by
  have one (c : Str) (hc : IsUtf8Char c) :
      c.length = (c.map extra).sum + (if IsCombining c then 0 else 1) := by
    have lead (a : UInt8) : ∀ k : Fin 256, a = UInt8.ofNat k.1 →
        (0xC0 ≤ a → a < 0xE0 → extra a = if a = 0xCC ∨ a = 0xCD then 2 else 1) ∧
        (0xE0 ≤ a → a < 0xF0 → extra a = 2 ∧ a ≠ 0xCC ∧ a ≠ 0xCD) ∧
        (0xF0 ≤ a → a < 0xF8 → extra a = 3 ∧ a ≠ 0xCC ∧ a ≠ 0xCD) ∧
        (a < 0x80 → a ≠ 0xCC ∧ a ≠ 0xCD) := by
      intro k hk; subst hk; revert k; decide +kernel
    have lead (a : UInt8) := lead a ⟨a.toNat, a.toNat_lt⟩ (by simp)
    unfold IsCombining
    rcases hc with ⟨a, rfl, h1⟩ | ⟨a, b, rfl, h1, h2, h3, h4⟩ |
      ⟨a, b, d, rfl, h1, h2, h3, h4, h5, h6⟩ | ⟨a, b, d, e, rfl, h1, h2, h3, h4, h5, h6, h7, h8⟩
    · have hl := (lead a).2.2.2 h1
      have : a < 0xC0 := UInt8.lt_trans h1 (by decide)
      simp [extra_low a this, hl]
    · have hl := (lead a).1 h1 h2
      simp only [List.map_cons, List.map_nil, extra_low b h4, hl, List.head?_cons]
      by_cases hq : a = 0xCC ∨ a = 0xCD
      · rcases hq with rfl | rfl <;> rfl
      · have hq' := not_or.1 hq
        simp [hq'.1, hq'.2]
    · have hl := (lead a).2.1 h1 h2
      simp [extra_low b h4, extra_low d h6, hl]
    · have hl := (lead a).2.2.1 h1 h2
      simp [extra_low b h4, extra_low d h6, extra_low e h8, hl]
  induction cs with
  | nil => rfl
  | cons c cs ih =>
    have ih := ih (fun x hx => h x (by simp [hx]))
    have hc := one c (h c (by simp))
    unfold columns at ih ⊢
    rw [List.flatten_cons, List.map_append, List.sum_append, List.length_append, List.countP_cons]
    cases hb : IsCombining c
    · rw [hb] at hc
      simp only [Bool.not_false, if_true, Bool.false_eq_true, if_false] at hc ⊢
      omega
    · rw [hb] at hc
      simp only [Bool.not_true, if_true, Bool.false_eq_true, if_false] at hc ⊢
      omega

example : fillBoth (lit "πb") 5 45 = some (lit "-πb--") := by decide +kernel

/-! ### C28 -/

/-- A line, with its comment cut off at the first `#`. -/
def IsComment (line text : Str) : Prop :=
  (35 ∉ line ∧ text = line) ∨ ∃ rest, line = text ++ 35 :: rest ∧ 35 ∉ text

theorem stripComment_spec (line : Str) : IsComment line (stripComment line) := by
  unfold stripComment IsComment
  cases h : line.findIdx? (· == 35) with
  | none =>
    left
    rw [List.findIdx?_eq_none_iff] at h
    exact ⟨fun hm => by have := h 35 hm; simp at this, rfl⟩
  | some i =>
    right
    have : ∃ a c t, line = a ++ c :: t ∧ a.length = i ∧ (∀ x ∈ a, x ≠ 35) ∧ c = 35 := by
      induction line generalizing i with
      | nil => cases h
      | cons x s ih =>
        rw [List.findIdx?_cons] at h
        split_ifs at h with hx
        · injection h with h
          exact ⟨[], x, s, rfl, h, by simp, by simpa using hx⟩
        · cases hs : s.findIdx? (· == 35) with
          | none => rw [hs] at h; cases h
          | some j =>
            rw [hs] at h
            injection h with h
            obtain ⟨a, c, t, e, hl, ha, hc⟩ := ih j hs
            refine ⟨x :: a, c, t, by rw [e]; rfl, by rw [List.length_cons, hl]; exact h, ?_, hc⟩
            intro y hy
            rcases List.mem_cons.1 hy with rfl | hy
            · simpa using hx
            · exact ha y hy
    obtain ⟨a, c, t, e, hl, ha, rfl⟩ := this
    refine ⟨t, ?_, ?_⟩
    · simp only; unfold substr; rw [List.drop_zero, e, ← hl, List.take_left]
    · simp only
      unfold substr
      rw [List.drop_zero, e, ← hl, List.take_left]
      exact fun hm => ha 35 hm rfl

theorem parseLoop_spec (lines : List Str) (n : Nat) :
    (parseLoop n lines).Pairwise (fun a b => a.1 < b.1) ∧
    ∀ k text, (k, text) ∈ parseLoop n lines ↔ ∃ line body, n < k ∧ lines[k - n - 1]? = some line ∧
      IsComment line body ∧ (∃ c ∈ body, c ∉ spaces) ∧ IsTrimOf white text body := by
  have uniq (line b b' : Str) (h : IsComment line b) (h' : IsComment line b') : b = b' := by
    rcases h with ⟨h, rfl⟩ | ⟨r, rfl, hb⟩
    · rcases h' with ⟨_, rfl⟩ | ⟨r, rfl, _⟩
      · rfl
      · exact absurd (by simp) h
    · rcases h' with ⟨h, _⟩ | ⟨r', e, hb'⟩
      · exact absurd (by simp) h
      · rw [List.append_eq_append_iff] at e
        rcases e with ⟨as, e1, e2⟩ | ⟨bs, e1, e2⟩
        · cases as with
          | nil => simpa using e1.symm
          | cons x as =>
            rw [List.cons_append, List.cons.injEq] at e2
            exact absurd (by rw [e1, ← e2.1]; simp) hb'
        · cases bs with
          | nil => simpa using e1
          | cons x bs =>
            rw [List.cons_append, List.cons.injEq] at e2
            exact absurd (by rw [e1, ← e2.1]; simp) hb
  induction lines generalizing n with
  | nil => exact ⟨by simp [parseLoop], by simp [parseLoop]⟩
  | cons line rest ih =>
    obtain ⟨ihp, ihm⟩ := ih (n + 1)
    have hgt : ∀ p ∈ parseLoop (n + 1) rest, n + 1 < p.1 := by
      intro p hp
      obtain ⟨_, _, h, _⟩ := (ihm p.1 p.2).1 hp
      exact h
    have hs := stripComment_spec line
    have hfn : (findFirstNotOf (stripComment line) spaces).isNone = true ↔
        ¬ ∃ c ∈ stripComment line, c ∉ spaces := by
      rw [Option.isNone_iff_eq_none, findFirst_none]
      constructor
      · rintro h ⟨c, hc, hn⟩; exact hn (h c hc)
      · intro h x hx
        by_contra hc
        exact h ⟨x, hx, hc⟩
    have hshift (k : Nat) (text : Str) :
        (∃ l body, n < k ∧ (line :: rest)[k - n - 1]? = some l ∧ IsComment l body ∧
          (∃ c ∈ body, c ∉ spaces) ∧ IsTrimOf white text body) ↔
        (k = n + 1 ∧ (∃ c ∈ stripComment line, c ∉ spaces) ∧ text = trim (stripComment line)) ∨
        (k, text) ∈ parseLoop (n + 1) rest := by
      rw [ihm]
      constructor
      · rintro ⟨l, body, hk, hl, hb, hc, ht⟩
        by_cases e : k = n + 1
        · left
          have : k - n - 1 = 0 := by omega
          rw [this] at hl
          injection hl with hl
          subst hl
          have := uniq _ _ _ hb hs
          subst this
          exact ⟨e, hc, trim_unique ht (C27_trim _)⟩
        · right
          have : k - n - 1 = (k - (n + 1) - 1) + 1 := by omega
          rw [this, List.getElem?_cons_succ] at hl
          exact ⟨l, body, by omega, hl, hb, hc, ht⟩
      · rintro (⟨rfl, hc, rfl⟩ | ⟨l, body, hk, hl, hb, hc, ht⟩)
        · refine ⟨line, _, by omega, ?_, hs, hc, C27_trim _⟩
          have : n + 1 - n - 1 = 0 := by omega
          rw [this]; rfl
        · refine ⟨l, body, by omega, ?_, hb, hc, ht⟩
          have : k - n - 1 = (k - (n + 1) - 1) + 1 := by omega
          rw [this, List.getElem?_cons_succ]
          exact hl
    unfold parseLoop
    simp only
    rw [spaceTab_eq]
    split_ifs with hc
    · refine ⟨ihp, fun k text => ?_⟩
      rw [hshift]
      have := hfn.1 hc
      constructor
      · exact .inr
      · rintro (⟨_, h, _⟩ | h)
        · exact absurd h this
        · exact h
    · have hc : ∃ c ∈ stripComment line, c ∉ spaces := by
        by_contra h; exact hc (hfn.2 h)
      refine ⟨List.pairwise_cons.2 ⟨hgt, ihp⟩, fun k text => ?_⟩
      rw [hshift, List.mem_cons, Prod.mk.injEq]
      constructor
      · rintro (⟨h1, h2⟩ | h)
        · exact .inl ⟨h1, hc, h2⟩
        · exact .inr h
      · rintro (⟨h1, _, h2⟩ | h)
        · exact .inl ⟨h1, h2⟩
        · exact .inr h

/-- **C28.** The result lists, with increasing line numbers, exactly the lines of the input
(numbered from 1) that contain, before the first `#`, something besides white and
tabulators, with that part trimmed. -/
theorem C28_lines (input : Str) :
    ((lineParser input).Pairwise fun a b => a.1 < b.1) ∧
    ∀ k text, (k, text) ∈ lineParser input ↔ ∃ line body, 0 < k ∧
      (split input 10)[k - 1]? = some line ∧ IsComment line body ∧ (∃ c ∈ body, c ∉ spaces) ∧
      IsTrimOf white text body :=
  parseLoop_spec (split input 10) 0

/-- **C28**, for input without carriage returns: every returned text is non-empty, so exactly
the lines with something besides white space and comments are returned. Missing: input
with carriage returns (`C28_carriage_return`). -/
theorem C28_meaningful_partial (input : Str) (hcr : 13 ∉ input) (k : Nat) :
    (∃ text, (k, text) ∈ lineParser input) ↔ ∃ line body, 0 < k ∧
      (split input 10)[k - 1]? = some line ∧ IsComment line body ∧ ∃ c ∈ body, c ∉ white := by
  have hno : ∀ line ∈ split input 10, (13 ∉ line) ∧ 10 ∉ line := by
    intro line hl
    obtain ⟨h1, h2⟩ := C27_split_covers input 10
    refine ⟨fun hm => hcr ?_, h1 line hl⟩
    have hsep : ∀ (v : List Str), line ∈ v → 13 ∈ separated 10 v := by
      intro v
      induction v with
      | nil => intro h; cases h
      | cons x v ih =>
        intro h
        cases v with
        | nil =>
          rw [List.mem_singleton] at h
          subst h
          simpa [separated, List.intercalate] using hm
        | cons y v =>
          rw [separated_cons]
          rcases List.mem_cons.1 h with rfl | h
          · simp [hm]
          · have := ih h
            simp [this]
    rcases h2 with h | h
    · rw [h]; exact hsep _ hl
    · rw [h]; exact List.mem_append_left _ (hsep _ hl)
  have hsub (line body : Str) (hl : line ∈ split input 10) (hb : IsComment line body) :
      ∀ c ∈ body, c ∈ white ↔ c ∈ spaces := by
    intro c hc
    have hcl : c ∈ line := by
      rcases hb with ⟨_, rfl⟩ | ⟨r, rfl, _⟩
      · exact hc
      · simp [hc]
    obtain ⟨h13, h10⟩ := hno line hl
    have n13 : c ≠ 13 := fun h => h13 (h ▸ hcl)
    have n10 : c ≠ 10 := fun h => h10 (h ▸ hcl)
    simp [white, spaces, n13, n10]
  constructor
  · rintro ⟨text, h⟩
    obtain ⟨line, body, h1, h2, h3, ⟨c, hc, hn⟩, _⟩ := ((C28_lines input).2 k text).1 h
    exact ⟨line, body, h1, h2, h3, c, hc, fun hb =>
      hn ((hsub line body (List.mem_of_getElem? h2) h3 c hc).1 hb)⟩
  · rintro ⟨line, body, h1, h2, h3, c, hc, hn⟩
    exact ⟨trim body, ((C28_lines input).2 k _).2 ⟨line, body, h1, h2, h3, ⟨c, hc, fun hb =>
      hn ((hsub line body (List.mem_of_getElem? h2) h3 c hc).2 hb)⟩, C27_trim body⟩⟩

/-- With Windows line ends an empty line is returned as a line with empty text. -/
theorem C28_carriage_return : lineParser (lit "a\r\n\r\n") = [(1, lit "a"), (2, [])] := by
  decide +kernel

example : lineParser (lit "# x\n a b # c\n\n \t\nd") = [(2, lit "a b"), (5, lit "d")] := by
  decide +kernel

end Verif.Text
