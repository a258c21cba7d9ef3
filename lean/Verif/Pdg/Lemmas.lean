import Verif.Pdg.Model
import Mathlib.Tactic.IntervalCases
/-! Lemmas about the word layout and the parser of `PdgCode`. -/
set_option linter.unusedSectionVars false
set_option linter.unusedSimpArgs false
set_option linter.unusedVariables false
namespace Verif.Pdg

/-- The word with the given sign bit and digits. -/
def mk (s n r l q1 q2 q3 j : Nat) : Nat :=
  s * 2147483648 + n * 16777216 + r * 1048576 + l * 65536 + q1 * 4096 + q2 * 256 + q3 * 16 + j

/-- Only the sign bit. -/
def sgnWord (s : Nat) : Nat := s * 2147483648

/-- The word of a nucleus. -/
def mkNuc (s l z a i : Nat) : Nat :=
  s * 2147483648 + 1073741824 + i * 67108864 + a * 65536 + z * 64 + l

section mk
variable {s n' r l q1 q2 q3 j : Nat} (hs : s < 2) (hn : n' < 16) (hr : r < 16) (hl : l < 16)
  (h1 : q1 < 16) (h2 : q2 < 16) (h3 : q3 < 16) (hj : j < 16)
include hs hn hr hl h1 h2 h3 hj

theorem nJ_mk : nJ (mk s n' r l q1 q2 q3 j) = j := by simp only [nJ, bits, mk]; omega
theorem nq3_mk : nq3 (mk s n' r l q1 q2 q3 j) = q3 := by simp only [nq3, bits, mk]; omega
theorem nq2_mk : nq2 (mk s n' r l q1 q2 q3 j) = q2 := by simp only [nq2, bits, mk]; omega
theorem nq1_mk : nq1 (mk s n' r l q1 q2 q3 j) = q1 := by simp only [nq1, bits, mk]; omega
theorem nL_mk : nL (mk s n' r l q1 q2 q3 j) = l := by simp only [nL, bits, mk]; omega
theorem nR_mk : nR (mk s n' r l q1 q2 q3 j) = r := by simp only [nR, bits, mk]; omega
theorem n_mk : n (mk s n' r l q1 q2 q3 j) = n' := by simp only [n, bits, mk]; omega
theorem anti_mk : anti (mk s n' r l q1 q2 q3 j) = (s == 1) := by
  have : bits (mk s n' r l q1 q2 q3 j) 31 1 = s := by simp only [bits, mk]; omega
  simp only [anti, this]
theorem isNucleus_mk : isNucleus (mk s n' r l q1 q2 q3 j) = false := by
  have : bits (mk s n' r l q1 q2 q3 j) 30 1 = 0 := by simp only [bits, mk]; omega
  simp [isNucleus, this]
end mk

section mkNuc
variable {s l z a i : Nat} (hs : s < 2) (hl : l < 64) (hz : z < 1024) (ha : a < 1024) (hi : i < 16)
include hs hl hz ha hi
theorem nLambda_mk : nLambda (mkNuc s l z a i) = l := by simp only [nLambda, bits, mkNuc]; omega
theorem Z_mk : Z (mkNuc s l z a i) = z := by simp only [Z, bits, mkNuc]; omega
theorem A_mk : A (mkNuc s l z a i) = a := by simp only [A, bits, mkNuc]; omega
theorem I_mk : I (mkNuc s l z a i) = i := by simp only [I, bits, mkNuc]; omega
theorem anti_mkNuc : anti (mkNuc s l z a i) = (s == 1) := by
  have : bits (mkNuc s l z a i) 31 1 = s := by simp only [bits, mkNuc]; omega
  simp only [anti, this]
theorem isNucleus_mkNuc : isNucleus (mkNuc s l z a i) = true := by
  have : bits (mkNuc s l z a i) 30 1 = 1 := by simp only [bits, mkNuc]; omega
  simp [isNucleus, this]
end mkNuc

theorem setBits_zero {d lo w v : Nat} (h : bits d lo w = 0) (hv : v < 2 ^ w) :
    setBits d lo w v = d + v * 2 ^ lo := by
  simp [setBits, h, Nat.mod_eq_of_lt hv]

/-- Bind inversion. -/
theorem bind_ok {α β : Type} {x : Except Err α} {f : α → Except Err β} {b : β} :
    (x >>= f) = .ok b ↔ ∃ a, x = .ok a ∧ f a = .ok b := by
  cases x <;> simp [bind, Except.bind]

theorem digit_lt {c : Char} {v : Nat} (h : digit c = .ok v) : v < 16 := by
  unfold digit at h
  split_ifs at h <;> simp at h <;> omega

theorem field_false (lo lim : Nat) (st : Nat × List Char) : field false lo lim st = .ok st := rfl

theorem field_cons {lo lim d d' v : Nat} {c : Char} {cs : List Char} (h : digit c = .ok v)
    (h0 : bits d lo 4 = 0) (hd : d + v * 2 ^ lo = d') :
    field true lo lim (d, c :: cs) =
      if lim < v then .error .invalidPdgCode else .ok (d', cs) := by
  have hv := digit_lt h
  have e : setBits d lo 4 v = d' := by rw [setBits_zero h0 (by omega), hd]
  have b : bits d' lo 4 = v := by
    rw [← hd]
    simp only [bits] at h0 ⊢
    rw [Nat.add_mul_div_right _ _ (Nat.two_pow_pos lo)]
    omega
  simp [field, next, h, bind, Except.bind, e, b, pure, Except.pure]

theorem field_inv {lo lim d : Nat} {c : Char} {cs : List Char} {st : Nat × List Char}
    (h : field true lo lim (d, c :: cs) = .ok st) : ∃ v, digit c = .ok v ∧ st.2 = cs := by
  simp only [field, if_true, next, List.headD_cons, bind_ok] at h
  obtain ⟨v, hv, h⟩ := h
  split_ifs at h
  simp only [pure, Except.pure, Except.ok.injEq] at h
  exact ⟨v, hv, by simp [← h]⟩

theorem addJ_cons {d v : Nat} {c : Char} {cs : List Char} (h : digit c = .ok v) :
    addJ (d, c :: cs) = .ok (setBits d 0 4 (nJ d + v), cs) := by
  simp [addJ, next, h, bind, Except.bind, pure, Except.pure]

theorem addJ_inv {d : Nat} {c : Char} {cs : List Char} {st : Nat × List Char}
    (h : addJ (d, c :: cs) = .ok st) : ∃ v, digit c = .ok v ∧ st.2 = cs := by
  simp only [addJ, next, List.headD_cons, bind_ok] at h
  obtain ⟨v, hv, h⟩ := h
  simp only [pure, Except.pure, Except.ok.injEq] at h
  exact ⟨v, hv, by simp [← h]⟩

/-- What `digitsFromString` does with eight digit values (missing leading digits are 0). -/
def core (s a n r l q1 q2 q3 j : Nat) : Except Err Nat :=
  if 6 < q1 ∨ 6 < q2 ∨ 6 < q3 then .error .invalidPdgCode
  else do
    check (mk s n r l q1 q2 q3 ((a + j) % 16))
    return mk s n r l q1 q2 q3 ((a + j) % 16)

/-- The last four digits, for any prefix. -/
theorem tail_gen {d d1 d2 d3 d4 v1 v2 v3 vj : Nat} {c1 c2 c3 cj : Char}
    (h1 : digit c1 = .ok v1) (h2 : digit c2 = .ok v2) (h3 : digit c3 = .ok v3)
    (hj : digit cj = .ok vj)
    (b1 : bits d 12 4 = 0) (e1 : d + v1 * 2 ^ 12 = d1)
    (b2 : bits d1 8 4 = 0) (e2 : d1 + v2 * 2 ^ 8 = d2)
    (b3 : bits d2 4 4 = 0) (e3 : d2 + v3 * 2 ^ 4 = d3)
    (e4 : setBits d3 0 4 (nJ d3 + vj) = d4) :
    (do let st ← field true 12 6 (d, [c1, c2, c3, cj])
        let st ← field true 8 6 st
        let st ← field true 4 6 st
        let st ← addJ st
        check st.1
        return st.1 : Except Err Nat) =
      if 6 < v1 ∨ 6 < v2 ∨ 6 < v3 then .error .invalidPdgCode
      else do check d4; return d4 := by
  rw [field_cons h1 b1 e1]
  by_cases g1 : 6 < v1
  · simp [g1, bind, Except.bind]
  rw [if_neg g1]
  simp only [bind, Except.bind]
  rw [field_cons h2 b2 e2]
  by_cases g2 : 6 < v2
  · simp [g2]
  rw [if_neg g2]
  simp only
  rw [field_cons h3 b3 e3]
  by_cases g3 : 6 < v3
  · simp [g3]
  rw [if_neg g3]
  simp only
  rw [addJ_cons hj, e4]
  simp [g1, g2, g3]

theorem tail_eq {s a n' r l v1 v2 v3 vj : Nat} {c1 c2 c3 cj : Char} (hs : s < 2) (ha : a < 16)
    (hn : n' < 16) (hr : r < 16) (hl : l < 16)
    (h1 : digit c1 = .ok v1) (h2 : digit c2 = .ok v2) (h3 : digit c3 = .ok v3)
    (hj : digit cj = .ok vj) :
    (do let st ← field true 12 6 (mk s n' r l 0 0 0 a, [c1, c2, c3, cj])
        let st ← field true 8 6 st
        let st ← field true 4 6 st
        let st ← addJ st
        check st.1
        return st.1 : Except Err Nat) = core s a n' r l v1 v2 v3 vj := by
  have := digit_lt h1
  have := digit_lt h2
  have := digit_lt h3
  have := digit_lt hj
  unfold core
  refine tail_gen (d1 := mk s n' r l v1 0 0 a) (d2 := mk s n' r l v1 v2 0 a)
    (d3 := mk s n' r l v1 v2 v3 a) h1 h2 h3 hj ?_ ?_ ?_ ?_ ?_ ?_ ?_
  · simp only [bits, mk]; omega
  · simp only [mk]; omega
  · simp only [bits, mk]; omega
  · simp only [mk]; omega
  · simp only [bits, mk]; omega
  · simp only [mk]; omega
  · rw [nJ_mk hs hn hr hl (by omega) (by omega) (by omega) ha]
    simp only [setBits, bits, mk]; omega

/-- Leading digits. -/
theorem n_eq {s a v : Nat} {c : Char} {cs : List Char} (hs : s < 2) (ha : a < 16)
    (h : digit c = .ok v) :
    field true 24 15 (mk s 0 0 0 0 0 0 a, c :: cs) = .ok (mk s v 0 0 0 0 0 a, cs) := by
  have := digit_lt h
  rw [field_cons (d' := mk s v 0 0 0 0 0 a) h (by simp only [bits, mk]; omega)
    (by simp only [mk]; omega), if_neg (by omega)]

theorem nR_eq {s a n' v : Nat} {c : Char} {cs : List Char} (hs : s < 2) (ha : a < 16)
    (hn : n' < 16) (h : digit c = .ok v) :
    field true 20 15 (mk s n' 0 0 0 0 0 a, c :: cs) = .ok (mk s n' v 0 0 0 0 a, cs) := by
  have := digit_lt h
  rw [field_cons (d' := mk s n' v 0 0 0 0 a) h (by simp only [bits, mk]; omega)
    (by simp only [mk]; omega), if_neg (by omega)]

theorem nL_eq {s a n' r v : Nat} {c : Char} {cs : List Char} (hs : s < 2) (ha : a < 16)
    (hn : n' < 16) (hr : r < 16) (h : digit c = .ok v) :
    field true 16 15 (mk s n' r 0 0 0 0 a, c :: cs) = .ok (mk s n' r v 0 0 0 a, cs) := by
  have := digit_lt h
  rw [field_cons (d' := mk s n' r v 0 0 0 a) h (by simp only [bits, mk]; omega)
    (by simp only [mk]; omega), if_neg (by omega)]

theorem ok_bind {α β : Type} (a : α) (f : α → Except Err β) : (Except.ok a >>= f) = f a := rfl

theorem addJIf_false (st : Nat × List Char) : addJIf false st = .ok st := rfl

/-- The digit '0', used to pad. -/
theorem digit_zero : digit '0' = .ok 0 := by decide

theorem parse8 {s a vn vr vl v1 v2 v3 vj : Nat} {ca cn cr cl c1 c2 c3 cj : Char} (hs : s < 2)
    (ha : digit ca = .ok a) (hn : digit cn = .ok vn) (hr : digit cr = .ok vr)
    (hl : digit cl = .ok vl) (h1 : digit c1 = .ok v1) (h2 : digit c2 = .ok v2)
    (h3 : digit c3 = .ok v3) (hj : digit cj = .ok vj) :
    digitsFromString (sgnWord s) [ca, cn, cr, cl, c1, c2, c3, cj] =
      core s a vn vr vl v1 v2 v3 vj := by
  have la := digit_lt ha
  rw [← tail_eq hs la (digit_lt hn) (digit_lt hr) (digit_lt hl) h1 h2 h3 hj]
  have e : setBits (sgnWord s) 0 4 (nJ (sgnWord s) + a) = mk s 0 0 0 0 0 0 a := by
    simp only [sgnWord, setBits, nJ, bits, mk]; omega
  have h0 : addJIf true (sgnWord s, [ca, cn, cr, cl, c1, c2, c3, cj]) =
      .ok (mk s 0 0 0 0 0 0 a, [cn, cr, cl, c1, c2, c3, cj]) := by
    simp only [addJIf, if_true]
    rw [addJ_cons ha, e]
  simp only [digitsFromString, List.length_cons, List.length_nil]
  norm_num
  simp only [h0, ok_bind, n_eq hs la hn, nR_eq hs la (digit_lt hn) hr,
    nL_eq hs la (digit_lt hn) (digit_lt hr) hl]

theorem sgn_mk (s : Nat) : sgnWord s = mk s 0 0 0 0 0 0 0 := by simp [mk, sgnWord]

theorem parse7 {s vn vr vl v1 v2 v3 vj : Nat} {cn cr cl c1 c2 c3 cj : Char} (hs : s < 2)
    (hn : digit cn = .ok vn) (hr : digit cr = .ok vr)
    (hl : digit cl = .ok vl) (h1 : digit c1 = .ok v1) (h2 : digit c2 = .ok v2)
    (h3 : digit c3 = .ok v3) (hj : digit cj = .ok vj) :
    digitsFromString (sgnWord s) [cn, cr, cl, c1, c2, c3, cj] =
      core s 0 vn vr vl v1 v2 v3 vj := by
  rw [← tail_eq hs (by omega) (digit_lt hn) (digit_lt hr) (digit_lt hl) h1 h2 h3 hj, sgn_mk]
  simp only [digitsFromString, List.length_cons, List.length_nil]
  norm_num
  simp only [addJIf_false, ok_bind, n_eq hs (by omega : 0 < 16) hn, nR_eq hs (by omega : 0 < 16) (digit_lt hn) hr,
    nL_eq hs (by omega : 0 < 16) (digit_lt hn) (digit_lt hr) hl]

theorem parse6 {s vr vl v1 v2 v3 vj : Nat} {cr cl c1 c2 c3 cj : Char} (hs : s < 2)
    (hr : digit cr = .ok vr)
    (hl : digit cl = .ok vl) (h1 : digit c1 = .ok v1) (h2 : digit c2 = .ok v2)
    (h3 : digit c3 = .ok v3) (hj : digit cj = .ok vj) :
    digitsFromString (sgnWord s) [cr, cl, c1, c2, c3, cj] =
      core s 0 0 vr vl v1 v2 v3 vj := by
  rw [← tail_eq hs (by omega) (by omega) (digit_lt hr) (digit_lt hl) h1 h2 h3 hj, sgn_mk]
  simp only [digitsFromString, List.length_cons, List.length_nil]
  norm_num
  simp only [addJIf_false, ok_bind, field_false, nR_eq hs (by omega : 0 < 16) (by omega : 0 < 16) hr,
    nL_eq hs (by omega : 0 < 16) (by omega : 0 < 16) (digit_lt hr) hl]

theorem parse5 {s vl v1 v2 v3 vj : Nat} {cl c1 c2 c3 cj : Char} (hs : s < 2)
    (hl : digit cl = .ok vl) (h1 : digit c1 = .ok v1) (h2 : digit c2 = .ok v2)
    (h3 : digit c3 = .ok v3) (hj : digit cj = .ok vj) :
    digitsFromString (sgnWord s) [cl, c1, c2, c3, cj] =
      core s 0 0 0 vl v1 v2 v3 vj := by
  rw [← tail_eq hs (by omega) (by omega) (by omega) (digit_lt hl) h1 h2 h3 hj, sgn_mk]
  simp only [digitsFromString, List.length_cons, List.length_nil]
  norm_num
  simp only [addJIf_false, ok_bind, field_false, nL_eq hs (by omega : 0 < 16) (by omega : 0 < 16) (by omega : 0 < 16) hl]

theorem parse4 {s v1 v2 v3 vj : Nat} {c1 c2 c3 cj : Char} (hs : s < 2)
    (h1 : digit c1 = .ok v1) (h2 : digit c2 = .ok v2)
    (h3 : digit c3 = .ok v3) (hj : digit cj = .ok vj) :
    digitsFromString (sgnWord s) [c1, c2, c3, cj] = core s 0 0 0 0 v1 v2 v3 vj := by
  rw [← tail_eq hs (by omega) (by omega) (by omega) (by omega) h1 h2 h3 hj, sgn_mk]
  simp only [digitsFromString, List.length_cons, List.length_nil]
  norm_num
  simp only [addJIf_false, ok_bind, field_false]

theorem sgn_field_zero {s lo : Nat} (cs : List Char) (h : bits (sgnWord s) lo 4 = 0) :
    field true lo 6 (sgnWord s, '0' :: cs) = .ok (sgnWord s, cs) := by
  rw [field_cons (d' := sgnWord s) digit_zero h (by rw [Nat.zero_mul, Nat.add_zero]),
    if_neg (by omega)]

theorem sgn_bits {s : Nat} : bits (sgnWord s) 12 4 = 0 ∧ bits (sgnWord s) 8 4 = 0 ∧
    bits (sgnWord s) 4 4 = 0 := by
  simp only [bits, sgnWord]; omega

theorem pad1 {w : Nat} {c2 c3 cj : Char}
    (key : ∀ cs, field true 12 6 (w, '0' :: cs) = .ok (w, cs)) :
    digitsFromString w [c2, c3, cj] = digitsFromString w ['0', c2, c3, cj] := by
  simp only [digitsFromString, List.length_cons, List.length_nil]
  norm_num
  simp only [addJIf_false, ok_bind, field_false, key]

theorem pad2 {w : Nat} {c3 cj : Char}
    (key : ∀ cs, field true 8 6 (w, '0' :: cs) = .ok (w, cs)) :
    digitsFromString w [c3, cj] = digitsFromString w ['0', c3, cj] := by
  simp only [digitsFromString, List.length_cons, List.length_nil]
  norm_num
  simp only [addJIf_false, ok_bind, field_false, key]

theorem pad3 {w : Nat} {cj : Char}
    (key : ∀ cs, field true 4 6 (w, '0' :: cs) = .ok (w, cs)) :
    digitsFromString w [cj] = digitsFromString w ['0', cj] := by
  simp only [digitsFromString, List.length_cons, List.length_nil]
  norm_num
  simp only [addJIf_false, ok_bind, field_false, key]

theorem parse3 {s v2 v3 vj : Nat} {c2 c3 cj : Char} (hs : s < 2) (h2 : digit c2 = .ok v2)
    (h3 : digit c3 = .ok v3) (hj : digit cj = .ok vj) :
    digitsFromString (sgnWord s) [c2, c3, cj] = core s 0 0 0 0 0 v2 v3 vj := by
  rw [pad1 fun cs => sgn_field_zero cs sgn_bits.1, parse4 hs digit_zero h2 h3 hj]
theorem parse2 {s v3 vj : Nat} {c3 cj : Char} (hs : s < 2)
    (h3 : digit c3 = .ok v3) (hj : digit cj = .ok vj) :
    digitsFromString (sgnWord s) [c3, cj] = core s 0 0 0 0 0 0 v3 vj := by
  rw [pad2 fun cs => sgn_field_zero cs sgn_bits.2.1, parse3 hs digit_zero h3 hj]
theorem parse1 {s vj : Nat} {cj : Char} (hs : s < 2) (hj : digit cj = .ok vj) :
    digitsFromString (sgnWord s) [cj] = core s 0 0 0 0 0 0 0 vj := by
  rw [pad3 fun cs => sgn_field_zero cs sgn_bits.2.2, parse2 hs digit_zero hj]

end Verif.Pdg
