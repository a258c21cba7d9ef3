import Verif.Cast.Model
import Mathlib.Tactic.Ring
import Mathlib.Tactic.Linarith
import Mathlib.Tactic.Positivity
import Mathlib.Tactic.NormNum

/-! # C56: numeric conversions are exact or rejected -/

namespace Verif.Cast

/-- The values of an integer type: `0 … 2ⁿ-1`, or `-2ⁿ⁻¹ … 2ⁿ⁻¹-1`. -/
def Representable (t : IntTy) (v : Int) : Prop :=
  if t.signed then -2 ^ (t.bits - 1) ≤ v ∧ v < 2 ^ (t.bits - 1) else 0 ≤ v ∧ v < 2 ^ t.bits

theorem two_half {n : Nat} (h : 0 < n) : (2 : Int) ^ n = 2 * 2 ^ (n - 1) := by
  obtain ⟨m, rfl⟩ : ∃ m, n = m + 1 := ⟨n - 1, by omega⟩
  rw [pow_succ, Nat.add_sub_cancel, mul_comm]

theorem wrap_rep {t : IntTy} (h : 0 < t.bits) (v : Int) : Representable t (t.wrap v) := by
  have hp : (0 : Int) < 2 ^ (t.bits - 1) := by positivity
  have h2 := two_half h
  have h1 := Int.emod_nonneg v (b := 2 ^ t.bits) (by omega)
  have h3 := Int.emod_lt_of_pos v (b := 2 ^ t.bits) (by omega)
  unfold Representable IntTy.wrap
  cases hs : t.signed
  · simp [h1, h3]
  · simp only [if_true, true_and]
    split <;> constructor <;> omega

theorem wrap_id {t : IntTy} (h : 0 < t.bits) {v : Int} (hv : Representable t v) : t.wrap v = v := by
  have hp : (0 : Int) < 2 ^ (t.bits - 1) := by positivity
  have h2 := two_half h
  unfold Representable at hv
  unfold IntTy.wrap
  cases hs : t.signed
  · simp only [hs, Bool.false_eq_true, if_false] at hv
    simp [Int.emod_eq_of_lt hv.1 hv.2]
  · simp only [hs, if_true] at hv
    by_cases h0 : 0 ≤ v
    · rw [Int.emod_eq_of_lt h0 (by omega)]
      simp; omega
    · have : v % 2 ^ t.bits = v + 2 ^ t.bits := by
        rw [← Int.add_emod_right, Int.emod_eq_of_lt (by omega) (by omega)]
      rw [this]
      simp; omega

/-- **C56.** For every pair of integer types and every value of the source type, the conversion gives
the same value if the target type has it, and throws otherwise. -/
theorem C56_exact_or_rejected (src dst : IntTy) (hs : 0 < src.bits) (hd : 0 < dst.bits) (v : Int)
    (hv : Representable src v) :
    (Representable dst v → numericCast src dst v = some v) ∧
      (¬ Representable dst v → numericCast src dst v = none) := by
  constructor
  · intro h
    simp [numericCast, wrap_id hd h, wrap_id hs hv]
  · intro h
    unfold numericCast
    have hr := wrap_rep hd v
    generalize dst.wrap v = t at hr
    rw [if_pos]
    by_contra hc
    simp only [not_or, not_and, ne_eq, not_not] at hc
    obtain ⟨h1, h2⟩ := hc
    -- the intermediate value is not representable in the source type, else it would be `v`
    have hn : ¬ Representable src t := by
      intro ht
      rw [wrap_id hs ht] at h1
      exact h (h1 ▸ hr)
    have hps : (0 : Int) < 2 ^ (src.bits - 1) := by positivity
    have hpd : (0 : Int) < 2 ^ (dst.bits - 1) := by positivity
    have e1 := two_half hs
    have e2 := two_half hd
    unfold Representable at *
    cases hsg : src.signed <;> cases hdg : dst.signed <;>
      simp only [hsg, hdg, Bool.false_eq_true, if_false, if_true, not_true_eq_false, false_implies,
        not_false_eq_true, forall_const, Bool.true_eq_false, decide_eq_decide] at * <;> omega

/-- **C56 (corollary).** A value is never changed: whatever the conversion returns is the argument. -/
theorem C56_never_changes (src dst : IntTy) (hs : 0 < src.bits) (hd : 0 < dst.bits) (v w : Int)
    (hv : Representable src v) (h : numericCast src dst v = some w) : w = v := by
  obtain ⟨h1, h2⟩ := C56_exact_or_rejected src dst hs hd v hv
  by_cases hr : Representable dst v
  · rw [h1 hr] at h; cases h; rfl
  · rw [h2 hr] at h; cases h

/-- The contract of the conversion of an integer to `double`: integers up to `2 ^ 53` are exact. -/
def Rounding (rnd : Int → ℚ) : Prop := ∀ n : Int, |n| ≤ 2 ^ 53 → rnd n = n

theorem lo_hi {t : IntTy} {v : Int} : (t.lo ≤ v ∧ v ≤ t.hi) ↔ Representable t v := by
  unfold IntTy.lo IntTy.hi Representable
  cases t.signed <;> simp <;> omega

theorem rep_small {t : IntTy} (hb : t.bits ≤ 53) {v : Int} (h : Representable t v) : |v| ≤ 2 ^ 53 := by
  have h1 : (2 : Int) ^ t.bits ≤ 2 ^ 53 := pow_le_pow_right₀ (by norm_num) hb
  have h2 : (2 : Int) ^ (t.bits - 1) ≤ 2 ^ 53 := pow_le_pow_right₀ (by norm_num) (by omega)
  unfold Representable at h
  rw [abs_le]
  cases hs : t.signed <;> simp only [hs, Bool.false_eq_true, if_false, if_true] at h <;>
    constructor <;> omega

theorem trunc_int (n : Int) : trunc (n : ℚ) = n := by
  unfold trunc
  split <;> simp

/-- **C56 (from double).** Converting a `double` to an integer type of at most 53 bits (so `int` and
`unsigned int`) gives the integer it is equal to, if it is one the type has, and throws otherwise — for
fractions, numbers out of range, infinities and not-a-number — whatever value `u` of the type the
undefined out-of-range conversion gives. -/
theorem C56_double {rnd : Int → ℚ} (hr : Rounding rnd) (dst : IntTy) (hb : dst.bits ≤ 53) (u : Int)
    (hu : Representable dst u) (x : Dbl) :
    (∀ n, Representable dst n → x = .fin n → numericCastDouble rnd dst u x = some n) ∧
      ((∀ n, Representable dst n → x ≠ .fin n) → numericCastDouble rnd dst u x = none) := by
  constructor
  · rintro n hn rfl
    have h1 : ofDouble dst u (.fin (n : ℚ)) = n := by
      simp only [ofDouble]
      rw [trunc_int, if_pos (lo_hi.2 hn)]
    simp only [numericCastDouble]
    rw [h1, hr n (rep_small hb hn)]
    simp [Dbl.eq, Dbl.neg]
  · intro hx
    have ht : Representable dst (ofDouble dst u x) := by
      cases x with
      | nan => exact hu
      | inf b => exact hu
      | fin y =>
        simp only [ofDouble]
        split
        · rename_i h; exact lo_hi.1 h
        · exact hu
    simp only [numericCastDouble]
    generalize ofDouble dst u x = t at ht
    rw [hr t (rep_small hb ht)]
    have : Dbl.eq (.fin (t : ℚ)) x = false := by
      cases x with
      | nan => rfl
      | inf b => rfl
      | fin y =>
        have := hx t ht
        simp only [ne_eq, Dbl.fin.injEq] at this
        simp [Dbl.eq, Ne.symm this]
    simp [this]

/-- **C56 (64 bits).** For 64-bit targets the check can be defeated: on a machine whose out-of-range
conversion gives the largest value, `2 ^ 64` is converted to `2 ^ 64 - 1` without an exception. -/
theorem C56_double_64_false :
    ∃ rnd : Int → ℚ, Rounding rnd ∧ numericCastDouble rnd ⟨false, 64⟩ (2 ^ 64 - 1) (.fin (2 ^ 64))
      = some (2 ^ 64 - 1) := by
  refine ⟨fun n => if n = 2 ^ 64 - 1 then 2 ^ 64 else n, ?_, ?_⟩
  · intro n hn
    rw [abs_le] at hn
    have : n ≠ 2 ^ 64 - 1 := by omega
    simp only [if_neg this]
  · have h1 : ofDouble ⟨false, 64⟩ (2 ^ 64 - 1) (.fin (2 ^ 64)) = 2 ^ 64 - 1 := by
      have : trunc (2 ^ 64 : ℚ) = 2 ^ 64 := by
        have := trunc_int (2 ^ 64)
        push_cast at this
        exact this
      simp only [ofDouble]
      rw [this]
      simp [IntTy.lo, IntTy.hi]
    simp only [numericCastDouble]
    rw [h1]
    simp [Dbl.eq, Dbl.neg]

/-! Concrete cases: a size that fits, one that does not, a negative number to an unsigned type, and a
large unsigned number to a signed type. -/
example : numericCast ⟨false, 64⟩ ⟨false, 32⟩ 4294967295 = some 4294967295 ∧
    numericCast ⟨false, 64⟩ ⟨false, 32⟩ 4294967296 = none ∧
    numericCast ⟨true, 32⟩ ⟨false, 32⟩ (-1) = none ∧
    numericCast ⟨false, 32⟩ ⟨true, 32⟩ 4294967295 = none ∧
    numericCast ⟨true, 64⟩ ⟨true, 32⟩ (-2147483648) = some (-2147483648) := by decide
example : Representable ⟨false, 64⟩ 4294967296 ∧ Representable ⟨true, 32⟩ (-1) ∧
    Rounding (fun n => (n : ℚ)) := by
  refine ⟨by simp [Representable], by simp [Representable], fun n _ => rfl⟩

end Verif.Cast
