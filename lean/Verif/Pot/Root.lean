import Mathlib.Analysis.Real.Sqrt
import Mathlib.Topology.Order.IntermediateValue
import Mathlib.Topology.Instances.Real.Lemmas
import Mathlib.Tactic.Linarith
import Mathlib.Tactic.NormNum
import Mathlib.Tactic.Ring
import Mathlib.Tactic.Positivity
import Mathlib.Tactic.SplitIfs
/-!
Model of rootsolver.h and C131. The GSL is modelled by what it promises: `step i` is the interval after the
`i`-th iteration or `none` for an error.
-/
namespace Verif.Pot

/-! ### Model -/

open Classical in
/-- `gsl_root_test_interval(xlow, xhigh, 0, 1e-7)` (documentation of the GSL: the least absolute value in the
interval is zero if the interval contains zero), rootsolver.h:73 and 100. -/
noncomputable def testInterval (a b : ℝ) : Bool :=
  decide (|b - a| < 1 / 10000000 * (if (0 < a ∧ 0 < b) ∨ (a < 0 ∧ b < 0) then min |a| |b| else 0))

/-- The loop, rootsolver.h:63-80, with the number of iterations left. -/
noncomputable def iterate (step : Nat → Option (ℝ × ℝ)) : Nat → Nat → Option ℝ
  | 0, _ => none
  | n + 1, i => match step i with
    | none => none
    | some (a, b) => if testInterval a b then some (1 / 2 * (a + b)) else iterate step n (i + 1)

open Classical in
/-- `try_find_root`, rootsolver.h:46-83: at least one iteration is made. -/
noncomputable def tryFindRoot (f : ℝ → ℝ) (step : Nat → Option (ℝ × ℝ)) (lo hi : ℝ) (itermax : Nat) : Option ℝ :=
  if f lo * f hi > 0 then none else iterate step (max 1 itermax) 0

/-- What is done with solver objects: an equation is given to a new object, an object is destroyed, a root is
searched; objects and equations are numbered. -/
inductive SolverOp
  | construct (obj eq : Nat) | destroy (obj : Nat) | solve (obj : Nat)

/-- The static pointer `root_eq_` (rootsolver.h:92-99, 36-40): the equation that each search uses, `none` for the null
pointer. -/
def usedEqs : Option Nat → List SolverOp → List (Nat × Option Nat)
  | _, [] => []
  | _, .construct _ e :: ops => usedEqs (some e) ops
  | _, .destroy _ :: ops => usedEqs none ops
  | s, .solve o :: ops => (o, s) :: usedEqs s ops

/-! ### Specification -/

/-- The GSL keeps an interval inside of the first one with a change of sign. -/
def Brackets (f : ℝ → ℝ) (step : Nat → Option (ℝ × ℝ)) (lo hi : ℝ) : Prop :=
  ∀ i a b, step i = some (a, b) → lo ≤ a ∧ a ≤ b ∧ b ≤ hi ∧ f a * f b ≤ 0

/-- The equation each search should use: the one of its object. -/
def ownEqs : (Nat → Option Nat) → List SolverOp → List (Nat × Option Nat)
  | _, [] => []
  | m, .construct o e :: ops => ownEqs (fun x => if x = o then some e else m x) ops
  | m, .destroy o :: ops => ownEqs (fun x => if x = o then none else m x) ops
  | m, .solve o :: ops => (o, m o) :: ownEqs m ops

/-- At most one object lives at any time, and only it is used. -/
def OneAtATime : Option Nat → List SolverOp → Prop
  | _, [] => True
  | alive, .construct o _ :: ops => alive = none ∧ OneAtATime (some o) ops
  | alive, .destroy o :: ops => alive = some o ∧ OneAtATime none ops
  | alive, .solve o :: ops => alive = some o ∧ OneAtATime alive ops

/-! ### Proofs -/

theorem testInterval_spec {a b r : ℝ} (h : testInterval a b = true) (ha : a ≤ r) (hb : r ≤ b) :
    |1 / 2 * (a + b) - r| ≤ 1 / 20000000 * |r| ∧ r ≠ 0 := by
  unfold testInterval at h
  rw [decide_eq_true_eq] at h
  split_ifs at h with hc
  · have hw : |b - a| = b - a := abs_of_nonneg (by linarith)
    rw [hw] at h
    have hm : min |a| |b| ≤ |r| := by
      rcases hc with ⟨h1, h2⟩ | ⟨h1, h2⟩
      · refine (min_le_left _ _).trans ?_
        rw [abs_of_pos h1, abs_of_pos (lt_of_lt_of_le h1 ha)]; exact ha
      · refine (min_le_right _ _).trans ?_
        rw [abs_of_neg h2, abs_of_neg (lt_of_le_of_lt hb h2)]; linarith
    constructor
    · rw [abs_le]; constructor <;> linarith
    · rcases hc with ⟨h1, _⟩ | ⟨_, h2⟩
      · exact (lt_of_lt_of_le h1 ha).ne'
      · exact (lt_of_le_of_lt hb h2).ne
  · rw [mul_zero] at h
    exact absurd h (not_lt.2 (abs_nonneg _))

theorem iterate_spec {step : Nat → Option (ℝ × ℝ)} {n i : Nat} {x : ℝ} (h : iterate step n i = some x) :
    ∃ j a b, i ≤ j ∧ j < i + n ∧ step j = some (a, b) ∧ testInterval a b = true ∧ x = 1 / 2 * (a + b) := by
  induction n generalizing i with
  | zero => exact absurd h (by simp [iterate])
  | succ n ih =>
    rw [iterate] at h
    split at h
    · exact absurd h (by simp)
    · rename_i a b hs
      split_ifs at h with ht
      · exact ⟨i, a, b, le_rfl, by omega, hs, ht, (Option.some.inj h).symm⟩
      · obtain ⟨j, a, b, h1, h2, h3⟩ := ih h
        exact ⟨j, a, b, by omega, by omega, h3⟩

/-- The found value is the middle of an interval with a change of sign, whose length is less than `1e-7` of any
of its points. -/
theorem C131_bracket {f : ℝ → ℝ} {step : Nat → Option (ℝ × ℝ)} {lo hi : ℝ} {itermax : Nat} {x : ℝ}
    (hb : Brackets f step lo hi) (h : tryFindRoot f step lo hi itermax = some x) :
    ∃ a b, lo ≤ a ∧ a ≤ x ∧ x ≤ b ∧ b ≤ hi ∧ f a * f b ≤ 0 ∧
      ∀ r, a ≤ r → r ≤ b → |x - r| ≤ 1 / 20000000 * |r| ∧ r ≠ 0 := by
  unfold tryFindRoot at h
  split_ifs at h
  obtain ⟨j, a, b, -, -, hs, ht, hx⟩ := iterate_spec h
  obtain ⟨h1, h2, h3, h4⟩ := hb j a b hs
  refine ⟨a, b, h1, by linarith, by linarith, h3, h4, fun r ha hb' => ?_⟩
  rw [hx]
  exact testInterval_spec ht ha hb'

theorem root_between {f : ℝ → ℝ} {a b : ℝ} (hab : a ≤ b) (hc : ContinuousOn f (Set.Icc a b)) (h : f a * f b ≤ 0) :
    ∃ r, a ≤ r ∧ r ≤ b ∧ f r = 0 := by
  rcases le_total (f a) 0 with h1 | h1
  · rcases le_total 0 (f b) with h2 | h2
    · obtain ⟨r, hr, e⟩ := intermediate_value_Icc hab hc ⟨h1, h2⟩
      exact ⟨r, hr.1, hr.2, e⟩
    · have h0 : 0 ≤ f a * f b := mul_nonneg_of_nonpos_of_nonpos h1 h2
      rcases mul_eq_zero.1 (le_antisymm h h0) with e | e
      · exact ⟨a, le_rfl, hab, e⟩
      · exact ⟨b, hab, le_rfl, e⟩
  · rcases le_total 0 (f b) with h2 | h2
    · have h0 : 0 ≤ f a * f b := mul_nonneg h1 h2
      rcases mul_eq_zero.1 (le_antisymm h h0) with e | e
      · exact ⟨a, le_rfl, hab, e⟩
      · exact ⟨b, hab, le_rfl, e⟩
    · obtain ⟨r, hr, e⟩ := intermediate_value_Icc' hab hc ⟨h2, h1⟩
      exact ⟨r, hr.1, hr.2, e⟩

/-- **C131.** What is found is a root of a continuous function inside of the interval, to half of `1e-7` of its size. -/
theorem C131_root {f : ℝ → ℝ} {step : Nat → Option (ℝ × ℝ)} {lo hi : ℝ} {itermax : Nat} {x : ℝ}
    (hc : ContinuousOn f (Set.Icc lo hi)) (hb : Brackets f step lo hi)
    (h : tryFindRoot f step lo hi itermax = some x) :
    ∃ r, f r = 0 ∧ lo ≤ r ∧ r ≤ hi ∧ |x - r| ≤ 1 / 20000000 * |r| := by
  obtain ⟨a, b, h1, h2, h3, h4, h5, h6⟩ := C131_bracket hb h
  obtain ⟨r, ha, hb', e⟩ := root_between (h2.trans h3) (hc.mono (Set.Icc_subset_Icc h1 h4)) h5
  exact ⟨r, e, h1.trans ha, hb'.trans h4, (h6 r ha hb').1⟩

/-- **C131.** Nothing is found without a change of sign between the ends. -/
theorem C131_same_sign {f : ℝ → ℝ} {lo hi : ℝ} (h : 0 < f lo * f hi) (step : Nat → Option (ℝ × ℝ)) (itermax : Nat) :
    tryFindRoot f step lo hi itermax = none := by
  unfold tryFindRoot; rw [if_pos h]

theorem iterate_complete {step : Nat → Option (ℝ × ℝ)} {n i j : Nat} (hj : i ≤ j ∧ j < i + n)
    (hs : ∀ m, i ≤ m → m ≤ j → ∃ a b, step m = some (a, b))
    (ht : ∀ a b, step j = some (a, b) → testInterval a b = true) : ∃ x, iterate step n i = some x := by
  induction n generalizing i with
  | zero => omega
  | succ n ih =>
    obtain ⟨a, b, e⟩ := hs i le_rfl hj.1
    rw [iterate, e]
    simp only
    by_cases hc : testInterval a b = true
    · exact ⟨_, if_pos hc⟩
    · rw [if_neg hc]
      have hne : i ≠ j := by rintro rfl; exact hc (ht a b e)
      exact ih (by omega) (fun m h1 h2 => hs m (by omega) h2)

/-- **C131.** A root is found if the ends have no common sign and the GSL narrows the interval enough within the
allowed number of iterations. -/
theorem C131_complete {f : ℝ → ℝ} {step : Nat → Option (ℝ × ℝ)} {lo hi : ℝ} {itermax j : Nat}
    (h : f lo * f hi ≤ 0) (hj : j < itermax) (hs : ∀ m ≤ j, ∃ a b, step m = some (a, b))
    (ht : ∀ a b, step j = some (a, b) → 0 < a ∧ a ≤ b ∧ b - a < 1 / 10000000 * a) :
    ∃ x, tryFindRoot f step lo hi itermax = some x := by
  unfold tryFindRoot
  rw [if_neg (not_lt.2 h)]
  refine iterate_complete (j := j) ⟨by omega, by omega⟩ (fun m _ hm => hs m hm) fun a b e => ?_
  obtain ⟨h1, h2, h3⟩ := ht a b e
  unfold testInterval
  rw [decide_eq_true_eq, if_pos (Or.inl ⟨h1, lt_of_lt_of_le h1 h2⟩), abs_of_nonneg (by linarith),
    abs_of_pos h1, abs_of_pos (lt_of_lt_of_le h1 h2), min_eq_left h2]
  exact h3

/-- **C131 is false for a root at zero**: the precision is relative, so whatever the GSL does within its promises and
however many iterations are allowed, the root of `x` between -1 and 1 is not found. -/
theorem C131_zero_false {step : Nat → Option (ℝ × ℝ)} (hb : Brackets (fun x => x) step (-1) 1) (itermax : Nat) :
    tryFindRoot (fun x => x) step (-1) 1 itermax = none := by
  by_contra hc
  obtain ⟨x, hx⟩ := Option.ne_none_iff_exists'.1 hc
  obtain ⟨a, b, h1, h2, h3, h4, h5, h6⟩ := C131_bracket hb hx
  have hab := h2.trans h3
  have ha : a ≤ 0 := by
    by_contra h; push Not at h
    have : 0 < a * b := mul_pos h (lt_of_lt_of_le h hab)
    linarith
  have hb' : 0 ≤ b := by
    by_contra h; push Not at h
    have : 0 < a * b := mul_pos_of_neg_of_neg (lt_of_le_of_lt hab h) h
    linarith
  exact (h6 0 ha hb').2 rfl

theorem own_congr {m m' : Nat → Option Nat} (h : ∀ x, m x = m' x) (ops : List SolverOp) : ownEqs m ops = ownEqs m' ops := by
  rw [funext h]

theorem used_own (ops : List SolverOp) : ∀ (s : Option Nat) (m : Nat → Option Nat) (alive : Option Nat),
    OneAtATime alive ops → (∀ o, alive = some o → m o = s) → usedEqs s ops = ownEqs m ops := by
  induction ops with
  | nil => intros; rfl
  | cons op ops ih =>
    intro s m alive h hm
    cases op with
    | construct o e =>
      refine ih _ _ (some o) h.2 fun x hx => ?_
      cases hx
      simp
    | destroy o => exact ih _ _ none h.2 fun x hx => by cases hx
    | solve o =>
      have e : m o = s := hm o h.1
      simp only [usedEqs, ownEqs, e]
      rw [ih s m alive h.2 hm]

/-- **C131.** If at most one solver lives at any time, each search uses the equation of its solver. -/
theorem C131_own (ops : List SolverOp) (h : OneAtATime none ops) : usedEqs none ops = ownEqs (fun _ => none) ops :=
  used_own ops none _ none h fun o ho => by cases ho

/-- **C131 is false for two solvers**: the first one then uses the equation of the second, and a null pointer after
the second was destroyed. -/
theorem C131_shared_false (a b e e' : Nat) (h : a ≠ b) (he : e ≠ e') :
    let ops := [.construct a e, .construct b e', .solve a, .destroy b, .solve a]
    usedEqs none ops = [(a, some e'), (a, none)] ∧ ownEqs (fun _ => none) ops = [(a, some e), (a, some e)] ∧
      usedEqs none ops ≠ ownEqs (fun _ => none) ops := by
  simp only [usedEqs, ownEqs, if_neg h, if_true]
  refine ⟨trivial, trivial, ?_⟩
  simp [he.symm]

example : OneAtATime none [.construct 1 7, .solve 1, .destroy 1, .construct 2 8, .solve 2, .solve 2, .destroy 2] := by
  simp [OneAtATime]

/-- Intervals halved towards the root 2 of `x - 2` on `[1, 3]` satisfy the promise, and the root is found. -/
example : ∃ step : Nat → Option (ℝ × ℝ), Brackets (fun x => x - 2) step 1 3 ∧
    ∃ x, tryFindRoot (fun x => x - 2) step 1 3 100000 = some x := by
  refine ⟨fun i => if i = 0 then some (1.5, 2.5) else some (2, 2), ?_, ?_⟩
  · intro i a b h
    simp only at h
    split_ifs at h <;>
    · simp only [Option.some.injEq, Prod.mk.injEq] at h
      obtain ⟨rfl, rfl⟩ := h
      norm_num
  · refine C131_complete (j := 1) (by norm_num) (by norm_num) (fun m _ => ?_) fun a b h => ?_
    · split_ifs
      · exact ⟨_, _, rfl⟩
      · exact ⟨_, _, rfl⟩
    · simp only [Nat.one_ne_zero, if_false, Option.some.injEq, Prod.mk.injEq] at h
      obtain ⟨rfl, rfl⟩ := h
      norm_num

end Verif.Pot
