import Verif.Eos.Props
import Mathlib.Data.List.GetD
import Mathlib.Tactic.Tauto

/-!
C148, second part: the file of the table.
-/

namespace Verif.Eos

variable {K : Type}

/-- The element as it is after writing with rounding `re`. -/
def rounded (re : K → K) (x : Elem K) : Elem K := ⟨re x.p, re x.T, re x.mub, re x.mus, re x.muq⟩

theorem getElems_save [Field K] (re : K → K) (t : ℕ → Elem K) (rest : List (Word K)) : ∀ (l : List ℕ),
    getElems l.length (some ((l.flatMap fun k =>
      [.num (re (t k).p), .num (re (t k).T), .num (re (t k).mub), .num (re (t k).mus), .num (re (t k).muq)]) ++ rest)) =
      .ok (l.map fun k => rounded re (t k))
  | [] => rfl
  | k :: l => by
    have ih := getElems_save re t rest l
    rw [List.length_cons]
    unfold getElems
    simp only [List.flatMap_cons, List.cons_append, List.nil_append, getElem, getNum]
    rw [ih]
    rfl

/-- **C148 (file).** A table which was written and is read again has the same number of nodes, and every element and every step
is the one written, up to the rounding of the file; the steps and numbers of nodes which the reading program asked for do
not matter. -/
theorem C148_file [Field K] (rs re : K → K) (tab mine : Tab K) :
    ∃ tab', load mine (save rs re tab) = .ok tab' ∧ tab'.de = rs tab.de ∧ tab'.dnb = rs tab.dnb ∧ tab'.dq = rs tab.dq ∧
      tab'.ne = tab.ne ∧ tab'.nnb = tab.nnb ∧ tab'.nq = tab.nq ∧
      ∀ ie inb iq, ie < tab.ne → inb < tab.nnb → iq < tab.nq →
        tab'.t (index tab'.nnb tab'.nq ie inb iq) = rounded re (tab.t (index tab.nnb tab.nq ie inb iq)) := by
  have h := getElems_save re tab.t [] (List.range (tab.ne * tab.nnb * tab.nq))
  rw [List.length_range, List.append_nil] at h
  refine ⟨⟨rs tab.de, rs tab.dnb, rs tab.dq, tab.ne, tab.nnb, tab.nq, fun k =>
    ((List.range (tab.ne * tab.nnb * tab.nq)).map fun k => rounded re (tab.t k)).getD k ⟨0, 0, 0, 0, 0⟩⟩, ?_, rfl, rfl, rfl, rfl,
    rfl, rfl, ?_⟩
  · unfold load save
    simp only [List.cons_append, List.nil_append, getNum, getNat]
    rw [h]
    rfl
  · intro ie inb iq h1 h2 h3
    have hlt := index_lt h1 h2 h3
    show (List.map (fun k => rounded re (tab.t k)) (List.range (tab.ne * tab.nnb * tab.nq))).getD (index tab.nnb tab.nq ie inb iq) _ = _
    rw [List.getD_eq_getElem _ _ (by simpa using hlt), List.getElem_map, List.getElem_range]

/-- The test of the program, in words: a node agrees if its temperature is not positive, or if energy density, net baryon density, net
strangeness, pressure and net charge density are the ones of the equation of state up to 0.001. -/
def Agrees [Field K] [LinearOrder K] (g : Gas K) (tab : Tab K) (ie inb iq : ℕ) : Prop :=
  let x := tab.t (index tab.nnb tab.nq ie inb iq)
  let r : Pot K := ⟨x.T, x.mub, x.mus, x.muq⟩
  x.T ≤ 0 ∨ (|tab.de * ie - g.e r| ≤ 1 / 1000 ∧ |tab.dnb * inb - g.nb r| ≤ 1 / 1000 ∧ |g.ns r| ≤ 1 / 1000 ∧
    |x.p - g.p r| ≤ 1 / 1000 ∧ |tab.dq * iq - g.nq r| ≤ 1 / 1000)

theorem agrees_iff [Field K] [LinearOrder K] (g : Gas K) (tab : Tab K) (ie inb iq : ℕ) :
    agrees g tab ie inb iq = true ↔ Agrees g tab ie inb iq := by
  unfold agrees Agrees
  simp only [Bool.not_eq_true', decide_eq_false_iff_not, not_and, not_lt]
  constructor
  · intro h
    by_cases hT : (tab.t (index tab.nnb tab.nq ie inb iq)).T ≤ 0
    · exact Or.inl hT
    · right
      refine ⟨?_, ?_, ?_, ?_, ?_⟩ <;> (by_contra hc; rw [not_le] at hc; exact hT (h (by tauto)))
  · rintro (h | ⟨h1, h2, h3, h4, h5⟩) hc
    · exact h
    · exfalso
      rcases hc with hc | hc | hc | hc | hc
      · exact absurd h1 (not_le.2 hc)
      · exact absurd h2 (not_le.2 hc)
      · exact absurd h3 (not_le.2 hc)
      · exact absurd h4 (not_le.2 hc)
      · exact absurd h5 (not_le.2 hc)

/-- The nodes which the check looks at: those with all numbers a multiple of one plus a fiftieth of the number of nodes. -/
def Checked (tab : Tab K) (ie inb iq : ℕ) : Prop :=
  ie < tab.ne ∧ inb < tab.nnb ∧ iq < tab.nq ∧ (1 + tab.ne / 50) ∣ ie ∧ (1 + tab.nnb / 50) ∣ inb ∧ (1 + tab.nq / 50) ∣ iq

theorem consistent_iff [Field K] [LinearOrder K] (g : Gas K) (tab : Tab K) :
    consistent g tab = true ↔ ∀ ie inb iq, Checked tab ie inb iq → Agrees g tab ie inb iq := by
  unfold consistent strided Checked
  simp only [List.all_eq_true, List.mem_filter, List.mem_range, decide_eq_true_eq, agrees_iff, Nat.dvd_iff_mod_eq_zero]
  constructor
  · rintro h ie inb iq ⟨h1, h2, h3, h4, h5, h6⟩
    exact h ie ⟨h1, h4⟩ inb ⟨h2, h5⟩ iq ⟨h3, h6⟩
  · rintro h ie ⟨h1, h4⟩ inb ⟨h2, h5⟩ iq ⟨h3, h6⟩
    exact h ie inb iq ⟨h1, h2, h3, h4, h5, h6⟩

/-- **C148 (decision).** Without a file the table is compiled and written. With a file which can be read the table of the file is used if
it agrees with the equation of state at all the nodes which are looked at; else a table with the steps and numbers of nodes of
the file is compiled and replaces it. -/
theorem C148_decision [Field K] [LinearOrder K] (rs re : K → K) (g : Gas K) (tab : Tab K) :
    compile rs re g tab none = .ok (fill g tab, some (save rs re (fill g tab))) ∧
    ∀ f tab', load tab f = .ok tab' →
      ((∀ ie inb iq, Checked tab' ie inb iq → Agrees g tab' ie inb iq) → compile rs re g tab (some f) = .ok (tab', none)) ∧
      ((∃ ie inb iq, Checked tab' ie inb iq ∧ ¬ Agrees g tab' ie inb iq) →
        compile rs re g tab (some f) = .ok (fill g tab', some (save rs re (fill g tab')))) := by
  refine ⟨rfl, fun f tab' h => ⟨fun hc => ?_, ?_⟩⟩
  · unfold compile
    simp only [h, if_pos ((consistent_iff g tab').2 hc)]
  · rintro ⟨ie, inb, iq, h1, h2⟩
    unfold compile
    simp only [h, if_neg (fun hc => h2 ((consistent_iff g tab').1 hc ie inb iq h1))]

/-- Small tables, with fewer than 50 nodes in each direction, are checked completely. -/
theorem C148_check_small (tab : Tab K) (h1 : tab.ne < 50) (h2 : tab.nnb < 50) (h3 : tab.nq < 50) (ie inb iq : ℕ) :
    Checked tab ie inb iq ↔ ie < tab.ne ∧ inb < tab.nnb ∧ iq < tab.nq := by
  unfold Checked
  rw [Nat.div_eq_of_lt h1, Nat.div_eq_of_lt h2, Nat.div_eq_of_lt h3]
  simp

/-- In the table of the program, which has 90 nodes in each direction, only every second node in each direction is looked at; another
one can have any contents, and the file is used all the same. Here the node with energy density 0.1 has the temperature 100. -/
theorem C148_check_false (g : Gas ℚ) : ∃ tab : Tab ℚ, consistent g tab = true ∧ tab.de = 1 / 10 ∧ tab.dnb = 1 / 10 ∧
    tab.dq = 1 / 10 ∧ tab.ne = 90 ∧ tab.nnb = 90 ∧ tab.nq = 90 ∧ (tab.t (index tab.nnb tab.nq 1 0 0)).T = 100 := by
  refine ⟨⟨1 / 10, 1 / 10, 1 / 10, 90, 90, 90, fun k => if k = index 90 90 1 0 0 then ⟨0, 100, 0, 0, 0⟩ else ⟨0, 0, 0, 0, 0⟩⟩, ?_,
    rfl, rfl, rfl, rfl, rfl, rfl, ?_⟩
  · rw [consistent_iff]
    rintro ie inb iq ⟨h1, h2, h3, h4, -, -⟩
    simp only at h1 h2 h3 h4
    left
    have hne : index 90 90 ie inb iq ≠ index 90 90 1 0 0 := by
      intro h
      have := ((C148_storage 90 90 90).2.2 ie inb iq 1 0 0 h1 h2 h3 (by norm_num) (by norm_num) (by norm_num) h).1
      omega
    simp only [if_neg hne]
    exact le_refl _
  · simp only [if_true]

theorem load_short [Field K] : ∀ (n : ℕ) (l : List (Word K)), (∀ w ∈ l, ∃ v, w = .num v) → l.length < 5 * n →
    getElems n (some l) = .error .indeterminate
  | 0, l, _, h => by omega
  | n + 1, l, hl, h => by
    match l, hl, h with
    | [], _, _ => rfl
    | [a], hl, _ =>
      obtain ⟨a, rfl⟩ := hl a (by simp)
      rfl
    | [a, b], hl, _ =>
      obtain ⟨a, rfl⟩ := hl a (by simp)
      obtain ⟨b, rfl⟩ := hl b (by simp)
      rfl
    | [a, b, c], hl, _ =>
      obtain ⟨a, rfl⟩ := hl a (by simp)
      obtain ⟨b, rfl⟩ := hl b (by simp)
      obtain ⟨c, rfl⟩ := hl c (by simp)
      rfl
    | [a, b, c, d], hl, _ =>
      obtain ⟨a, rfl⟩ := hl a (by simp)
      obtain ⟨b, rfl⟩ := hl b (by simp)
      obtain ⟨c, rfl⟩ := hl c (by simp)
      obtain ⟨d, rfl⟩ := hl d (by simp)
      rfl
    | a :: b :: c :: d :: e :: l, hl, h =>
      obtain ⟨a, rfl⟩ := hl a (by simp)
      obtain ⟨b, rfl⟩ := hl b (by simp)
      obtain ⟨c, rfl⟩ := hl c (by simp)
      obtain ⟨d, rfl⟩ := hl d (by simp)
      obtain ⟨e, rfl⟩ := hl e (by simp)
      have ih := load_short n l (fun w hw => hl w (by simp [hw])) (by simp only [List.length_cons] at h; omega)
      unfold getElems
      simp only [getElem, getNum, ih]

/-- A file which ends too early leaves elements of the table indeterminate: the state of the file is not tested. -/
theorem C148_truncated_false [Field K] [LinearOrder K] (rs re : K → K) (g : Gas K) (tab mine : Tab K) (n : ℕ)
    (h6 : 6 ≤ n) (h : n < 6 + 5 * (tab.ne * tab.nnb * tab.nq)) :
    compile rs re g mine (some ((save rs re tab).take n)) = .error .indeterminate := by
  obtain ⟨m, rfl⟩ : ∃ m, n = m + 6 := ⟨n - 6, by omega⟩
  unfold compile load save
  simp only [List.cons_append, List.nil_append, List.take_succ_cons, getNum, getNat]
  rw [load_short]
  · intro w hw
    have hw' := List.mem_of_mem_take hw
    rw [List.mem_flatMap] at hw'
    obtain ⟨k, -, hk⟩ := hw'
    simp only [List.mem_cons, List.not_mem_nil, or_false] at hk
    rcases hk with rfl | rfl | rfl | rfl | rfl <;> exact ⟨_, rfl⟩
  · rw [List.length_take]
    omega

/-- A file without a proper number for the nodes gives an empty table, which passes the check; the first query of it reads out of
bounds. -/
theorem C148_empty_false (g : Gas ℚ) (tab : Tab ℚ) (hb : 2 ≤ tab.nnb) (hq : 2 ≤ tab.nq) :
    ∃ tab', compile id id g tab (some [.num 1, .num 1, .num 1, .bad]) = .ok (tab', none) ∧
      get tab' 0 0 0 = .error .bounds := by
  have hl : load tab [.num 1, .num 1, .num 1, .bad] = .ok ⟨1, 1, 1, 0, tab.nnb, tab.nq, fun k => ([] : List (Elem ℚ)).getD k ⟨0, 0, 0, 0, 0⟩⟩ := by
    unfold load
    simp only [getNum, getNat, Nat.zero_mul, getElems]
    rfl
  refine ⟨_, ((C148_decision id id g tab).2 _ _ hl).1 ?_, ?_⟩
  · rintro ie inb iq ⟨h, -⟩
    exact absurd h (Nat.not_lt_zero _)
  · have hz : toSize ((0 : ℚ) / 1) = .ok 0 := toSize_ok.2 ⟨by norm_num, by norm_num, by norm_num⟩
    unfold get
    simp only [hz, bind, Except.bind]
    rw [if_neg (by unfold pred64; rw [if_pos rfl, if_neg (by omega), if_neg (by omega)]; omega)]
    unfold read
    simp only [Nat.zero_mul, Nat.not_lt_zero, if_false]

/-- The table of the program meets the hypotheses. -/
example : ∃ tab : Tab ℚ, 0 < tab.de ∧ 0 < tab.dnb ∧ 0 < tab.dq ∧ 2 < tab.ne ∧ 2 < tab.nnb ∧ 2 < tab.nq :=
  ⟨⟨1 / 10, 1 / 10, 1 / 10, 90, 90, 90, fun _ => ⟨0, 0, 0, 0, 0⟩⟩, by norm_num, by norm_num, by norm_num, by norm_num, by norm_num,
    by norm_num⟩

end Verif.Eos
