import Verif.Xs.Props
import Mathlib.Data.List.Destutter

/-
C101: the printed table of cross sections.
-/
namespace Verif.Xs

variable {K : Type} [Field K] [LinearOrder K] [IsStrictOrderedRing K]
variable {N : Type} [LinearOrder N]

/-- The total cross section listed under a name. -/
def under (n : N) (l : List (N × K)) : K := ((l.filter fun x => decide (x.1 = n)).map Prod.snd).sum

omit [LinearOrder K] [IsStrictOrderedRing K] in
theorem under_cons (n : N) (a : N × K) (l : List (N × K)) :
    under n (a :: l) = (if a.1 = n then a.2 else 0) + under n l := by
  by_cases h : a.1 = n <;> simp [under, List.filter_cons, h]

omit [LinearOrder K] [IsStrictOrderedRing K] in
theorem mergeAdjacent_under (n : N) (l : List (N × K)) : under n (mergeAdjacent l) = under n l := by
  induction l using mergeAdjacent.induct with
  | case1 => simp [mergeAdjacent]
  | case2 a => simp [mergeAdjacent]
  | case3 a b t h ih =>
    rw [mergeAdjacent, if_pos h, ih, under_cons, under_cons, under_cons]
    dsimp only
    rw [← h]
    split <;> ring
  | case4 a b t h ih =>
    rw [mergeAdjacent, if_neg h, under_cons, ih, under_cons (a := a)]

omit [LinearOrder K] [IsStrictOrderedRing K] in
theorem mergeAdjacent_sorted (l : List (N × K)) (h : l.Pairwise fun x y => x.1 ≤ y.1) :
    (mergeAdjacent l).Pairwise (fun x y => x.1 < y.1) ∧
      ∀ m, (∀ x ∈ l, m ≤ x.1) → ∀ x ∈ mergeAdjacent l, m ≤ x.1 := by
  induction l using mergeAdjacent.induct with
  | case1 => simp [mergeAdjacent]
  | case2 a => simp [mergeAdjacent]
  | case3 a b t hab ih =>
    rw [mergeAdjacent, if_pos hab]
    obtain ⟨h1, h2⟩ := ih (by
      rw [List.pairwise_cons] at h ⊢
      exact ⟨fun x hx => h.1 x (List.mem_cons_of_mem _ hx), (List.pairwise_cons.1 h.2).2⟩)
    refine ⟨h1, fun m hm => h2 m ?_⟩
    intro x hx
    rcases List.mem_cons.1 hx with rfl | hx
    · exact hm a List.mem_cons_self
    · exact hm x (List.mem_cons_of_mem _ (List.mem_cons_of_mem _ hx))
  | case4 a b t hab ih =>
    rw [mergeAdjacent, if_neg hab]
    rw [List.pairwise_cons] at h
    obtain ⟨h1, h2⟩ := ih h.2
    have hlt : a.1 < b.1 := lt_of_le_of_ne (h.1 b List.mem_cons_self) hab
    have hb : ∀ x ∈ b :: t, b.1 ≤ x.1 := by
      intro x hx
      rcases List.mem_cons.1 hx with rfl | hx
      · exact le_rfl
      · exact (List.pairwise_cons.1 h.2).1 x hx
    refine ⟨List.pairwise_cons.2 ⟨fun x hx => hlt.trans_le (h2 b.1 hb x hx), h1⟩, ?_⟩
    intro m hm x hx
    rcases List.mem_cons.1 hx with rfl | hx
    · exact hm _ List.mem_cons_self
    · exact h2 m (fun y hy => hm y (List.mem_cons_of_mem _ hy)) x hx

omit [LinearOrder K] [IsStrictOrderedRing K] in
/-- C101: after `deduplicate` every final state is listed once, in alphabetical order, with the sum
of all the cross sections it was listed with. -/
theorem C101_deduplicate (l : List (N × K)) :
    (deduplicate l).Pairwise (fun x y => x.1 < y.1) ∧
      ∀ n, under n (deduplicate l) = under n l := by
  constructor
  · refine (mergeAdjacent_sorted _ ?_).1
    have : Std.Total fun x y : N × K => x.1 ≤ y.1 := ⟨fun x y => le_total x.1 y.1⟩
    have : IsTrans (N × K) fun x y => x.1 ≤ y.1 := ⟨fun _ _ _ h h' => le_trans h h'⟩
    exact List.pairwise_insertionSort _ _
  · intro n
    rw [deduplicate, mergeAdjacent_under]
    have hp : ((l.insertionSort fun x y : N × K => x.1 ≤ y.1)).Perm l := List.perm_insertionSort _ _
    exact ((hp.filter _).map _).sum_eq

example : deduplicate [(2, (1 : ℚ)), (1, 5), (2, 7), (3, 1)] = [(1, 5), (2, 8), (3, 1)] := by
  have : [(2, (1 : ℚ)), (1, 5), (2, 7), (3, 1)].insertionSort (fun x y : ℕ × ℚ => x.1 ≤ y.1)
      = [(1, 5), (2, 1), (2, 7), (3, 1)] := by decide +kernel
  rw [deduplicate, this]
  norm_num [mergeAdjacent]

/-! ### The table -/

/-- The energies of the momentum points increase by at least `really_small`. -/
def Separated (es : List K) : Prop := es.Pairwise fun x y => x + 1 / 1000000 ≤ y

/-- The cross section of channel `n` at one energy: the sum of its positive partial cross
sections. -/
def channelXs (procs : K → List (N × K)) (n : N) (e : K) : K :=
  under n ((procs e).filter fun p => decide (0 < p.2))

/-- What the table of a channel contains: the pairs with positive cross section. -/
def column (procs : K → List (N × K)) (n : N) (es : List K) : List (K × K) :=
  (es.filter fun e => (procs e).any fun p => decide (p.1 = n) && decide (0 < p.2)).map
    fun e => (e, channelXs procs n e)

theorem addXs_other (d : Dump N K) (e : K) (p : N × K) (n : N) (h : n ≠ p.1) :
    addXs d e p n = d n := by
  simp only [addXs]
  split
  · rfl
  · exact if_neg h

/-- Adding the processes of one energy to a column whose last entry is not at this energy. -/
theorem addAll_new (d : Dump N K) (e : K) (n : N) (l : List (N × K))
    (hd : ∀ x ∈ (d n).getLast?, ¬ |x.1 - e| < 1 / 1000000) :
    (l.foldl (fun d p => addXs d e p) d) n =
      if l.any (fun p => decide (p.1 = n) && decide (0 < p.2)) then
        d n ++ [(e, under n (l.filter fun p => decide (0 < p.2)))]
      else d n := by
  have h2 : ∀ (l : List (N × K)) (d : Dump N K) (pre : List (K × K)) (v : K), d n = pre ++ [(e, v)] →
      (l.foldl (fun d p => addXs d e p) d) n
        = pre ++ [(e, v + under n (l.filter fun p => decide (0 < p.2)))] := by
    intro l
    induction l with
    | nil => intro d pre v h; simp [under, h]
    | cons p ps ih =>
      intro d pre v h
      rw [List.foldl_cons]
      by_cases hn : n = p.1
      · by_cases hp : p.2 ≤ 0
        · have : addXs d e p = d := by simp [addXs, hp]
          rw [this, ih d pre v h]
          simp [List.filter_cons, not_lt.2 hp]
        · have hp' : 0 < p.2 := not_le.1 hp
          have : addXs d e p n = pre ++ [(e, v + p.2)] := by
            simp only [addXs, if_neg hp, if_pos hn, h, List.getLast?_append, List.getLast?_singleton,
              List.dropLast_concat, Option.some_or]
            rw [if_pos (by simp)]
          rw [ih _ pre (v + p.2) this]
          simp only [List.filter_cons, hp', decide_true, if_true, under_cons, ← hn]
          rw [add_assoc]
      · rw [ih _ pre v (by rw [addXs_other d e p n hn]; exact h)]
        by_cases hp : 0 < p.2
        · simp [List.filter_cons, hp, under_cons, Ne.symm hn]
        · simp [List.filter_cons, hp]
  induction l generalizing d with
  | nil => simp
  | cons p ps ih =>
    rw [List.foldl_cons]
    by_cases hn : n = p.1
    · by_cases hp : p.2 ≤ 0
      · have : addXs d e p = d := by simp [addXs, hp]
        rw [this, ih d hd]
        simp only [List.any_cons, List.filter_cons, not_lt.2 hp, decide_false, Bool.and_false,
          Bool.false_or, Bool.false_eq_true, if_false]
      · have hp' : 0 < p.2 := not_le.1 hp
        have : addXs d e p n = d n ++ [(e, p.2)] := by
          simp only [addXs, if_neg hp, if_pos hn]
          rcases hl : (d n).getLast? with _ | x
          · simp only [List.getLast?_eq_none_iff] at hl
            simp [hl]
          · simp only
            rw [if_neg (hd x (by simp [hl]))]
        rw [h2 ps _ (d n) p.2 this]
        have hany : ((p :: ps).any fun p => decide (p.1 = n) && decide (0 < p.2)) = true := by
          simp [← hn, hp']
        rw [hany, if_pos rfl]
        simp [List.filter_cons, hp', under_cons, ← hn]
    · have h1 : (addXs d e p) n = d n := addXs_other d e p n hn
      rw [ih _ (by rw [h1]; exact hd), h1]
      have hne : ¬ p.1 = n := Ne.symm hn
      by_cases hp : 0 < p.2
      · simp only [List.any_cons, List.filter_cons, hp, under_cons, hne, decide_false, decide_true,
          Bool.false_and, Bool.false_or, if_true, if_false, zero_add]
      · simp only [List.any_cons, List.filter_cons, hp, hne, decide_false, Bool.false_and,
          Bool.false_or, Bool.false_eq_true, if_false]

theorem dumpAll_column (procs : K → List (N × K)) (es : List K) (hs : Separated es) (n : N) :
    dumpAll procs es n = column procs n es := by
  have key : ∀ (es pre : List K), Separated (pre ++ es) → ∀ d : Dump N K,
      (∀ n, d n = column procs n pre) → ∀ n,
      (es.foldl (addPoint procs) d) n = column procs n (pre ++ es) := by
    intro es
    induction es with
    | nil => intro pre _ d hd n; simpa using hd n
    | cons e es ih =>
      intro pre hsep d hd n
      rw [List.foldl_cons]
      have := ih (pre ++ [e]) (by simpa using hsep) (addPoint procs d e) ?_ n
      · simpa using this
      · intro n
        have hlt : ∀ x ∈ pre, x + 1 / 1000000 ≤ e := by
          intro x hx
          exact (List.pairwise_append.1 hsep).2.2 x hx e List.mem_cons_self
        rw [addPoint, addAll_new, hd]
        · simp only [column, List.filter_append, List.map_append, List.filter_cons, List.filter_nil]
          split
          · simp [channelXs]
          · simp
        · intro x hx hlt'
          rw [hd] at hx
          have hx' := List.mem_of_getLast? hx
          simp only [column, List.mem_map, List.mem_filter] at hx'
          obtain ⟨y, ⟨hy, _⟩, rfl⟩ := hx'
          have := hlt y hy
          rw [abs_lt] at hlt'
          dsimp only at hlt'
          linarith
  simpa [dumpAll] using key es [] (by simpa using hs) (fun _ => []) (by simp [column]) n

/-- C101: if the energies of the momentum points are at least 1e-6 GeV apart, the number printed for a
channel at an energy is the sum of the positive cross sections of all processes with this description
at this energy (zero if there is none). -/
theorem C101_table (procs : K → List (N × K)) (es : List K) (hs : Separated es) (n : N) (e : K)
    (he : e ∈ es) : printed (dumpAll procs es) n e = channelXs procs n e := by
  rw [printed, dumpAll_column procs es hs n]
  obtain ⟨pre, post, rfl⟩ := List.append_of_mem he
  obtain ⟨_, h2, h3⟩ := List.pairwise_append.1 hs
  have h4 := (List.pairwise_cons.1 h2).1
  have hpre : ∀ x ∈ column procs n pre, decide (x.1 < e) = true := by
    intro x hx
    simp only [column, List.mem_map, List.mem_filter] at hx
    obtain ⟨y, ⟨hy, _⟩, rfl⟩ := hx
    have := h3 y hy e List.mem_cons_self
    simp only [decide_eq_true_eq]
    have h6 : (0 : K) < 1 / 1000000 := by positivity
    linarith
  have hsplit : column procs n (pre ++ e :: post) = column procs n pre ++ column procs n (e :: post) := by
    simp [column]
  rw [hsplit, List.dropWhile_append_of_pos hpre]
  by_cases hany : ((procs e).any fun p => decide (p.1 = n) && decide (0 < p.2)) = true
  · have : column procs n (e :: post) = (e, channelXs procs n e) :: column procs n post := by
      simp only [column, List.filter_cons, hany, if_true, List.map_cons]
    rw [this]
    simp only [List.dropWhile_cons, lt_irrefl, decide_false, sub_self, abs_zero]
    simp
  · have h0 : column procs n (e :: post) = column procs n post := by
      simp only [column, List.filter_cons, hany]
      simp
    have hz : channelXs procs n e = 0 := by
      simp only [channelXs, under]
      have : ((procs e).filter fun p => decide (0 < p.2)).filter (fun x => decide (x.1 = n)) = [] := by
        rw [List.filter_filter]
        apply List.filter_eq_nil_iff.2
        intro x hx
        simp only [List.any_eq_true, not_exists, not_and] at hany
        exact hany x hx
      rw [this]
      simp
    rw [h0, hz]
    rcases hc : column procs n post with _ | ⟨x, xs⟩
    · simp
    · have hx : x ∈ column procs n post := by rw [hc]; exact List.mem_cons_self
      simp only [column, List.mem_map, List.mem_filter] at hx
      obtain ⟨y, ⟨hy, _⟩, rfl⟩ := hx
      have h5 := h4 y hy
      have h6 : (0 : K) < 1 / 1000000 := by positivity
      have h7 : ¬ y < e := by
        intro h; linarith
      simp only [List.dropWhile_cons, h7, decide_false]
      simp only [Bool.false_eq_true, if_false]
      rw [if_neg]
      rw [abs_lt]
      intro h
      linarith [h.2]

/-- Two energies, two channels, one of them closed at the first energy. -/
example : printed (dumpAll (fun e : ℚ => [(1, 4), (2, e - 2), (1, 3)]) [2, 5/2]) 1 2 = 7 ∧
    printed (dumpAll (fun e : ℚ => [(1, 4), (2, e - 2), (1, 3)]) [2, 5/2]) 2 2 = 0 ∧
    printed (dumpAll (fun e : ℚ => [(1, 4), (2, e - 2), (1, 3)]) [2, 5/2]) 2 (5/2) = 1/2 := by
  decide +kernel

/-- C101 fails for momentum points that are closer: a constant cross section of 4 mb is printed as
8 mb at the first of two energies that differ by 5e-7 GeV. -/
theorem C101_close_points_false :
    printed (dumpAll (fun _ : ℚ => [(1, 4)]) [2, 2 + 1/2000000]) 1 2 = 8 := by decide +kernel

/-- C101 (partial: only without duplicates): all the momenta given are used, in increasing order. -/
theorem C101_momenta_partial (plab : List K) (h : plab.Nodup) :
    momenta plab = some (plab.insertionSort (· ≤ ·)) := by
  have hs : (plab.insertionSort (· ≤ ·)).Pairwise (· ≤ ·) := List.pairwise_insertionSort _ _
  have hp := List.perm_insertionSort (· ≤ ·) plab
  have hn : (plab.insertionSort (· ≤ ·)).Nodup := hp.nodup_iff.2 h
  have hd : (plab.insertionSort (· ≤ ·)).destutter (· ≠ ·) = plab.insertionSort (· ≤ ·) :=
    List.destutter_of_isChain _ _ (List.Pairwise.isChain hn)
  simp only [momenta, hd]
  rw [← hp.length_eq]
  generalize plab.insertionSort (· ≤ ·) = l
  have : ∀ (k : List K) , ∀ m, k = l.take m → m ≤ l.length →
      (List.range m).mapM (fun i => l[i]?) = some k := by
    intro k m
    induction m generalizing k with
    | zero => intro h _; simp [h]
    | succ m ih =>
      intro h hm
      rw [List.range_succ, List.mapM_append, ih (l.take m) rfl (by omega)]
      have hl : l[m]? = some (l[m]'(by omega)) := List.getElem?_eq_getElem (by omega)
      rw [h, List.take_succ, hl]
      simp [hl]
  exact this l l.length (by simp) le_rfl

/-- C101 fails if a momentum is given twice: the number of points is counted before duplicates are
removed, and the loop runs past the end (`std::out_of_range`). -/
theorem C101_duplicate_false : momenta [(1 : ℚ), 1] = none := by decide +kernel

end Verif.Xs
