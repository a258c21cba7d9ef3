import Verif.Eos.Model
import Mathlib.Tactic.Ring
import Mathlib.Tactic.Linarith
import Mathlib.Tactic.NormNum
import Mathlib.Tactic.FieldSimp
import Mathlib.Tactic.SplitIfs
import Mathlib.Algebra.Order.Ring.Rat
import Mathlib.Algebra.Field.Rat
import Mathlib.Data.Rat.Floor
import Mathlib.Data.List.Nodup
import Mathlib.Logic.Function.Basic

/-!
C148: the tabulated equation of state.
-/

namespace Verif.Eos

variable {K : Type}

/-! ### The order of the elements -/

theorem nodes_mem {ne nnb nq : ℕ} {x : ℕ × ℕ × ℕ} : x ∈ nodes ne nnb nq ↔ x.1 < ne ∧ x.2.1 < nnb ∧ x.2.2 < nq := by
  obtain ⟨a, b, c⟩ := x
  simp only [nodes, List.mem_flatMap, List.mem_map, List.mem_range, Prod.mk.injEq]
  constructor
  · rintro ⟨ie, h1, inb, h2, iq, h3, rfl, rfl, rfl⟩
    exact ⟨h1, h2, h3⟩
  · rintro ⟨h1, h2, h3⟩
    exact ⟨a, h1, b, h2, c, h3, rfl, rfl, rfl⟩

/-- The loops run through the elements of the vector in their order. -/
theorem nodes_index (ne nnb nq : ℕ) :
    (nodes ne nnb nq).map (fun x => index nnb nq x.1 x.2.1 x.2.2) = List.range (ne * nnb * nq) := by
  have h1 : ∀ (c : ℕ) (m : ℕ), (List.range m).flatMap (fun b => (List.range nq).map fun q => nq * (c + b) + q) =
      (List.range (m * nq)).map fun k => nq * c + k := by
    intro c m
    induction m with
    | zero => simp
    | succ m ih =>
      rw [List.range_succ, List.flatMap_append, ih, Nat.succ_mul, List.range_add, List.map_append]
      congr 1
      simp only [List.flatMap_cons, List.flatMap_nil, List.append_nil, List.map_map]
      apply List.map_congr_left
      intro q _
      simp only [Function.comp]
      ring
  have h2 : ∀ m, (List.range m).flatMap (fun ie => (List.range (nnb * nq)).map fun k => nq * (ie * nnb) + k) =
      List.range (m * nnb * nq) := by
    intro m
    induction m with
    | zero => simp
    | succ m ih =>
      rw [List.range_succ, List.flatMap_append, ih]
      have : (m + 1) * nnb * nq = m * nnb * nq + nnb * nq := by ring
      rw [this, List.range_add]
      congr 1
      simp only [List.flatMap_cons, List.flatMap_nil, List.append_nil]
      apply List.map_congr_left
      intro k _
      ring
  rw [← h2 ne]
  unfold nodes
  rw [List.map_flatMap]
  congr 1
  funext ie
  rw [List.map_flatMap, ← h1]
  congr 1
  funext inb
  rw [List.map_map]
  rfl

theorem index_lt {ne nnb nq ie inb iq : ℕ} (h1 : ie < ne) (h2 : inb < nnb) (h3 : iq < nq) :
    index nnb nq ie inb iq < ne * nnb * nq := by
  have : index nnb nq ie inb iq ∈ List.range (ne * nnb * nq) := by
    rw [← nodes_index]
    exact List.mem_map.2 ⟨(ie, inb, iq), nodes_mem.2 ⟨h1, h2, h3⟩, rfl⟩
  exact List.mem_range.1 this

/-- **C148 (storage).** Different nodes of the table are stored in different elements of the vector, every element belongs to a node,
and no access is out of bounds. -/
theorem C148_storage (ne nnb nq : ℕ) :
    (∀ ie inb iq, ie < ne → inb < nnb → iq < nq → index nnb nq ie inb iq < ne * nnb * nq) ∧
    (∀ k, k < ne * nnb * nq → ∃ ie inb iq, ie < ne ∧ inb < nnb ∧ iq < nq ∧ index nnb nq ie inb iq = k) ∧
    ∀ ie inb iq ie' inb' iq', ie < ne → inb < nnb → iq < nq → ie' < ne → inb' < nnb → iq' < nq →
      index nnb nq ie inb iq = index nnb nq ie' inb' iq' → ie = ie' ∧ inb = inb' ∧ iq = iq' := by
  refine ⟨fun _ _ _ => index_lt, ?_, ?_⟩
  · intro k hk
    have : k ∈ (nodes ne nnb nq).map fun x => index nnb nq x.1 x.2.1 x.2.2 := by
      rw [nodes_index]; exact List.mem_range.2 hk
    obtain ⟨x, hx, h⟩ := List.mem_map.1 this
    obtain ⟨h1, h2, h3⟩ := nodes_mem.1 hx
    exact ⟨x.1, x.2.1, x.2.2, h1, h2, h3, h⟩
  · intro ie inb iq ie' inb' iq' h1 h2 h3 h1' h2' h3' h
    have hn : ((nodes ne nnb nq).map fun x => index nnb nq x.1 x.2.1 x.2.2).Nodup := by
      rw [nodes_index]; exact List.nodup_range
    have := List.inj_on_of_nodup_map hn (nodes_mem (x := (ie, inb, iq)).2 ⟨h1, h2, h3⟩)
      (nodes_mem (x := (ie', inb', iq')).2 ⟨h1', h2', h3'⟩) h
    simpa using this

/-! ### Compilation -/

/-- The rule for a node, in terms of the finished table: the element is zero where there is no solution, else pressure, temperature and
potentials which the solver finds for the densities of the node and vanishing strangeness, starting from the extrapolation
of the two neighbours with less baryon density, else with less charge density, else from the approximation. -/
def NodeRule [Field K] [LinearOrder K] (g : Gas K) (tab : Tab K) (at' : ℕ → ℕ → ℕ → Elem K) (ie inb iq : ℕ) : Prop :=
  ((tab.de * ie ≤ tab.dnb * inb ∨ tab.de * ie ≤ tab.dq * iq) → at' ie inb iq = ⟨0, 0, 0, 0, 0⟩) ∧
  (tab.dnb * inb < tab.de * ie ∧ tab.dq * iq < tab.de * ie →
    ∃ init : Pot K,
      (2 ≤ inb → init = extra (at' ie (inb - 2) iq) (at' ie (inb - 1) iq)) ∧
      (inb < 2 → 2 ≤ iq → init = extra (at' ie inb (iq - 2)) (at' ie inb (iq - 1))) ∧
      (inb < 2 → iq < 2 → init = g.guess (tab.de * ie) (tab.dnb * inb) (tab.dq * iq)) ∧
      let r := g.solve (tab.de * ie) (tab.dnb * inb) 0 (tab.dq * iq) init
      at' ie inb iq = ⟨g.p r, r.T, r.mub, r.mus, r.muq⟩)

theorem fold_other [Field K] [LinearOrder K] (g : Gas K) (tab : Tab K) : ∀ (l : List (ℕ × ℕ × ℕ)) (t : ℕ → Elem K) (k : ℕ),
    (∀ x ∈ l, index tab.nnb tab.nq x.1 x.2.1 x.2.2 ≠ k) → l.foldl (put g tab) t k = t k
  | [], _, _, _ => rfl
  | x :: l, t, k, h => by
    rw [List.foldl_cons, fold_other g tab l _ k fun y hy => h y (List.mem_cons_of_mem _ hy)]
    exact Function.update_of_ne (Ne.symm (h x List.mem_cons_self)) _ _

theorem entry_congr [Field K] [LinearOrder K] (g : Gas K) (tab : Tab K) (ie inb iq : ℕ) (t t' : ℕ → Elem K)
    (h : ∀ k, k < index tab.nnb tab.nq ie inb iq → t k = t' k) (hb : 0 < tab.nq) :
    entry g tab ie inb iq t = entry g tab ie inb iq t' := by
  have hlt : ∀ i, i < inb → index tab.nnb tab.nq ie i iq < index tab.nnb tab.nq ie inb iq := by
    intro i hi
    have := Nat.mul_lt_mul_of_pos_left (show ie * tab.nnb + i < ie * tab.nnb + inb by omega) hb
    simp only [index]
    omega
  have hlt' : ∀ i, i < iq → index tab.nnb tab.nq ie inb i < index tab.nnb tab.nq ie inb iq := by
    intro i hi
    simp only [index]
    omega
  unfold entry
  by_cases h1 : 2 ≤ inb
  · simp only [if_pos h1]
    rw [h _ (hlt (inb - 2) (by omega)), h _ (hlt (inb - 1) (by omega))]
  · simp only [if_neg h1]
    by_cases h2 : 2 ≤ iq
    · simp only [if_pos h2]
      rw [h _ (hlt' (iq - 2) (by omega)), h _ (hlt' (iq - 1) (by omega))]
    · simp only [if_neg h2]

theorem fill_entry [Field K] [LinearOrder K] (g : Gas K) (tab : Tab K) (ie inb iq : ℕ) (h1 : ie < tab.ne)
    (h2 : inb < tab.nnb) (h3 : iq < tab.nq) :
    (fill g tab).t (index tab.nnb tab.nq ie inb iq) = entry g tab ie inb iq (fill g tab).t := by
  obtain ⟨pre, post, hl⟩ := List.append_of_mem (nodes_mem (x := (ie, inb, iq)).2 ⟨h1, h2, h3⟩)
  have hr := nodes_index tab.ne tab.nnb tab.nq
  rw [hl, List.map_append, List.map_cons] at hr
  have hn : (pre.map (fun x => index tab.nnb tab.nq x.1 x.2.1 x.2.2) ++ index tab.nnb tab.nq ie inb iq ::
      post.map (fun x => index tab.nnb tab.nq x.1 x.2.1 x.2.2)).Pairwise (· < ·) := by
    rw [hr]; exact List.pairwise_lt_range
  rw [List.pairwise_append, List.pairwise_cons] at hn
  obtain ⟨-, ⟨hpost, -⟩, hpre⟩ := hn
  have hnot : ∀ k, k ≤ index tab.nnb tab.nq ie inb iq → ∀ x ∈ post, index tab.nnb tab.nq x.1 x.2.1 x.2.2 ≠ k := by
    intro k hk x hx e
    have := hpost _ (List.mem_map.2 ⟨x, hx, rfl⟩)
    omega
  have hf : (fill g tab).t = post.foldl (put g tab) (put g tab (pre.foldl (put g tab) tab.t) (ie, inb, iq)) := by
    unfold fill
    simp only [hl, List.foldl_append, List.foldl_cons]
  rw [hf, fold_other g tab post _ _ (hnot _ (le_refl _))]
  show Function.update _ _ _ _ = _
  rw [Function.update_self]
  apply entry_congr
  · intro k hk
    rw [fold_other g tab post _ _ (hnot _ (le_of_lt hk))]
    exact (Function.update_of_ne (show k ≠ index tab.nnb tab.nq ie inb iq from Nat.ne_of_lt hk) _ _).symm
  · omega

/-- **C148 (compilation).** After the compilation every node of the table obeys the rule: no value of the table which was there before
enters, and no node is left out. -/
theorem C148_compile [Field K] [LinearOrder K] (g : Gas K) (tab : Tab K) (ie inb iq : ℕ) (h1 : ie < tab.ne)
    (h2 : inb < tab.nnb) (h3 : iq < tab.nq) :
    NodeRule g tab (fun a b c => (fill g tab).t (index tab.nnb tab.nq a b c)) ie inb iq := by
  have h := fill_entry g tab ie inb iq h1 h2 h3
  unfold entry at h
  constructor
  · intro hc
    rw [if_pos hc] at h
    exact h
  · rintro ⟨c1, c2⟩
    rw [if_neg (by rw [not_or, not_le, not_le]; exact ⟨c1, c2⟩)] at h
    refine ⟨_, ?_, ?_, ?_, h⟩
    · intro hb
      rw [if_pos hb]
    · intro hb hq
      rw [if_neg (by omega), if_pos hq]
    · intro hb hq
      rw [if_neg (by omega), if_neg (by omega)]

/-- **C148 (starting values).** A node with a solution is never started from a node without one. -/
theorem C148_start [Field K] [LinearOrder K] [IsStrictOrderedRing K] (tab : Tab K) (hb : 0 ≤ tab.dnb) (hq : 0 ≤ tab.dq)
    (ie inb iq inb' iq' : ℕ) (hi : inb' ≤ inb) (hi' : iq' ≤ iq)
    (h : tab.dnb * inb < tab.de * ie ∧ tab.dq * iq < tab.de * ie) :
    tab.dnb * inb' < tab.de * ie ∧ tab.dq * iq' < tab.de * ie := by
  refine ⟨lt_of_le_of_lt (mul_le_mul_of_nonneg_left ?_ hb) h.1, lt_of_le_of_lt (mul_le_mul_of_nonneg_left ?_ hq) h.2⟩
  · exact_mod_cast hi
  · exact_mod_cast hi'

/-! ### Interpolation -/

/-- A component of the elements. -/
def IsComponent (c : Elem K → K) : Prop := c = Elem.p ∨ c = Elem.T ∨ c = Elem.mub ∨ c = Elem.mus ∨ c = Elem.muq

theorem toSize_ok [Field K] [LinearOrder K] [IsStrictOrderedRing K] [FloorRing K] {x : K} {n : ℕ} :
    toSize x = .ok n ↔ (n : K) ≤ x ∧ x < n + 1 ∧ n < 2 ^ 64 := by
  unfold toSize
  constructor
  · intro h
    split_ifs at h with hc
    rw [not_or, not_lt, not_le] at hc
    have hn := Except.ok.inj h
    have h1 : (⌊x⌋ : ℤ) = n := by omega
    have h2 := Int.floor_eq_iff.1 h1
    refine ⟨by exact_mod_cast h2.1, by exact_mod_cast h2.2, by omega⟩
  · rintro ⟨h1, h2, h3⟩
    have hf : ⌊x⌋ = (n : ℤ) := by
      rw [Int.floor_eq_iff]
      exact ⟨by exact_mod_cast h1, by exact_mod_cast h2⟩
    rw [hf, if_neg]
    · simp
    · push Not
      exact ⟨by omega, by exact_mod_cast h3⟩

theorem toSize_err [Field K] [LinearOrder K] [IsStrictOrderedRing K] [FloorRing K] {x : K} (h : x < 0) :
    toSize x = .error .cast := by
  unfold toSize
  rw [if_pos]
  left
  rw [Int.floor_lt]
  exact_mod_cast h

theorem read_ok (tab : Tab K) {ie inb iq : ℕ} (h1 : ie < tab.ne) (h2 : inb < tab.nnb) (h3 : iq < tab.nq) :
    read tab ie inb iq = .ok (tab.t (index tab.nnb tab.nq ie inb iq)) := if_pos (index_lt h1 h2 h3)

/-- The result inside of the table. -/
theorem get_inside [Field K] [LinearOrder K] [IsStrictOrderedRing K] [FloorRing K] (tab : Tab K) (e nb q : K)
    (ie inb iq : ℕ) (he : toSize (e / tab.de) = .ok ie) (hb : toSize (nb / tab.dnb) = .ok inb)
    (hq : toSize (q / tab.dq) = .ok iq) (h1 : ie + 1 < tab.ne) (h2 : inb + 1 < tab.nnb) (h3 : iq + 1 < tab.nq) :
    ∃ res, get tab e nb q = .ok res ∧ ∀ c, IsComponent c → c res =
      trilinear (e / tab.de - ie) (nb / tab.dnb - inb) (q / tab.dq - iq)
        (c (tab.t (index tab.nnb tab.nq ie inb iq))) (c (tab.t (index tab.nnb tab.nq (ie + 1) inb iq)))
        (c (tab.t (index tab.nnb tab.nq ie (inb + 1) iq))) (c (tab.t (index tab.nnb tab.nq (ie + 1) (inb + 1) iq)))
        (c (tab.t (index tab.nnb tab.nq ie inb (iq + 1)))) (c (tab.t (index tab.nnb tab.nq (ie + 1) inb (iq + 1))))
        (c (tab.t (index tab.nnb tab.nq ie (inb + 1) (iq + 1))))
        (c (tab.t (index tab.nnb tab.nq (ie + 1) (inb + 1) (iq + 1)))) := by
  unfold get
  rw [he, hb, hq]
  simp only [bind, Except.bind]
  rw [if_neg (by unfold pred64; split_ifs <;> omega), read_ok tab (by omega) (by omega) (by omega),
    read_ok tab (by omega) (by omega) (by omega), read_ok tab (by omega) (by omega) (by omega),
    read_ok tab (by omega) (by omega) (by omega), read_ok tab (by omega) (by omega) (by omega),
    read_ok tab (by omega) (by omega) (by omega), read_ok tab (by omega) (by omega) (by omega),
    read_ok tab (by omega) (by omega) (by omega)]
  refine ⟨_, rfl, ?_⟩
  rintro c (rfl | rfl | rfl | rfl | rfl) <;> rfl

/-- **C148 (nodes).** At the nodes, except the last ones in each direction, the table gives the stored element. -/
theorem C148_node [Field K] [LinearOrder K] [IsStrictOrderedRing K] [FloorRing K] (tab : Tab K) (hd : 0 < tab.de)
    (hdb : 0 < tab.dnb) (hdq : 0 < tab.dq) (ie inb iq : ℕ) (h1 : ie + 1 < tab.ne) (h2 : inb + 1 < tab.nnb)
    (h3 : iq + 1 < tab.nq) (hs : ie < 2 ^ 64 ∧ inb < 2 ^ 64 ∧ iq < 2 ^ 64) :
    get tab (tab.de * ie) (tab.dnb * inb) (tab.dq * iq) = .ok (tab.t (index tab.nnb tab.nq ie inb iq)) := by
  have c1 : tab.de * ie / tab.de = ie := by field_simp
  have c2 : tab.dnb * inb / tab.dnb = inb := by field_simp
  have c3 : tab.dq * iq / tab.dq = iq := by field_simp
  obtain ⟨res, hr, hc⟩ := get_inside tab (tab.de * ie) (tab.dnb * inb) (tab.dq * iq) ie inb iq
    (toSize_ok.2 ⟨by rw [c1], by rw [c1]; linarith, hs.1⟩) (toSize_ok.2 ⟨by rw [c2], by rw [c2]; linarith, hs.2.1⟩)
    (toSize_ok.2 ⟨by rw [c3], by rw [c3]; linarith, hs.2.2⟩) h1 h2 h3
  rw [hr, c1, c2, c3] at *
  have hall : ∀ c, IsComponent c → c res = c (tab.t (index tab.nnb tab.nq ie inb iq)) := by
    intro c hcc
    rw [hc c hcc]
    unfold trilinear
    ring
  congr 1
  have e1 := hall Elem.p (Or.inl rfl)
  have e2 := hall Elem.T (Or.inr (Or.inl rfl))
  have e3 := hall Elem.mub (Or.inr (Or.inr (Or.inl rfl)))
  have e4 := hall Elem.mus (Or.inr (Or.inr (Or.inr (Or.inl rfl))))
  have e5 := hall Elem.muq (Or.inr (Or.inr (Or.inr (Or.inr rfl))))
  cases res
  cases hx : tab.t (index tab.nnb tab.nq ie inb iq)
  rw [hx] at e1 e2 e3 e4 e5
  simp only at e1 e2 e3 e4 e5
  rw [e1, e2, e3, e4, e5]

theorem mix [Field K] [LinearOrder K] [IsStrictOrderedRing K] {a x y lo hi : K} (ha : 0 ≤ a) (ha' : a ≤ 1)
    (hx : lo ≤ x ∧ x ≤ hi) (hy : lo ≤ y ∧ y ≤ hi) : lo ≤ a * x + (1 - a) * y ∧ a * x + (1 - a) * y ≤ hi := by
  constructor
  · have h1 := mul_le_mul_of_nonneg_left hx.1 ha
    have h2 := mul_le_mul_of_nonneg_left hy.1 (sub_nonneg.2 ha')
    linarith
  · have h1 := mul_le_mul_of_nonneg_left hx.2 ha
    have h2 := mul_le_mul_of_nonneg_left hy.2 (sub_nonneg.2 ha')
    linarith

/-- **C148 (interpolation).** Inside of the table every component of the result is between any bounds for the eight surrounding nodes,
and it is exact whenever the stored values are an affine function of the densities. -/
theorem C148_interpolation [Field K] [LinearOrder K] [IsStrictOrderedRing K] [FloorRing K] (tab : Tab K) (hd : 0 < tab.de)
    (hdb : 0 < tab.dnb) (hdq : 0 < tab.dq) (ie inb iq : ℕ) (h1 : ie + 1 < tab.ne) (h2 : inb + 1 < tab.nnb)
    (h3 : iq + 1 < tab.nq) (hs : ie < 2 ^ 64 ∧ inb < 2 ^ 64 ∧ iq < 2 ^ 64) (e nb q : K)
    (he : tab.de * ie ≤ e ∧ e < tab.de * (ie + 1)) (hb : tab.dnb * inb ≤ nb ∧ nb < tab.dnb * (inb + 1))
    (hq : tab.dq * iq ≤ q ∧ q < tab.dq * (iq + 1)) :
    ∃ res, get tab e nb q = .ok res ∧ ∀ c, IsComponent c →
      (∀ lo hi, (∀ a b d, a ≤ 1 → b ≤ 1 → d ≤ 1 → lo ≤ c (tab.t (index tab.nnb tab.nq (ie + a) (inb + b) (iq + d))) ∧
          c (tab.t (index tab.nnb tab.nq (ie + a) (inb + b) (iq + d))) ≤ hi) → lo ≤ c res ∧ c res ≤ hi) ∧
      (∀ k0 k1 k2 k3 : K, (∀ a b d : ℕ, a ≤ 1 → b ≤ 1 → d ≤ 1 → c (tab.t (index tab.nnb tab.nq (ie + a) (inb + b) (iq + d))) =
          k0 + k1 * (tab.de * (ie + a)) + k2 * (tab.dnb * (inb + b)) + k3 * (tab.dq * (iq + d))) →
        c res = k0 + k1 * e + k2 * nb + k3 * q) := by
  have s1 : (ie : K) ≤ e / tab.de ∧ e / tab.de < ie + 1 := by
    rw [le_div_iff₀ hd, div_lt_iff₀ hd]; exact ⟨by linarith [he.1], by linarith [he.2]⟩
  have s2 : (inb : K) ≤ nb / tab.dnb ∧ nb / tab.dnb < inb + 1 := by
    rw [le_div_iff₀ hdb, div_lt_iff₀ hdb]; exact ⟨by linarith [hb.1], by linarith [hb.2]⟩
  have s3 : (iq : K) ≤ q / tab.dq ∧ q / tab.dq < iq + 1 := by
    rw [le_div_iff₀ hdq, div_lt_iff₀ hdq]; exact ⟨by linarith [hq.1], by linarith [hq.2]⟩
  obtain ⟨res, hr, hc⟩ := get_inside tab e nb q ie inb iq (toSize_ok.2 ⟨s1.1, s1.2, hs.1⟩)
    (toSize_ok.2 ⟨s2.1, s2.2, hs.2.1⟩) (toSize_ok.2 ⟨s3.1, s3.2, hs.2.2⟩) h1 h2 h3
  refine ⟨res, hr, fun c hcc => ⟨?_, ?_⟩⟩
  · intro lo hi hall
    rw [hc c hcc]
    have q0 := hall 0 0 0 (by omega) (by omega) (by omega)
    have q1 := hall 1 0 0 (by omega) (by omega) (by omega)
    have q2 := hall 0 1 0 (by omega) (by omega) (by omega)
    have q3 := hall 1 1 0 (by omega) (by omega) (by omega)
    have q4 := hall 0 0 1 (by omega) (by omega) (by omega)
    have q5 := hall 1 0 1 (by omega) (by omega) (by omega)
    have q6 := hall 0 1 1 (by omega) (by omega) (by omega)
    have q7 := hall 1 1 1 (by omega) (by omega) (by omega)
    simp only [Nat.add_zero] at q0 q1 q2 q3 q4 q5 q6 q7
    have a1 : 0 ≤ e / tab.de - ie := by linarith [s1.1]
    have a2 : e / tab.de - ie ≤ 1 := by linarith [s1.2]
    have b1 : 0 ≤ nb / tab.dnb - inb := by linarith [s2.1]
    have b2 : nb / tab.dnb - inb ≤ 1 := by linarith [s2.2]
    have d1 : 0 ≤ q / tab.dq - iq := by linarith [s3.1]
    have d2 : q / tab.dq - iq ≤ 1 := by linarith [s3.2]
    exact mix d1 d2 (mix a1 a2 (mix b1 b2 q7 q5) (mix b1 b2 q6 q4)) (mix a1 a2 (mix b1 b2 q3 q1) (mix b1 b2 q2 q0))
  · intro k0 k1 k2 k3 hall
    rw [hc c hcc]
    have q0 := hall 0 0 0 (by omega) (by omega) (by omega)
    have q1 := hall 1 0 0 (by omega) (by omega) (by omega)
    have q2 := hall 0 1 0 (by omega) (by omega) (by omega)
    have q3 := hall 1 1 0 (by omega) (by omega) (by omega)
    have q4 := hall 0 0 1 (by omega) (by omega) (by omega)
    have q5 := hall 1 0 1 (by omega) (by omega) (by omega)
    have q6 := hall 0 1 1 (by omega) (by omega) (by omega)
    have q7 := hall 1 1 1 (by omega) (by omega) (by omega)
    simp only [Nat.add_zero, Nat.cast_zero, Nat.cast_one, add_zero] at q0 q1 q2 q3 q4 q5 q6 q7
    rw [q0, q1, q2, q3, q4, q5, q6, q7]
    unfold trilinear
    have z1 : e = tab.de * (e / tab.de) := by field_simp
    have z2 : nb = tab.dnb * (nb / tab.dnb) := by field_simp
    have z3 : q = tab.dq * (q / tab.dq) := by field_simp
    generalize e / tab.de = x at *
    generalize nb / tab.dnb = y at *
    generalize q / tab.dq = z at *
    rw [z1, z2, z3]
    ring

/-- **C148 (outside).** For densities which are not negative, and not absurdly large, the table gives -1 in every component exactly
when one of them is at or above the last node (of a table which has nodes). -/
theorem C148_outside [Field K] [LinearOrder K] [IsStrictOrderedRing K] [FloorRing K] (tab : Tab K) (hd : 0 < tab.de)
    (hdb : 0 < tab.dnb) (hdq : 0 < tab.dq) (h1 : 0 < tab.ne) (h2 : 0 < tab.nnb) (h3 : 0 < tab.nq) (e nb q : K)
    (he : 0 ≤ e ∧ e < tab.de * 2 ^ 64) (hb : 0 ≤ nb ∧ nb < tab.dnb * 2 ^ 64) (hq : 0 ≤ q ∧ q < tab.dq * 2 ^ 64)
    (hout : tab.de * (tab.ne - 1) ≤ e ∨ tab.dnb * (tab.nnb - 1) ≤ nb ∨ tab.dq * (tab.nq - 1) ≤ q) :
    get tab e nb q = .ok ⟨-1, -1, -1, -1, -1⟩ := by
  have size : ∀ {x d : K}, 0 < d → 0 ≤ x → x < d * 2 ^ 64 → ∃ n : ℕ, toSize (x / d) = .ok n ∧ x / d < n + 1 := by
    intro x d hd h0 hx
    have hx0 : 0 ≤ x / d := div_nonneg h0 hd.le
    refine ⟨⌊x / d⌋₊, toSize_ok.2 ⟨Nat.floor_le hx0, Nat.lt_floor_add_one _, ?_⟩, Nat.lt_floor_add_one _⟩
    rw [Nat.floor_lt hx0, div_lt_iff₀ hd]
    push_cast
    linarith
  obtain ⟨ie, e1, e2⟩ := size hd he.1 he.2
  obtain ⟨inb, b1, b2⟩ := size hdb hb.1 hb.2
  obtain ⟨iq, q1, q2⟩ := size hdq hq.1 hq.2
  have key : ∀ {x d : K} {n i : ℕ}, 0 < d → 0 < n → d * (n - 1) ≤ x → x / d < i + 1 → pred64 n ≤ i := by
    intro x d n i hd hn hx hi
    unfold pred64
    rw [if_neg (by omega)]
    have h : ((n : K) - 1) ≤ x / d := by rw [le_div_iff₀ hd]; linarith
    have : (n : K) < i + 2 := by linarith
    have : n < i + 2 := by exact_mod_cast this
    omega
  unfold get
  rw [e1, b1, q1]
  simp only [bind, Except.bind]
  rw [if_pos]
  rcases hout with h | h | h
  · exact Or.inl (key hd h1 h e2)
  · exact Or.inr (Or.inl (key hdb h2 h b2))
  · exact Or.inr (Or.inr (key hdq h3 h q2))

/-- For a negative net baryon or charge density, for instance of a neutron-rich cell with negative pions, the conversion to an index is
not defined. -/
theorem C148_negative_false [Field K] [LinearOrder K] [IsStrictOrderedRing K] [FloorRing K] (tab : Tab K) (hd : 0 < tab.de)
    (hdb : 0 < tab.dnb) (hdq : 0 < tab.dq) (e nb q : K) (he : 0 ≤ e ∧ e < tab.de * 2 ^ 64)
    (hb : 0 ≤ nb ∧ nb < tab.dnb * 2 ^ 64) (hq : q < 0) : get tab e nb q = .error .cast := by
  have size : ∀ {x d : K}, 0 < d → 0 ≤ x → x < d * 2 ^ 64 → ∃ n : ℕ, toSize (x / d) = .ok n := by
    intro x d hd h0 hx
    have hx0 : 0 ≤ x / d := div_nonneg h0 hd.le
    refine ⟨⌊x / d⌋₊, toSize_ok.2 ⟨Nat.floor_le hx0, Nat.lt_floor_add_one _, ?_⟩⟩
    rw [Nat.floor_lt hx0, div_lt_iff₀ hd]
    push_cast
    linarith
  obtain ⟨ie, e1⟩ := size hd he.1 he.2
  obtain ⟨inb, b1⟩ := size hdb hb.1 hb.2
  unfold get
  rw [e1, b1, toSize_err (div_neg_of_neg_of_pos hq hdq)]
  rfl

end Verif.Eos
