import Verif.Grid.Model
import Mathlib.Tactic.Linarith
import Mathlib.Tactic.Ring
import Mathlib.Data.List.Nodup
/-
Lemmas about the sequence of callbacks: every call occurs once, and which calls occur.
-/
namespace Verif.Grid

/-- A cell of the grid. -/
def InRange (n c : V3 Int) : Prop :=
  (0 ≤ c.x ∧ c.x < n.x) ∧ (0 ≤ c.y ∧ c.y < n.y) ∧ (0 ≤ c.z ∧ c.z < n.z)

/-- Displacement by at most one cell in every direction. -/
def Near (d : V3 Int) : Prop :=
  (-1 ≤ d.x ∧ d.x ≤ 1) ∧ (-1 ≤ d.y ∧ d.y ≤ 1) ∧ (-1 ≤ d.z ∧ d.z ≤ 1)

/-! ### The index -/

theorem makeIndex_inj {n a b : V3 Int} (ha : InRange n a) (hb : InRange n b)
    (h : makeIndex n a = makeIndex n b) : a = b := by
  obtain ⟨⟨a1, a2⟩, ⟨a3, a4⟩, a5, a6⟩ := ha
  obtain ⟨⟨b1, b2⟩, ⟨b3, b4⟩, b5, b6⟩ := hb
  unfold makeIndex at h
  have hx : a.x = b.x := by
    have e1 : ((a.z * n.y + a.y) * n.x + a.x) % n.x = a.x := by
      rw [add_comm, Int.add_mul_emod_self_right]; exact Int.emod_eq_of_lt a1 a2
    have e2 : ((b.z * n.y + b.y) * n.x + b.x) % n.x = b.x := by
      rw [add_comm, Int.add_mul_emod_self_right]; exact Int.emod_eq_of_lt b1 b2
    rw [← e1, ← e2, h]
  have hn : n.x ≠ 0 := by omega
  have h2 : (a.z * n.y + a.y) * n.x = (b.z * n.y + b.y) * n.x := by omega
  have h3 := Int.eq_of_mul_eq_mul_right hn h2
  have hy : a.y = b.y := by
    have e1 : (a.z * n.y + a.y) % n.y = a.y := by
      rw [add_comm, Int.add_mul_emod_self_right]; exact Int.emod_eq_of_lt a3 a4
    have e2 : (b.z * n.y + b.y) % n.y = b.y := by
      rw [add_comm, Int.add_mul_emod_self_right]; exact Int.emod_eq_of_lt b3 b4
    rw [← e1, ← e2, h3]
  have hn' : n.y ≠ 0 := by omega
  have h4 : a.z * n.y = b.z * n.y := by omega
  exact V3.ext hx hy (Int.eq_of_mul_eq_mul_right hn' h4)

theorem makeIndex_range {n a : V3 Int} (ha : InRange n a) :
    0 ≤ makeIndex n a ∧ makeIndex n a < n.x * n.y * n.z := by
  obtain ⟨⟨a1, a2⟩, ⟨a3, a4⟩, a5, a6⟩ := ha
  unfold makeIndex
  have h0 : 0 ≤ a.z * n.y := mul_nonneg a5 (by omega)
  have h1 : 0 ≤ (a.z * n.y + a.y) * n.x := mul_nonneg (by omega) (by omega)
  refine ⟨by omega, ?_⟩
  have h2 : a.z * n.y + a.y + 1 ≤ n.z * n.y := by
    have : (a.z + 1) * n.y ≤ n.z * n.y := mul_le_mul_of_nonneg_right (by omega) (by omega)
    have e : (a.z + 1) * n.y = a.z * n.y + n.y := by ring
    omega
  have h3 : (a.z * n.y + a.y + 1) * n.x ≤ n.z * n.y * n.x :=
    mul_le_mul_of_nonneg_right h2 (by omega)
  have e1 : (a.z * n.y + a.y + 1) * n.x = (a.z * n.y + a.y) * n.x + n.x := by ring
  have e2 : n.z * n.y * n.x = n.x * n.y * n.z := by ring
  omega

theorem makeIndex_add (n a b : V3 Int) :
    makeIndex n ⟨a.x + b.x, a.y + b.y, a.z + b.z⟩ = makeIndex n a + makeIndex n b := by
  unfold makeIndex; ring

theorem makeIndex_neg (n d : V3 Int) :
    makeIndex n ⟨-d.x, -d.y, -d.z⟩ = -makeIndex n d := by
  unfold makeIndex; ring

/-- A displacement with positive index goes up in z (lexicographic order). -/
theorem z_nonneg_of_pos {n d : V3 Int} (hnx : 1 ≤ n.x) (hny : 1 ≤ n.y)
    (hx : d.x ≤ n.x - 1) (hy : d.y ≤ n.y - 1) (h : 0 < makeIndex n d) : 0 ≤ d.z := by
  by_contra hz
  unfold makeIndex at h
  have h1 : d.z * n.y ≤ (-1) * n.y := mul_le_mul_of_nonneg_right (by omega) (by omega)
  have h2 : (d.z * n.y + d.y) * n.x ≤ (-1) * n.x :=
    mul_le_mul_of_nonneg_right (by omega) (by omega)
  omega

/-! ### Enumeration of cells -/

theorem mem_upTo {n x : Int} : x ∈ upTo n ↔ 0 ≤ x ∧ x < n := by
  unfold upTo
  simp only [List.mem_map, List.mem_range]
  constructor
  · rintro ⟨k, hk, rfl⟩; omega
  · intro ⟨h1, h2⟩; exact ⟨x.toNat, by omega, by omega⟩

theorem mem_coords {n c : V3 Int} : c ∈ coords n ↔ InRange n c := by
  unfold coords InRange
  simp only [List.mem_flatMap, List.mem_map, mem_upTo]
  constructor
  · rintro ⟨z, hz, y, hy, x, hx, rfl⟩; exact ⟨hx, hy, hz⟩
  · intro ⟨hx, hy, hz⟩; exact ⟨c.z, hz, c.y, hy, c.x, hx, rfl⟩

theorem flatMap_range (m k : Nat) :
    (List.range m).flatMap (fun y => (List.range k).map (fun x => y * k + x)) =
      List.range (m * k) := by
  induction m with
  | zero => simp
  | succ m ih =>
    rw [List.range_succ, List.flatMap_append, ih, Nat.succ_mul, List.range_add]
    simp

theorem map_coords (n : V3 Int) (hx : 0 ≤ n.x) (hy : 0 ≤ n.y) (hz : 0 ≤ n.z) :
    (coords n).map (makeIndex n) =
      (List.range (n.z.toNat * n.y.toNat * n.x.toNat)).map (fun k : Nat => (k : Int)) := by
  rw [← flatMap_range, ← flatMap_range]
  unfold coords upTo
  simp only [List.map_flatMap, List.flatMap_map, List.map_map, List.flatMap_assoc]
  apply List.flatMap_congr; intro z _
  apply List.flatMap_congr; intro y _
  apply List.map_congr_left; intro x _
  simp only [Function.comp, makeIndex]
  have e1 : ((n.y.toNat : Nat) : Int) = n.y := Int.toNat_of_nonneg hy
  have e2 : ((n.x.toNat : Nat) : Int) = n.x := Int.toNat_of_nonneg hx
  push_cast
  rw [e1, e2]

/-- The running counter `search_cell_index` is the index of the cell (the assertion
grid.cc:307). -/
theorem numbered_index {n : V3 Int} {ci : V3 Int × Nat} (h : ci ∈ numbered n) :
    InRange n ci.1 ∧ (ci.2 : Int) = makeIndex n ci.1 := by
  obtain ⟨c, i⟩ := ci
  unfold numbered at h
  have hm := List.mem_zipIdx' h
  have hc : c ∈ coords n := by rw [hm.2]; exact List.getElem_mem _
  have hr := mem_coords.1 hc
  refine ⟨hr, ?_⟩
  have hmap := map_coords n (by have := hr.1; omega) (by have := hr.2.1; omega)
    (by have := hr.2.2; omega)
  have hi : i < ((coords n).map (makeIndex n)).length := by rw [List.length_map]; exact hm.1
  have e : ((coords n).map (makeIndex n))[i] = makeIndex n c := by
    rw [List.getElem_map]; rw [hm.2]
  rw [← e]
  simp only [hmap, List.getElem_map, List.getElem_range]

theorem mem_numbered {n c : V3 Int} (h : InRange n c) :
    ∃ i : Nat, (c, i) ∈ numbered n ∧ (i : Int) = makeIndex n c := by
  have hc := mem_coords.2 h
  obtain ⟨i, hi, e⟩ := List.getElem_of_mem hc
  have hm : (c, i) ∈ numbered n := by
    unfold numbered
    rw [List.mem_zipIdx_iff_getElem?]
    simp [List.getElem?_eq_getElem hi, e]
  exact ⟨i, hm, (numbered_index hm).2⟩

theorem numbered_nodup (n : V3 Int) : (numbered n).Nodup := by
  unfold numbered
  apply List.Nodup.of_map Prod.snd
  rw [List.zipIdx_map_snd]
  exact List.nodup_range'

/-! ### Nodup of nested loops -/

theorem nodup_flatMap_of_inj {α β : Type} {l : List α} {f : α → List β} (hl : l.Nodup)
    (hf : ∀ x ∈ l, (f x).Nodup)
    (hinj : ∀ x ∈ l, ∀ y ∈ l, ∀ c, c ∈ f x → c ∈ f y → x = y) : (l.flatMap f).Nodup := by
  rw [List.nodup_flatMap]
  refine ⟨hf, ?_⟩
  rw [List.Nodup] at hl
  refine hl.imp_of_mem ?_
  intro a b ha hb hab c hca hcb
  exact hab (hinj a ha b hb c hca hcb)

theorem call_index_search {n : V3 Int} {body : V3 Int × Nat → List Call}
    (hb : ∀ ci ∈ numbered n, ∀ c ∈ body ci, ∃ s j, c = .neighbor ci.2 s j)
    (hnd : ∀ ci ∈ numbered n, (body ci).Nodup) :
    ((numbered n).flatMap (fun ci => .search ci.2 :: body ci)).Nodup := by
  apply nodup_flatMap_of_inj (numbered_nodup n)
  · intro ci hci
    refine List.nodup_cons.2 ⟨?_, hnd ci hci⟩
    intro h
    obtain ⟨s, j, e⟩ := hb ci hci _ h
    cases e
  · intro a ha b hb' c hca hcb
    have hidx : (a.2 : Int) = b.2 := by
      rcases List.mem_cons.1 hca with h1 | h1 <;> rcases List.mem_cons.1 hcb with h2 | h2
      · rw [h1] at h2; injection h2
      · obtain ⟨s, j, e⟩ := hb b hb' _ h2; rw [h1] at e; cases e
      · obtain ⟨s, j, e⟩ := hb a ha _ h1; rw [h2] at e; cases e
      · obtain ⟨s, j, e⟩ := hb a ha _ h1
        obtain ⟨s', j', e'⟩ := hb b hb' _ h2
        rw [e] at e'; injection e'
    have ia := numbered_index ha
    have ib := numbered_index hb'
    have : a.1 = b.1 := makeIndex_inj ia.1 ib.1 (by rw [← ia.2, ← ib.2, hidx])
    exact Prod.ext this (by exact_mod_cast hidx)

/-! ### Normal boundaries -/

theorem mem_dzList {n z d : Int} : d ∈ dzList n z ↔ (d = 0 ∨ (d = 1 ∧ z ≠ n - 1)) := by
  unfold dzList; split <;> simp_all

theorem mem_dyxList {n y d : Int} (h0 : 0 ≤ y) (h1 : y < n) :
    d ∈ dyxList n y ↔ (-1 ≤ d ∧ d ≤ 1) ∧ 0 ≤ y + d ∧ y + d < n := by
  unfold dyxList
  split
  · simp; omega
  split
  · simp; omega
  split
  · simp; omega
  · simp; omega

theorem dzList_nodup (n z : Int) : (dzList n z).Nodup := by unfold dzList; split <;> simp
theorem dyxList_nodup (n y : Int) : (dyxList n y).Nodup := by
  unfold dyxList; split_ifs <;> simp

/-- The neighbour loops of one cell. -/
def normalBody (n : V3 Int) (ci : V3 Int × Nat) : List Call :=
    (dzList n.z ci.1.z).flatMap fun dz =>
      (dyxList n.y ci.1.y).flatMap fun dy =>
        (dyxList n.x ci.1.x).flatMap fun dx =>
          let di := makeIndex n ⟨dx, dy, dz⟩
          if di > 0 then [.neighbor ci.2 ⟨0, 0, 0⟩ (ci.2 + di)] else []

theorem mem_normalBody {n : V3 Int} {ci : V3 Int × Nat} {c : Call} :
    c ∈ normalBody n ci ↔ ∃ d : V3 Int, d.z ∈ dzList n.z ci.1.z ∧ d.y ∈ dyxList n.y ci.1.y ∧
      d.x ∈ dyxList n.x ci.1.x ∧ 0 < makeIndex n d ∧
      c = .neighbor ci.2 ⟨0, 0, 0⟩ (ci.2 + makeIndex n d) := by
  unfold normalBody
  simp only [List.mem_flatMap]
  constructor
  · rintro ⟨dz, hz, dy, hy, dx, hx, h⟩
    split at h
    · rename_i hpos
      rw [List.mem_singleton] at h
      exact ⟨⟨dx, dy, dz⟩, hz, hy, hx, hpos, h⟩
    · simp at h
  · rintro ⟨d, hz, hy, hx, hpos, h⟩
    refine ⟨d.z, hz, d.y, hy, d.x, hx, ?_⟩
    rw [if_pos hpos]; simp [h]

theorem normal_target {n : V3 Int} {c d : V3 Int} (hc : InRange n c)
    (hz : d.z ∈ dzList n.z c.z) (hy : d.y ∈ dyxList n.y c.y) (hx : d.x ∈ dyxList n.x c.x) :
    InRange n ⟨c.x + d.x, c.y + d.y, c.z + d.z⟩ ∧ Near d := by
  obtain ⟨h1, h2, h3⟩ := hc
  rw [mem_dzList] at hz
  rw [mem_dyxList h2.1 h2.2] at hy
  rw [mem_dyxList h1.1 h1.2] at hx
  refine ⟨⟨hx.2, hy.2, ?_⟩, hx.1, hy.1, ?_⟩
  · simp only; omega
  · omega

theorem normal_inj {n : V3 Int} {ci : V3 Int × Nat} (hci : ci ∈ numbered n) {d d' : V3 Int}
    (hz : d.z ∈ dzList n.z ci.1.z) (hy : d.y ∈ dyxList n.y ci.1.y)
    (hx : d.x ∈ dyxList n.x ci.1.x)
    (hz' : d'.z ∈ dzList n.z ci.1.z) (hy' : d'.y ∈ dyxList n.y ci.1.y)
    (hx' : d'.x ∈ dyxList n.x ci.1.x) (h : makeIndex n d = makeIndex n d') : d = d' := by
  have hc := (numbered_index hci).1
  have t := (normal_target hc hz hy hx).1
  have t' := (normal_target hc hz' hy' hx').1
  have := makeIndex_inj t t' (by rw [makeIndex_add, makeIndex_add, h])
  have e1 := congrArg V3.x this
  have e2 := congrArg V3.y this
  have e3 := congrArg V3.z this
  simp only at e1 e2 e3
  exact V3.ext (by omega) (by omega) (by omega)

theorem normalBody_nodup {n : V3 Int} {ci : V3 Int × Nat} (hci : ci ∈ numbered n) :
    (normalBody n ci).Nodup := by
  unfold normalBody
  have key : ∀ (d d' : V3 Int) (c : Call), d.z ∈ dzList n.z ci.1.z → d.y ∈ dyxList n.y ci.1.y →
      d.x ∈ dyxList n.x ci.1.x → d'.z ∈ dzList n.z ci.1.z → d'.y ∈ dyxList n.y ci.1.y →
      d'.x ∈ dyxList n.x ci.1.x →
      c ∈ (if makeIndex n d > 0 then [Call.neighbor ci.2 ⟨0, 0, 0⟩ (ci.2 + makeIndex n d)] else []) →
      c ∈ (if makeIndex n d' > 0 then [Call.neighbor ci.2 ⟨0, 0, 0⟩ (ci.2 + makeIndex n d')]
        else []) → d = d' := by
    intro d d' c hz hy hx hz' hy' hx' h h'
    split at h <;> simp only [List.mem_singleton, List.not_mem_nil] at h
    split at h' <;> simp only [List.mem_singleton, List.not_mem_nil] at h'
    rw [h] at h'
    injection h' with _ _ e
    exact normal_inj hci hz hy hx hz' hy' hx' (by omega)
  apply nodup_flatMap_of_inj (dzList_nodup _ _)
  · intro dz hz
    apply nodup_flatMap_of_inj (dyxList_nodup _ _)
    · intro dy hy
      apply nodup_flatMap_of_inj (dyxList_nodup _ _)
      · intro dx hx
        simp only
        split <;> simp
      · intro dx hx dx' hx' c h h'
        exact congrArg V3.x (key ⟨dx, dy, dz⟩ ⟨dx', dy, dz⟩ c hz hy hx hz hy hx' h h')
    · intro dy hy dy' hy' c h h'
      simp only [List.mem_flatMap] at h h'
      obtain ⟨dx, hx, h⟩ := h
      obtain ⟨dx', hx', h'⟩ := h'
      exact congrArg V3.y (key ⟨dx, dy, dz⟩ ⟨dx', dy', dz⟩ c hz hy hx hz hy' hx' h h')
  · intro dz hz dz' hz' c h h'
    simp only [List.mem_flatMap] at h h'
    obtain ⟨dy, hy, dx, hx, h⟩ := h
    obtain ⟨dy', hy', dx', hx', h'⟩ := h'
    exact congrArg V3.z (key ⟨dx, dy, dz⟩ ⟨dx', dy', dz'⟩ c hz hy hx hz' hy' hx' h h')

theorem normalCalls_nodup (n : V3 Int) : (normalCalls n).Nodup := by
  apply call_index_search (body := normalBody n)
  · intro ci _ c hc
    obtain ⟨d, _, _, _, _, e⟩ := mem_normalBody.1 hc
    exact ⟨_, _, e⟩
  · intro ci hci; exact normalBody_nodup hci

theorem search_mem_normal {n : V3 Int} {i : Int} :
    Call.search i ∈ normalCalls n ↔ ∃ a, InRange n a ∧ i = makeIndex n a := by
  unfold normalCalls
  rw [List.mem_flatMap]
  constructor
  · rintro ⟨ci, hci, h⟩
    rcases List.mem_cons.1 h with h | h
    · cases h
      exact ⟨ci.1, numbered_index hci⟩
    · obtain ⟨d, _, _, _, _, e⟩ := mem_normalBody.1 h
      cases e
  · rintro ⟨a, ha, rfl⟩
    obtain ⟨i, hi, e⟩ := mem_numbered ha
    exact ⟨_, hi, by rw [← e]; exact List.mem_cons_self⟩

/-- Which neighbour calls occur: between cells at most one step apart, from the
smaller to the larger index. -/
theorem neighbor_mem_normal {n s : V3 Int} {i j : Int} :
    Call.neighbor i s j ∈ normalCalls n ↔ s = ⟨0, 0, 0⟩ ∧ ∃ a b, InRange n a ∧ InRange n b ∧
      i = makeIndex n a ∧ j = makeIndex n b ∧ Near ⟨b.x - a.x, b.y - a.y, b.z - a.z⟩ ∧ i < j := by
  unfold normalCalls
  rw [List.mem_flatMap]
  constructor
  · rintro ⟨ci, hci, h⟩
    rcases List.mem_cons.1 h with h | h
    · cases h
    · obtain ⟨d, hz, hy, hx, hpos, e⟩ := mem_normalBody.1 h
      injection e with e1 e2 e3
      have hc := numbered_index hci
      have t := normal_target hc.1 hz hy hx
      refine ⟨e2, ci.1, ⟨ci.1.x + d.x, ci.1.y + d.y, ci.1.z + d.z⟩, hc.1, t.1,
        by rw [e1, hc.2], by rw [makeIndex_add, e3, hc.2], ?_, by omega⟩
      have := t.2
      simpa [Near] using this
  · rintro ⟨hs, a, b, ha, hb, hi, hj, hnear, hlt⟩
    obtain ⟨k, hk, e⟩ := mem_numbered ha
    refine ⟨_, hk, List.mem_cons_of_mem _ (mem_normalBody.2
      ⟨⟨b.x - a.x, b.y - a.y, b.z - a.z⟩, ?_, ?_, ?_, ?_, ?_⟩)⟩
    · have hsum : makeIndex n ⟨b.x - a.x, b.y - a.y, b.z - a.z⟩ = j - i := by
        rw [hi, hj]; unfold makeIndex; ring
      have hz : 0 ≤ b.z - a.z := by
        apply z_nonneg_of_pos (n := n) (d := ⟨b.x - a.x, b.y - a.y, b.z - a.z⟩)
          (by have := ha.1; omega) (by have := ha.2.1; omega)
        · have := ha.1; have := hb.1; simp only; omega
        · have := ha.2.1; have := hb.2.1; simp only; omega
        · omega
      rw [mem_dzList]
      have h1 := hnear.2.2
      have h2 := hb.2.2
      simp only at h1 ⊢
      omega
    · rw [mem_dyxList ha.2.1.1 ha.2.1.2]
      have h1 := hnear.2.1
      have h2 := hb.2.1
      simp only at h1 ⊢
      omega
    · rw [mem_dyxList ha.1.1 ha.1.2]
      have h1 := hnear.1
      have h2 := hb.1
      simp only at h1 ⊢
      omega
    · have : makeIndex n ⟨b.x - a.x, b.y - a.y, b.z - a.z⟩ = j - i := by
        rw [hi, hj]; unfold makeIndex; ring
      omega
    · rw [hs, e, ← hi]
      congr 1
      rw [hi, hj]; unfold makeIndex; ring

end Verif.Grid
