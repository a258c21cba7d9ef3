import Verif.Particles.Ops
import Mathlib.Data.List.Perm.Basic
/-
The iterator loop visits exactly the live slots, in slot order.
-/
namespace Verif.Particles
set_option linter.unusedSectionVars false
variable {P : Type} [Inhabited P]

/-- Live slots from `i` on. -/
def liveFrom (s : State P) (i : Nat) : List Nat :=
  (List.range' i (s.size - i)).filter (fun j => !(s.data j).hole)

theorem liveFrom_end (s : State P) (i : Nat) (h : s.size ≤ i) : liveFrom s i = [] := by
  simp [liveFrom, show s.size - i = 0 by omega]

theorem liveFrom_lt (s : State P) (i : Nat) (h : i < s.size) :
    liveFrom s i = if (s.data i).hole then liveFrom s (i + 1) else i :: liveFrom s (i + 1) := by
  unfold liveFrom
  rw [show s.size - i = (s.size - (i + 1)) + 1 by omega, List.range'_succ, List.filter_cons]
  cases (s.data i).hole <;> simp

theorem skip_spec {s : State P} (h : Inv s) : ∀ (k i : Nat), s.size - i = k → i ≤ s.size →
    ∃ j, skipHoles s i = .ok j ∧ i ≤ j ∧ j ≤ s.size ∧ (j < s.size → (s.data j).hole = false) ∧
      liveFrom s i = liveFrom s j := by
  intro k
  induction k with
  | zero =>
    intro i hk hi
    have : i = s.size := by omega
    subst this
    have hs := h.size_lt
    have hn : (s.data s.size).hole = false :=
      hole_false h hs (fun hm => absurd (h.dirty_lt _ hm) (by omega))
    refine ⟨s.size, ?_, by omega, by omega, fun hh => absurd hh (by omega), rfl⟩
    rw [skipHoles]; simp [hs, hn]
  | succ k ih =>
    intro i hk hi
    have hs := h.size_lt
    have hlt : i < s.size := by omega
    cases hh : (s.data i).hole with
    | false =>
      refine ⟨i, ?_, by omega, by omega, fun _ => hh, rfl⟩
      rw [skipHoles]; simp [show i < s.cap by omega, hh]
    | true =>
      obtain ⟨j, h1, h2, h3, h4, h5⟩ := ih (i + 1) (by omega) (by omega)
      refine ⟨j, ?_, by omega, h3, h4, ?_⟩
      · rw [skipHoles]; simp only [show i < s.cap by omega, hh, dite_true, if_true]; exact h1
      · rw [liveFrom_lt s i hlt, hh, if_pos rfl]; exact h5

theorem iterFrom_spec {s : State P} (h : Inv s) : ∀ (k i : Nat), s.size - i ≤ k → i ≤ s.size →
    (i < s.size → (s.data i).hole = false) →
    iterFrom s i = .ok ((liveFrom s i).map s.data) := by
  intro k
  induction k with
  | zero =>
    intro i hk hi _
    have : i = s.size := by omega
    subst this
    rw [iterFrom]; simp [liveFrom_end]
  | succ k ih =>
    intro i hk hi hh
    by_cases he : i = s.size
    · subst he; rw [iterFrom]; simp [liveFrom_end]
    · have hlt : i < s.size := by omega
      have hs := h.size_lt
      obtain ⟨j, h1, h2, h3, h4, h5⟩ := skip_spec h _ (i + 1) rfl (by omega)
      rw [iterFrom]
      simp only [he, if_false, show i < s.cap by omega, dite_true]
      split
      · rename_i e heq; rw [h1] at heq; exact absurd heq (by simp)
      · rename_i j' heq
        rw [h1] at heq
        injection heq with heq
        subst heq
        rw [ih j (by omega) h3 h4]
        simp only [bind, Except.bind, pure, Except.pure]
        rw [liveFrom_lt s i hlt, hh hlt, h5]
        simp

/-- The list of stored particles. -/
def liveList (s : State P) : List (PData P) := (liveFrom s 0).map s.data

theorem iterate_eq {s : State P} (h : Inv s) : iterate s = .ok (liveList s) := by
  obtain ⟨j, h1, h2, h3, h4, h5⟩ := skip_spec h _ 0 rfl (by omega)
  simp only [iterate, h1, bind, Except.bind]
  rw [iterFrom_spec h _ j (Nat.le_refl _) h3 h4, liveList, h5]

theorem mem_liveFrom {s : State P} (h : Inv s) (i : Nat) :
    i ∈ liveFrom s 0 ↔ i < s.size ∧ i ∉ s.dirty := by
  have hs := h.size_lt
  simp only [liveFrom, List.mem_filter, List.mem_range'_1, Nat.zero_add, Nat.sub_zero,
    Nat.zero_le, true_and, Bool.not_eq_true']
  constructor
  · rintro ⟨h1, h2⟩
    refine ⟨h1, fun hm => ?_⟩
    rw [(h.hole_iff i (by omega)).2 hm] at h2
    exact absurd h2 (by simp)
  · rintro ⟨h1, h2⟩
    exact ⟨h1, hole_false h (by omega) h2⟩

theorem nodup_liveFrom (s : State P) : (liveFrom s 0).Nodup :=
  List.Pairwise.filter _ List.nodup_range'

theorem mem_liveList {s : State P} (h : Inv s) (p : PData P) :
    p ∈ liveList s ↔ ∃ i, i < s.size ∧ i ∉ s.dirty ∧ s.data i = p := by
  simp only [liveList, List.mem_map, mem_liveFrom h]
  constructor
  · rintro ⟨i, ⟨h1, h2⟩, h3⟩; exact ⟨i, h1, h2, h3⟩
  · rintro ⟨i, h1, h2, h3⟩; exact ⟨i, ⟨h1, h2⟩, h3⟩

theorem nodup_map_of_inj {α β : Type} (f : α → β) : ∀ (l : List α), l.Nodup →
    (∀ a ∈ l, ∀ b ∈ l, f a = f b → a = b) → (l.map f).Nodup
  | [], _, _ => by simp
  | a :: l, hn, hf => by
    rw [List.map_cons, List.nodup_cons]
    obtain ⟨h1, h2⟩ := List.nodup_cons.1 hn
    constructor
    · intro hm
      obtain ⟨b, hb, he⟩ := List.mem_map.1 hm
      have := hf b (List.mem_cons_of_mem _ hb) a (by simp) he
      exact h1 (this ▸ hb)
    · exact nodup_map_of_inj f l h2 (fun x hx y hy => hf x (List.mem_cons_of_mem _ hx) y
        (List.mem_cons_of_mem _ hy))

theorem nodup_ids {s : State P} (h : Inv s) : ((liveList s).map PData.id).Nodup := by
  unfold liveList
  rw [List.map_map]
  apply nodup_map_of_inj _ _ (nodup_liveFrom s)
  intro a ha b hb e
  have ha' := (mem_liveFrom h a).1 ha
  have hb' := (mem_liveFrom h b).1 hb
  exact h.inj a b ha'.1 hb'.1 ha'.2 hb'.2 e

theorem filter_out_length {α : Type} [DecidableEq α] : ∀ (d l : List α), l.Nodup → d.Nodup →
    (∀ x ∈ d, x ∈ l) →
    (l.filter (fun i => decide (i ∉ d))).length + d.length = l.length
  | [], l, _, _, _ => by
    have : (fun i : α => decide (i ∉ ([] : List α))) = fun _ => true := by
      funext i; simp
    rw [this]; simp
  | x :: d, l, hl, hd, hsub => by
    have hx : x ∈ l := hsub x (by simp)
    obtain ⟨hxd, hd'⟩ := List.nodup_cons.1 hd
    have hl' : (l.erase x).Nodup := hl.erase x
    have hlen := List.length_erase_of_mem hx
    have hpos : 0 < l.length := List.length_pos_of_mem hx
    have ih := filter_out_length d (l.erase x) hl' hd' (fun y hy => by
      rw [List.Nodup.mem_erase_iff hl]
      exact ⟨fun e => hxd (e ▸ hy), hsub y (List.mem_cons_of_mem _ hy)⟩)
    have heq : l.filter (fun i => decide (i ∉ x :: d)) =
        (l.erase x).filter (fun i => decide (i ∉ d)) := by
      rw [hl.erase_eq_filter, List.filter_filter]
      apply List.filter_congr
      intro y hy
      by_cases hyx : y = x <;> simp [hyx]
    rw [heq, List.length_cons]
    omega

theorem length_liveList {s : State P} (h : Inv s) :
    (liveList s).length = sizeOf s ∧ s.dirty.length ≤ s.size := by
  have hs := h.size_lt
  have heq : liveFrom s 0 = (List.range' 0 s.size).filter (fun i => decide (i ∉ s.dirty)) := by
    unfold liveFrom
    rw [Nat.sub_zero]
    apply List.filter_congr
    intro i hi
    have hi' : i < s.size := by simpa [List.mem_range'_1] using hi
    have := h.hole_iff i (by omega)
    by_cases hm : i ∈ s.dirty
    · simp [hm, this.2 hm]
    · simp [hm, hole_false h (by omega : i < s.cap) hm]
  have hlen := filter_out_length s.dirty (List.range' 0 s.size) List.nodup_range' h.nodup
    (fun x hx => by simpa [List.mem_range'_1] using h.dirty_lt x hx)
  rw [List.length_range'] at hlen
  unfold liveList sizeOf
  rw [List.length_map, heq]
  omega

theorem live_iff {s : State P} {b : Bag P} (h : Sim s b) (id : Int) (c : Content P) :
    (∃ p ∈ liveList s, p.id = id ∧ p.content = c) ↔ b.live id = some c := by
  rw [h.live]
  constructor
  · rintro ⟨p, hp, h1, h2⟩
    obtain ⟨i, hi, hd, rfl⟩ := (mem_liveList h.toInv p).1 hp
    exact ⟨i, hi, hd, h1, h2⟩
  · rintro ⟨i, hi, hd, h1, h2⟩
    exact ⟨s.data i, (mem_liveList h.toInv _).2 ⟨i, hi, hd, rfl⟩, h1, h2⟩

/-- Counting for `replace`: ids afterwards = (ids before without the removed ones)
and a block of new ids. -/
theorem count_ids {A B R : List Int} {m n : Nat} {next : Int} (hA : A.Nodup) (hB : B.Nodup)
    (hR : R.Nodup)
    (hid : ∀ x, x ∈ A ↔ (x ∈ B ∧ x ∉ R) ∨ ∃ k : Nat, k < n ∧ x = next + k)
    (hsub : ∀ x ∈ R, x ∈ B) (hlt : ∀ x ∈ B, x < next) (hm : R.length = m) :
    A.length + m = B.length + n := by
  have h1 := filter_out_length R B hB hR hsub
  have hnew : ((List.range n).map (fun k : Nat => next + (k : Int))).Nodup := by
    apply nodup_map_of_inj _ _ List.nodup_range
    intro a _ b _ e
    have e' : next + (a : Int) = next + b := e
    omega
  have happ : (B.filter (fun i => decide (i ∉ R)) ++
      (List.range n).map (fun k : Nat => next + (k : Int))).Nodup := by
    rw [List.nodup_append]
    refine ⟨List.Pairwise.filter _ hB, hnew, ?_⟩
    intro a ha b hb e
    subst e
    have h2 := hlt a (List.mem_filter.1 ha).1
    obtain ⟨k, _, hk⟩ := List.mem_map.1 hb
    omega
  have hperm : A.Perm (B.filter (fun i => decide (i ∉ R)) ++
      (List.range n).map (fun k : Nat => next + (k : Int))) := by
    rw [List.perm_ext_iff_of_nodup hA happ]
    intro x
    rw [hid x, List.mem_append, List.mem_filter, List.mem_map]
    constructor
    · rintro (⟨h2, h3⟩ | ⟨k, hk, rfl⟩)
      · exact .inl ⟨h2, by simpa using h3⟩
      · exact .inr ⟨k, by simpa using hk, rfl⟩
    · rintro (⟨h2, h3⟩ | ⟨k, hk, rfl⟩)
      · exact .inl ⟨h2, by simpa using h3⟩
      · exact .inr ⟨k, by simpa using hk, rfl⟩
  have := hperm.length_eq
  rw [List.length_append, List.length_map, List.length_range] at this
  omega

end Verif.Particles
