import Verif.Lattice.Model
import Mathlib.Data.List.Nodup
import Mathlib.Tactic.Ring
import Mathlib.Tactic.Linarith
/-! Index arithmetic. -/
namespace Verif.Lattice

theorem ok_bind {α β : Type} (a : α) (f : α → Except Err β) : (Except.ok a >>= f) = f a := rfl

theorem i32_ok {x : Int} (h : -2147483648 ≤ x ∧ x < 2147483648) : i32 x = .ok x := by
  unfold i32; rw [if_pos (by omega)]

theorem i32_inv {x y : Int} (h : i32 x = .ok y) : y = x ∧ -2147483648 ≤ x ∧ x < 2147483648 := by
  unfold i32 at h
  split_ifs at h
  have := Except.ok.inj h
  omega

theorem castInt_inv {x y : Int} (h : castInt x = .ok y) :
    y = x ∧ -2147483648 ≤ x ∧ x < 2147483648 := by
  unfold castInt at h
  split_ifs at h
  have := Except.ok.inj h
  omega

/-- What the constructor establishes. -/
structure WF {T : Type} (L : Lat T) : Prop where
  nx : 1 ≤ L.n.x
  ny : 1 ≤ L.n.y
  nz : 1 ≤ L.n.z
  len : (L.data.length : Int) = L.n.x * L.n.y * L.n.z
  fits : L.n.x * L.n.y * L.n.z < 2147483648
  cell : L.cell = cells L.sizes L.n

theorem construct_wf {T : Type} {d : T} {l : V3 ℚ} {n : V3 Int} {o : V3 ℚ} {per : Bool} {L : Lat T}
    (h : construct d l n o per = .ok L) :
    WF L ∧ L.n = n ∧ L.sizes = l ∧ L.origin = o ∧ L.periodic = per ∧
      0 ≤ l.x ∧ 0 ≤ l.y ∧ 0 ≤ l.z := by
  unfold construct at h
  cases h1 : i32 (n.x * n.y) with
  | error e => rw [h1] at h; cases h
  | ok p =>
    rw [h1, ok_bind] at h
    obtain ⟨rfl, _, _⟩ := i32_inv h1
    cases h2 : i32 (n.x * n.y * n.z) with
    | error e => rw [h2] at h; cases h
    | ok q =>
      rw [h2, ok_bind] at h
      obtain ⟨rfl, _, h3⟩ := i32_inv h2
      split_ifs at h with g1 g2
      have := Except.ok.inj h
      subst this
      refine ⟨⟨?_, ?_, ?_, ?_, h3, rfl⟩, rfl, rfl, rfl, rfl, ?_, ?_, ?_⟩
      · simp only; omega
      · simp only; omega
      · simp only; omega
      · simp only [List.length_replicate]; omega
      · by_contra hh; exact g2 (by push Not at hh; tauto)
      · by_contra hh; exact g2 (by push Not at hh; tauto)
      · by_contra hh; exact g2 (by push Not at hh; tauto)

theorem pair_range {i n j m : Int} (hi : 0 ≤ i ∧ i < n) (hj : 0 ≤ j ∧ j < m) :
    0 ≤ i + n * j ∧ i + n * j < n * m := by
  constructor
  · have := Int.mul_nonneg (by omega : (0 : Int) ≤ n) hj.1; omega
  · have h : n * j ≤ n * (m - 1) := Int.mul_le_mul_of_nonneg_left (by omega) (by omega)
    have e : n * (m - 1) = n * m - n := by ring
    omega

theorem index_range {nx ny nz ix iy iz : Int} (hx : 0 ≤ ix ∧ ix < nx) (hy : 0 ≤ iy ∧ iy < ny)
    (hz : 0 ≤ iz ∧ iz < nz) :
    0 ≤ ix + nx * (iy + iz * ny) ∧ ix + nx * (iy + iz * ny) < nx * ny * nz := by
  have h1 := pair_range hy hz
  rw [mul_comm ny iz] at h1
  have h2 := pair_range hx h1
  rw [mul_assoc]; exact h2

theorem decode1 {i n j : Int} (hi : 0 ≤ i ∧ i < n) (hj : 0 ≤ j) :
    (i + n * j).tmod n = i ∧ (i + n * j).tdiv n = j := by
  have hn : 0 ≤ n * j := Int.mul_nonneg (by omega) hj
  have h0 : 0 ≤ i + n * j := by omega
  refine ⟨?_, ?_⟩
  · rw [Int.tmod_eq_emod_of_nonneg h0, Int.add_mul_emod_self_left, Int.emod_eq_of_lt hi.1 hi.2]
  · rw [Int.tdiv_eq_ediv_of_nonneg h0, Int.add_mul_ediv_left _ _ (by omega),
      Int.ediv_eq_zero_of_lt hi.1 hi.2, zero_add]

theorem positiveModulo_ok {i n : Int} (hn : 1 ≤ n) (h1 : n * 256 < 2147483648)
    (h2 : -(256 * n) ≤ i) (h3 : i + n * 256 < 2147483648) :
    positiveModulo i n = .ok (i % n) := by
  unfold positiveModulo
  rw [i32_ok (by omega), ok_bind, i32_ok (by omega), ok_bind]
  have h0 : 0 ≤ i + n * 256 := by omega
  rw [Int.tmod_eq_emod_of_nonneg h0, Int.add_mul_emod_self_left]
  rfl

theorem get_ok {T : Type} {L : Lat T} {i : Int} (h : 0 ≤ i ∧ i < L.data.length) :
    ∃ v, L.get i = .ok v ∧ L.data[i.toNat]? = some v := by
  unfold Lat.get
  rw [if_neg (by omega)]
  have hlt : i.toNat < L.data.length := by omega
  refine ⟨L.data[i.toNat], ?_, List.getElem?_eq_getElem hlt⟩
  rw [List.getElem?_eq_getElem hlt]

theorem mem_loop {lo hi i : Int} : i ∈ loop lo hi ↔ lo ≤ i ∧ i < hi := by
  unfold loop
  simp only [List.mem_map, List.mem_range]
  constructor
  · rintro ⟨k, hk, rfl⟩; omega
  · intro h; exact ⟨(i - lo).toNat, by omega, by omega⟩

theorem loop_nodup (lo hi : Int) : (loop lo hi).Nodup := by
  unfold loop
  refine List.Nodup.map ?_ List.nodup_range
  intro a b h
  simpa using h

/-- `mapM` of a function that succeeds on every element. -/
theorem mapM_ok {α β : Type} {l : List α} {f : α → Except Err β} {g : α → β}
    (h : ∀ a ∈ l, f a = .ok (g a)) : l.mapM f = .ok (l.map g) := by
  induction l with
  | nil => rfl
  | cons a l ih =>
    rw [List.mapM_cons, h a (by simp), ok_bind, ih (fun b hb => h b (by simp [hb])), ok_bind]
    rfl

end Verif.Lattice
