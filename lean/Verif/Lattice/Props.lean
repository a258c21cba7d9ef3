import Verif.Lattice.Lemmas
import Mathlib.Tactic.FieldSimp
import Mathlib.Tactic.Positivity
/-! C18, C19, C21, C65. -/
namespace Verif.Lattice

/-! ### Specification -/

/-- The node `(ix, iy, iz)` exists. -/
def InLat {T : Type} (L : Lat T) (ix iy iz : Int) : Prop :=
  (0 ≤ ix ∧ ix < L.n.x) ∧ (0 ≤ iy ∧ iy < L.n.y) ∧ (0 ≤ iz ∧ iz < L.n.z)

/-- One step of `δ` cells from position `i` of `n`: around the torus if periodic, stopping
at the border otherwise. -/
def stepTo (periodic : Bool) (n i δ : Int) : Int :=
  if periodic then (i + δ) % n else max 0 (min (n - 1) (i + δ))

theorem wf_index {T : Type} {L : Lat T} (h : WF L) {ix iy iz : Int} (hc : InLat L ix iy iz) :
    0 ≤ index1d L ix iy iz ∧ index1d L ix iy iz < L.data.length := by
  rw [h.len]; exact index_range hc.1 hc.2.1 hc.2.2

/-! ### C18 -/

/-- **C18.** In every lattice made by the constructor the 1d index and the three coordinates
of a node determine each other, and indices are exactly the positions of the storage. -/
theorem C18_index_bijection {T : Type} {L : Lat T} (h : WF L) :
    (∀ ix iy iz, InLat L ix iy iz →
      0 ≤ index1d L ix iy iz ∧ index1d L ix iy iz < L.data.length) ∧
    (∀ i : Int, 0 ≤ i → i < L.data.length →
      ∃ c : Int × Int × Int, (InLat L c.1 c.2.1 c.2.2 ∧ index1d L c.1 c.2.1 c.2.2 = i) ∧
        ∀ c' : Int × Int × Int, InLat L c'.1 c'.2.1 c'.2.2 ∧
          index1d L c'.1 c'.2.1 c'.2.2 = i → c' = c) ∧
    (∀ ix iy iz, InLat L ix iy iz → centerOf L (index1d L ix iy iz) = center L ix iy iz) := by
  have dec (ix iy iz : Int) (hc : InLat L ix iy iz) :
      (index1d L ix iy iz).tmod L.n.x = ix ∧
      ((index1d L ix iy iz).tdiv L.n.x).tmod L.n.y = iy ∧
      ((index1d L ix iy iz).tdiv L.n.x).tdiv L.n.y = iz := by
    have hj := pair_range hc.2.1 hc.2.2
    have h1 := decode1 hc.1 hj.1
    have h2 := decode1 hc.2.1 hc.2.2.1
    unfold index1d
    rw [mul_comm iz]
    exact ⟨h1.1, by rw [h1.2]; exact h2.1, by rw [h1.2]; exact h2.2⟩
  refine ⟨fun ix iy iz hc => wf_index h hc, ?_, ?_⟩
  · intro i h0 h1
    have hx := h.nx
    have hy := h.ny
    have hz := h.nz
    rw [h.len] at h1
    have e1 : L.n.x * (i / L.n.x) + i % L.n.x = i := Int.mul_ediv_add_emod i L.n.x
    have e2 : L.n.y * (i / L.n.x / L.n.y) + i / L.n.x % L.n.y = i / L.n.x :=
      Int.mul_ediv_add_emod _ _
    have a1 := Int.emod_nonneg i (by omega : L.n.x ≠ 0)
    have a2 := Int.emod_lt_of_pos i (by omega : 0 < L.n.x)
    have b1 := Int.emod_nonneg (i / L.n.x) (by omega : L.n.y ≠ 0)
    have b2 := Int.emod_lt_of_pos (i / L.n.x) (by omega : 0 < L.n.y)
    have c1 : 0 ≤ i / L.n.x := Int.ediv_nonneg h0 (by omega)
    have c2 : 0 ≤ i / L.n.x / L.n.y := Int.ediv_nonneg c1 (by omega)
    have c3 : i / L.n.x < L.n.y * L.n.z :=
      Int.ediv_lt_of_lt_mul (by omega) (by rw [mul_comm, ← mul_assoc]; exact h1)
    have c4 : i / L.n.x / L.n.y < L.n.z :=
      Int.ediv_lt_of_lt_mul (by omega) (by rw [mul_comm]; exact c3)
    refine ⟨(i % L.n.x, i / L.n.x % L.n.y, i / L.n.x / L.n.y), ⟨⟨⟨a1, a2⟩, ⟨b1, b2⟩, ⟨c2, c4⟩⟩, ?_⟩, ?_⟩
    · unfold index1d
      rw [mul_comm (i / L.n.x / L.n.y), add_comm (i / L.n.x % L.n.y), e2]
      omega
    · rintro ⟨x, y, z⟩ ⟨hc, hi⟩
      have := dec x y z hc
      simp only at hi
      rw [hi] at this
      rw [Int.tmod_eq_emod_of_nonneg h0, Int.tdiv_eq_ediv_of_nonneg h0,
        Int.tmod_eq_emod_of_nonneg c1, Int.tdiv_eq_ediv_of_nonneg c1] at this
      rw [this.1, this.2.1, this.2.2]
  · intro ix iy iz hc
    have := dec ix iy iz hc
    unfold centerOf
    simp only
    rw [this.1, this.2.1, this.2.2]

theorem stepTo_left {per : Bool} {n i : Int} (h : 0 ≤ i ∧ i < n) :
    stepTo per n i (-1) = if i = 0 then (if per then n - 1 else i) else i - 1 := by
  unfold stepTo
  by_cases hi : i = 0
  · subst hi
    cases per
    · simp
    · simp only [if_true, zero_add]
      have e := Int.add_mul_emod_self_left (-1) n 1
      rw [← e, mul_one, Int.emod_eq_of_lt (by omega) (by omega)]; omega
  · rw [if_neg hi]
    cases per
    · simp; omega
    · simp only [if_true]; rw [Int.emod_eq_of_lt (by omega) (by omega)]; omega

theorem stepTo_right {per : Bool} {n i : Int} (h : 0 ≤ i ∧ i < n) :
    stepTo per n i 1 = if i = n - 1 then (if per then 0 else i) else i + 1 := by
  unfold stepTo
  by_cases hi : i = n - 1
  · rw [if_pos hi]
    cases per
    · simp; omega
    · simp only [if_true]
      have : i + 1 = n := by omega
      rw [this, Int.emod_self]
  · rw [if_neg hi]
    cases per
    · simp; omega
    · simp only [if_true]; rw [Int.emod_eq_of_lt (by omega) (by omega)]

theorem stepTo_range {per : Bool} {n i δ : Int} (hn : 1 ≤ n) :
    0 ≤ stepTo per n i δ ∧ stepTo per n i δ < n := by
  unfold stepTo
  cases per
  · simp only [Bool.false_eq_true, if_false]; omega
  · simp only [if_true]
    exact ⟨Int.emod_nonneg _ (by omega), Int.emod_lt_of_pos _ (by omega)⟩

/-- **C18.** The six neighbour functions return the index of the node one step away in
their direction (wrapping around if periodic, the border node itself otherwise), and that
index is inside the storage. -/
theorem C18_neighbours {T : Type} {L : Lat T} (h : WF L) {ix iy iz : Int}
    (hc : InLat L ix iy iz) :
    indexLeft L ix iy iz = index1d L (stepTo L.periodic L.n.x ix (-1)) iy iz ∧
    indexRight L ix iy iz = index1d L (stepTo L.periodic L.n.x ix 1) iy iz ∧
    indexDown L ix iy iz = index1d L ix (stepTo L.periodic L.n.y iy (-1)) iz ∧
    indexUp L ix iy iz = index1d L ix (stepTo L.periodic L.n.y iy 1) iz ∧
    indexBackward L ix iy iz = index1d L ix iy (stepTo L.periodic L.n.z iz (-1)) ∧
    indexForward L ix iy iz = index1d L ix iy (stepTo L.periodic L.n.z iz 1) ∧
    ∀ j ∈ [indexLeft L ix iy iz, indexRight L ix iy iz, indexDown L ix iy iz,
      indexUp L ix iy iz, indexBackward L ix iy iz, indexForward L ix iy iz],
      0 ≤ j ∧ j < L.data.length := by
  have e1 : indexLeft L ix iy iz = index1d L (stepTo L.periodic L.n.x ix (-1)) iy iz := by
    rw [stepTo_left hc.1]; unfold indexLeft; split_ifs <;> rfl
  have e2 : indexRight L ix iy iz = index1d L (stepTo L.periodic L.n.x ix 1) iy iz := by
    rw [stepTo_right hc.1]; unfold indexRight; split_ifs <;> rfl
  have e3 : indexDown L ix iy iz = index1d L ix (stepTo L.periodic L.n.y iy (-1)) iz := by
    rw [stepTo_left hc.2.1]; unfold indexDown; split_ifs <;> rfl
  have e4 : indexUp L ix iy iz = index1d L ix (stepTo L.periodic L.n.y iy 1) iz := by
    rw [stepTo_right hc.2.1]; unfold indexUp; split_ifs <;> rfl
  have e5 : indexBackward L ix iy iz = index1d L ix iy (stepTo L.periodic L.n.z iz (-1)) := by
    rw [stepTo_left hc.2.2]; unfold indexBackward; split_ifs <;> rfl
  have e6 : indexForward L ix iy iz = index1d L ix iy (stepTo L.periodic L.n.z iz 1) := by
    rw [stepTo_right hc.2.2]; unfold indexForward; split_ifs <;> rfl
  refine ⟨e1, e2, e3, e4, e5, e6, ?_⟩
  intro j hj
  simp only [List.mem_cons, List.not_mem_nil, or_false] at hj
  rcases hj with rfl | rfl | rfl | rfl | rfl | rfl
  · rw [e1]; exact wf_index h ⟨stepTo_range h.nx, hc.2.1, hc.2.2⟩
  · rw [e2]; exact wf_index h ⟨stepTo_range h.nx, hc.2.1, hc.2.2⟩
  · rw [e3]; exact wf_index h ⟨hc.1, stepTo_range h.ny, hc.2.2⟩
  · rw [e4]; exact wf_index h ⟨hc.1, stepTo_range h.ny, hc.2.2⟩
  · rw [e5]; exact wf_index h ⟨hc.1, hc.2.1, stepTo_range h.nz⟩
  · rw [e6]; exact wf_index h ⟨hc.1, hc.2.1, stepTo_range h.nz⟩

/-- **C18.** Opposite steps undo each other unless the first one was stopped by the border:
the left neighbour of the right neighbour is the node itself, and so on. -/
theorem C18_opposite_steps {T : Type} {L : Lat T} (h : WF L) {ix iy iz : Int}
    (hc : InLat L ix iy iz) :
    (L.periodic = true ∨ ix + 1 < L.n.x →
      indexLeft L (stepTo L.periodic L.n.x ix 1) iy iz = index1d L ix iy iz) ∧
    (L.periodic = true ∨ 0 < ix →
      indexRight L (stepTo L.periodic L.n.x ix (-1)) iy iz = index1d L ix iy iz) ∧
    (L.periodic = true ∨ iy + 1 < L.n.y →
      indexDown L ix (stepTo L.periodic L.n.y iy 1) iz = index1d L ix iy iz) ∧
    (L.periodic = true ∨ 0 < iy →
      indexUp L ix (stepTo L.periodic L.n.y iy (-1)) iz = index1d L ix iy iz) ∧
    (L.periodic = true ∨ iz + 1 < L.n.z →
      indexBackward L ix iy (stepTo L.periodic L.n.z iz 1) = index1d L ix iy iz) ∧
    (L.periodic = true ∨ 0 < iz →
      indexForward L ix iy (stepTo L.periodic L.n.z iz (-1)) = index1d L ix iy iz) := by
  have lr {per : Bool} {n i : Int} (hi : 0 ≤ i ∧ i < n) (hp : per = true ∨ i + 1 < n) :
      stepTo per n (stepTo per n i 1) (-1) = i := by
    have hr := stepTo_range (per := per) (i := i) (δ := 1) (by omega : 1 ≤ n)
    rw [stepTo_left hr, stepTo_right hi]
    split_ifs <;> first | omega | (rcases hp with hp | hp <;> simp_all; try omega)
  have rl {per : Bool} {n i : Int} (hi : 0 ≤ i ∧ i < n) (hp : per = true ∨ 0 < i) :
      stepTo per n (stepTo per n i (-1)) 1 = i := by
    have hr := stepTo_range (per := per) (i := i) (δ := -1) (by omega : 1 ≤ n)
    rw [stepTo_right hr, stepTo_left hi]
    split_ifs <;> first | omega | (rcases hp with hp | hp <;> simp_all; try omega)
  refine ⟨fun hp => ?_, fun hp => ?_, fun hp => ?_, fun hp => ?_, fun hp => ?_, fun hp => ?_⟩
  · rw [(C18_neighbours h ⟨stepTo_range h.nx, hc.2.1, hc.2.2⟩).1, lr hc.1 hp]
  · rw [(C18_neighbours h ⟨stepTo_range h.nx, hc.2.1, hc.2.2⟩).2.1, rl hc.1 hp]
  · rw [(C18_neighbours h ⟨hc.1, stepTo_range h.ny, hc.2.2⟩).2.2.1, lr hc.2.1 hp]
  · rw [(C18_neighbours h ⟨hc.1, stepTo_range h.ny, hc.2.2⟩).2.2.2.1, rl hc.2.1 hp]
  · rw [(C18_neighbours h ⟨hc.1, hc.2.1, stepTo_range h.nz⟩).2.2.2.2.1, lr hc.2.2 hp]
  · rw [(C18_neighbours h ⟨hc.1, hc.2.1, stepTo_range h.nz⟩).2.2.2.2.2.1, rl hc.2.2 hp]

/-- Non-vacuity: the constructor makes well-formed lattices, e.g. a periodic 3 x 4 x 5 one. -/
example : ∃ L : Lat ℚ, construct 0 ⟨3, 8, 5⟩ ⟨3, 4, 5⟩ ⟨0, 0, 0⟩ true = .ok L ∧ WF L ∧
    InLat L 0 3 2 ∧ index1d L 0 3 2 = 33 ∧ indexLeft L 0 3 2 = 35 := by
  have h : ∃ L : Lat ℚ, construct 0 ⟨3, 8, 5⟩ ⟨3, 4, 5⟩ ⟨0, 0, 0⟩ true = .ok L := ⟨_, rfl⟩
  obtain ⟨L, h⟩ := h
  have hw := construct_wf h
  refine ⟨L, h, hw.1, ?_, ?_, ?_⟩
  · unfold InLat; rw [hw.2.1]; decide
  · unfold index1d; rw [hw.2.1]; decide
  · unfold indexLeft index1d; rw [hw.2.1, hw.2.2.2.2.1]; decide

/-! ### C65: value_at -/

/-- The position `r` lies in cell `i` of a row of cells of size `c` starting at `o`. -/
def InCell (o c r : ℚ) (i : Int) : Prop := o + c * i ≤ r ∧ r < o + c * (i + 1)

theorem cellOf_ok {r o c : ℚ} {i : Int} (hc : 0 < c) (h : InCell o c r i)
    (hi : -2147483648 ≤ i ∧ i < 2147483648) : cellOf r o c = .ok i := by
  unfold cellOf
  have : ⌊(r - o) / c⌋ = i := by
    rw [Int.floor_eq_iff]
    refine ⟨?_, ?_⟩
    · rw [le_div_iff₀ hc]; have := h.1; linarith
    · rw [div_lt_iff₀ hc]; have := h.2; linarith
  rw [this]
  unfold castInt
  rw [if_pos (by omega)]

/-- Index bounds within which `positive_modulo` works. -/
def SafeIndex (n i : Int) : Prop := -(256 * n) ≤ i ∧ i + n * 256 < 2147483648

/-- **C65.** `value_at(r)` of a non-periodic lattice: true and the value of the cell that
contains `r`, or false and the default value if there is none. -/
theorem C65_value_at {T : Type} (d : T) {L : Lat T} (h : WF L) (hper : L.periodic = false)
    (hcx : 0 < L.cell.x) (hcy : 0 < L.cell.y) (hcz : 0 < L.cell.z) {r : V3 ℚ} {ix iy iz : Int}
    (hx : InCell L.origin.x L.cell.x r.x ix) (hy : InCell L.origin.y L.cell.y r.y iy)
    (hz : InCell L.origin.z L.cell.z r.z iz)
    (bx : -2147483648 ≤ ix ∧ ix < 2147483648) (bY : -2147483648 ≤ iy ∧ iy < 2147483648)
    (bz : -2147483648 ≤ iz ∧ iz < 2147483648) :
    (InLat L ix iy iz → ∃ v, L.data[(index1d L ix iy iz).toNat]? = some v ∧
      valueAt d L r = .ok (true, v)) ∧
    (¬ InLat L ix iy iz → valueAt d L r = .ok (false, d)) := by
  have e : valueAt d L r = if outOfBounds L ix iy iz then .ok (false, d) else do
      let v ← node L ix iy iz
      return (true, v) := by
    unfold valueAt
    rw [cellOf_ok hcx hx bx, ok_bind, cellOf_ok hcy hy bY, ok_bind, cellOf_ok hcz hz bz, ok_bind]
    rfl
  have ho : outOfBounds L ix iy iz = true ↔ ¬ InLat L ix iy iz := by
    unfold outOfBounds InLat
    simp only [hper, Bool.not_false, Bool.true_and, Bool.or_eq_true, decide_eq_true_eq]
    omega
  refine ⟨fun hin => ?_, fun hin => ?_⟩
  · rw [e, if_neg (by rw [ho]; simpa using hin)]
    obtain ⟨v, hv, hd⟩ := get_ok (wf_index h hin)
    refine ⟨v, hd, ?_⟩
    have : node L ix iy iz = .ok v := by
      unfold node
      rw [hper]
      simp only [Bool.false_eq_true, if_false]
      rw [← hv]; unfold index1d; rw [mul_comm iz]
    rw [this]; rfl
  · rw [e, if_pos (ho.2 hin)]

/-- **C65**, periodic lattices: the value of the cell containing `r` up to whole periods,
for points not more than 256 periods away. Missing: points further on the negative side,
see `C65_far_point`. -/
theorem C65_value_at_periodic_partial {T : Type} (d : T) {L : Lat T} (h : WF L)
    (hper : L.periodic = true) (hcx : 0 < L.cell.x) (hcy : 0 < L.cell.y) (hcz : 0 < L.cell.z)
    {r : V3 ℚ} {ix iy iz : Int}
    (hx : InCell L.origin.x L.cell.x r.x ix) (hy : InCell L.origin.y L.cell.y r.y iy)
    (hz : InCell L.origin.z L.cell.z r.z iz)
    (nx : L.n.x * 256 < 2147483648) (ny : L.n.y * 256 < 2147483648)
    (nz : L.n.z * 256 < 2147483648)
    (bx : SafeIndex L.n.x ix) (bY : SafeIndex L.n.y iy) (bz : SafeIndex L.n.z iz) :
    ∃ v, L.data[(index1d L (ix % L.n.x) (iy % L.n.y) (iz % L.n.z)).toNat]? = some v ∧
      valueAt d L r = .ok (true, v) := by
  have hn := h.nx
  have hn2 := h.ny
  have hn3 := h.nz
  have e : valueAt d L r = do
      let v ← node L ix iy iz
      return (true, v) := by
    unfold valueAt
    rw [cellOf_ok hcx hx (by unfold SafeIndex at bx; omega), ok_bind,
      cellOf_ok hcy hy (by unfold SafeIndex at bY; omega), ok_bind,
      cellOf_ok hcz hz (by unfold SafeIndex at bz; omega), ok_bind]
    have : outOfBounds L ix iy iz = false := by unfold outOfBounds; simp [hper]
    rw [this]; rfl
  have hin : InLat L (ix % L.n.x) (iy % L.n.y) (iz % L.n.z) :=
    ⟨⟨Int.emod_nonneg _ (by omega), Int.emod_lt_of_pos _ (by omega)⟩,
      ⟨Int.emod_nonneg _ (by omega), Int.emod_lt_of_pos _ (by omega)⟩,
      ⟨Int.emod_nonneg _ (by omega), Int.emod_lt_of_pos _ (by omega)⟩⟩
  obtain ⟨v, hv, hd⟩ := get_ok (wf_index h hin)
  refine ⟨v, hd, ?_⟩
  have : node L ix iy iz = .ok v := by
    unfold node
    rw [hper]
    simp only [if_true]
    rw [positiveModulo_ok hn nx bx.1 bx.2, ok_bind, positiveModulo_ok hn2 ny bY.1 bY.2, ok_bind,
      positiveModulo_ok hn3 nz bz.1 bz.2, ok_bind, ← hv]
    unfold index1d; rw [mul_comm (iz % L.n.z)]
  rw [e, this]; rfl

/-- A point 257 periods to the left of a periodic lattice is read outside the storage. -/
theorem C65_far_point :
    ∃ L : Lat ℚ, construct 0 ⟨2, 2, 2⟩ ⟨2, 2, 2⟩ ⟨0, 0, 0⟩ true = .ok L ∧
      InCell 0 1 (-513) (-513) ∧ valueAt 0 L ⟨-513, 0, 0⟩ = .error .outOfBounds := by
  refine ⟨_, rfl, by unfold InCell; norm_num, ?_⟩
  decide +kernel

/-- Non-vacuity: a concrete lookup. -/
example : ∃ L : Lat ℚ, construct 7 ⟨2, 2, 2⟩ ⟨2, 2, 2⟩ ⟨0, 0, 0⟩ true = .ok L ∧
      valueAt 0 L ⟨-1 / 2, 3, 1 / 3⟩ = .ok (true, 7) := by
  refine ⟨_, rfl, ?_⟩
  decide +kernel

end Verif.Lattice
