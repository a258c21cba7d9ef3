import Mathlib.MeasureTheory.Measure.Lebesgue.Basic
import Mathlib.Tactic.Linarith
import Mathlib.Tactic.Ring
import Verif.Cell.Rest
import Verif.Lattice.Props
import Verif.Kin.Props
/-
C166: which particles are removed from which cells, and the choice of cells, positions and momenta for the new ones.
-/
namespace Verif.Cell

open Kin (V3 V4)
open Lattice (Lat WF InLat InCell index1d valueAt SafeIndex)

/-! ### The thermalised region -/

/-- Specification: the point lies in a cell whose energy density exceeds the critical one. -/
def Hot (L : Lat Node) (ecrit : ℝ) (r : Lattice.V3 ℚ) : Prop :=
  ∃ ix iy iz n, InLat L ix iy iz ∧ InCell L.origin.x L.cell.x r.x ix ∧ InCell L.origin.y L.cell.y r.y iy ∧
    InCell L.origin.z L.cell.z r.z iz ∧ L.data[(index1d L ix iy iz).toNat]? = some n ∧ n.e > ecrit

/-- The lattice is one that the constructor makes, with cells of positive size. -/
structure Fine (L : Lat Node) : Prop where
  wf : WF L
  cx : 0 < L.cell.x
  cy : 0 < L.cell.y
  cz : 0 < L.cell.z
  period : L.periodic = true → L.n.x * 257 < 2147483648 ∧ L.n.y * 257 < 2147483648 ∧ L.n.z * 257 < 2147483648

/-- A position not too far away, and within the lattice if that is periodic. -/
def Reachable (L : Lat Node) (r : Lattice.V3 ℚ) : Prop :=
  ∃ ix iy iz, InCell L.origin.x L.cell.x r.x ix ∧ InCell L.origin.y L.cell.y r.y iy ∧
    InCell L.origin.z L.cell.z r.z iz ∧ (-2147483648 ≤ ix ∧ ix < 2147483648) ∧
    (-2147483648 ≤ iy ∧ iy < 2147483648) ∧ (-2147483648 ≤ iz ∧ iz < 2147483648) ∧
    (L.periodic = true → InLat L ix iy iz)

theorem inCell_unique {o c r : ℚ} {i j : ℤ} (hc : 0 < c) (hi : InCell o c r i) (hj : InCell o c r j) : i = j := by
  have h1 : c * i < c * (j + 1) := by have := hi.1; have := hj.2; linarith
  have h2 : c * j < c * (i + 1) := by have := hj.1; have := hi.2; linarith
  have h3 := lt_of_mul_lt_mul_left h1 hc.le
  have h4 := lt_of_mul_lt_mul_left h2 hc.le
  have h5 : i < j + 1 := by exact_mod_cast h3
  have h6 : j < i + 1 := by exact_mod_cast h4
  omega

/-- The value found at a point of the lattice is the one of the cell, periodic or not. -/
theorem value_in {L : Lat Node} (hL : Fine L) {r : Lattice.V3 ℚ} {ix iy iz : ℤ} (hin : InLat L ix iy iz)
    (hx : InCell L.origin.x L.cell.x r.x ix) (hy : InCell L.origin.y L.cell.y r.y iy)
    (hz : InCell L.origin.z L.cell.z r.z iz) :
    ∃ v, L.data[(index1d L ix iy iz).toNat]? = some v ∧ valueAt Node.empty L r = .ok (true, v) := by
  have hw := hL.wf
  obtain ⟨⟨x0, x1⟩, ⟨y0, y1⟩, z0, z1⟩ := hin
  by_cases hp : L.periodic = true
  · obtain ⟨p1, p2, p3⟩ := hL.period hp
    have h1 := hw.nx; have h2 := hw.ny; have h3 := hw.nz
    obtain ⟨v, hv, hv2⟩ := Lattice.C65_value_at_periodic_partial Node.empty hw hp hL.cx hL.cy hL.cz hx hy hz
      (by omega) (by omega) (by omega) (by unfold SafeIndex; omega) (by unfold SafeIndex; omega)
      (by unfold SafeIndex; omega)
    rw [Int.emod_eq_of_lt x0 x1, Int.emod_eq_of_lt y0 y1, Int.emod_eq_of_lt z0 z1] at hv
    exact ⟨v, hv, hv2⟩
  · have hf := hw.fits
    have h1 := hw.nx; have h2 := hw.ny; have h3 := hw.nz
    have hxy : L.n.x ≤ L.n.x * L.n.y * L.n.z := by
      have := mul_le_mul h2 h3 (by norm_num) (by omega : (0 : ℤ) ≤ L.n.y)
      nlinarith
    have hyz : L.n.y ≤ L.n.x * L.n.y * L.n.z := by
      have : 1 ≤ L.n.x * L.n.z := by nlinarith
      nlinarith
    have hzz : L.n.z ≤ L.n.x * L.n.y * L.n.z := by
      have : 1 ≤ L.n.x * L.n.y := by nlinarith
      nlinarith
    exact (Lattice.C65_value_at Node.empty hw (by simpa using hp) hL.cx hL.cy hL.cz hx hy hz (by omega) (by omega)
      (by omega)).1 ⟨⟨x0, x1⟩, ⟨y0, y1⟩, z0, z1⟩

open Classical in
theorem inRegion_ok {α : Type} {L : Lat Node} (hL : Fine L) (ecrit : ℝ) (x : Mem α) (hx : Reachable L x.pos) :
    inRegion L ecrit x = .ok (decide (Hot L ecrit x.pos)) := by
  obtain ⟨ix, iy, iz, h1, h2, h3, b1, b2, b3, hper⟩ := hx
  have huni (n : Node) (hv : L.data[(index1d L ix iy iz).toNat]? = some n) (hin : InLat L ix iy iz) :
      Hot L ecrit x.pos ↔ n.e > ecrit := by
    constructor
    · rintro ⟨jx, jy, jz, m, -, g1, g2, g3, g4, g5⟩
      rw [inCell_unique hL.cx g1 h1, inCell_unique hL.cy g2 h2, inCell_unique hL.cz g3 h3, hv] at g4
      rw [Option.some.inj g4]; exact g5
    · intro h; exact ⟨ix, iy, iz, n, hin, h1, h2, h3, hv, h⟩
  by_cases hin : InLat L ix iy iz
  · obtain ⟨v, hv, hv2⟩ := value_in hL hin h1 h2 h3
    unfold inRegion
    rw [hv2]
    simp only [Lattice.ok_bind, Bool.true_and, pure, Except.pure]
    congr 1
    rw [decide_eq_decide]
    exact (huni v hv hin).symm
  · have hp : L.periodic = false := by
      cases hb : L.periodic
      · rfl
      · exact absurd (hper hb) hin
    have := (Lattice.C65_value_at Node.empty hL.wf hp hL.cx hL.cy hL.cz h1 h2 h3 b1 b2 b3).2 hin
    unfold inRegion
    rw [this]
    simp only [Lattice.ok_bind, Bool.false_and, pure, Except.pure]
    congr 1
    symm
    rw [decide_eq_false_iff_not]
    rintro ⟨jx, jy, jz, m, g0, g1, g2, g3, -⟩
    rw [inCell_unique hL.cx g1 h1, inCell_unique hL.cy g2 h2, inCell_unique hL.cz g3 h3] at g0
    exact hin g0

open Classical in
theorem collect_ok {α : Type} {L : Lat Node} (hL : Fine L) (ecrit : ℝ) : ∀ (xs : List (Mem α)),
    (∀ x ∈ xs, Reachable L x.pos) → collect L ecrit xs = .ok (xs.filter fun x => Hot L ecrit x.pos)
  | [], _ => rfl
  | x :: xs, h => by
    unfold collect
    rw [inRegion_ok hL ecrit x (h x (by simp)), Lattice.ok_bind, collect_ok hL ecrit xs (fun y hy => h y (by simp [hy])),
      Lattice.ok_bind]
    by_cases hx : Hot L ecrit x.pos <;> simp [hx, pure, Except.pure]

open Classical in
/-- **C166.** The particles removed are exactly those in cells above the critical energy density, all of them if there
are more than 30, otherwise none. -/
theorem C166_removed {α : Type} {L : Lat Node} (hL : Fine L) (ecrit : ℝ) (xs : List (Mem α))
    (hx : ∀ x ∈ xs, Reachable L x.pos) :
    toRemove L ecrit xs = .ok (if 30 < (xs.filter fun x => Hot L ecrit x.pos).length
      then xs.filter fun x => Hot L ecrit x.pos else []) := by
  unfold toRemove
  rw [collect_ok hL ecrit xs hx, Lattice.ok_bind]
  rfl

/-- **C166.** New particles can be put exactly into the cells above the critical energy density, each cell being listed
once. -/
theorem C166_cells (L : Lat Node) (ecrit : ℝ) : (cellsToSample L ecrit).Nodup ∧
    ∀ i, i ∈ cellsToSample L ecrit ↔ ∃ n, L.data[i]? = some n ∧ n.e > ecrit := by
  refine ⟨List.nodup_range.filter _, fun i => ?_⟩
  unfold cellsToSample
  rw [List.mem_filter, List.mem_range]
  constructor
  · rintro ⟨h1, h2⟩
    rw [List.getElem?_eq_getElem h1] at h2 ⊢
    exact ⟨_, rfl, by simpa using h2⟩
  · rintro ⟨n, h1, h2⟩
    obtain ⟨h3, -⟩ := List.getElem?_eq_some_iff.1 h1
    exact ⟨h3, by rw [h1]; simpa using h2⟩

/-- **C166.** If particles are removed there is a cell for the new ones. -/
theorem C166_cells_exist {α : Type} {L : Lat Node} (hL : Fine L) (ecrit : ℝ) (xs r : List (Mem α))
    (hx : ∀ x ∈ xs, Reachable L x.pos) (hr : toRemove L ecrit xs = .ok r) (hne : r ≠ []) :
    cellsToSample L ecrit ≠ [] := by
  rw [C166_removed hL ecrit xs hx] at hr
  have hr := (Except.ok.inj hr).symm
  subst hr
  split_ifs at hne with h
  · obtain ⟨x, hx2⟩ := List.exists_mem_of_ne_nil _ hne
    have hh := (List.mem_filter.1 hx2).2
    simp only [decide_eq_true_eq] at hh
    obtain ⟨ix, iy, iz, n, -, -, -, -, h4, h5⟩ := hh
    have := ((C166_cells L ecrit).2 _).2 ⟨n, h4, h5⟩
    intro h0
    rw [h0] at this
    cases this
  · exact absurd rfl hne

/-! ### The choice of a cell -/

theorem walk_iff (r : ℝ) : ∀ (xs : List ℝ) (s : ℝ) (i j : ℤ), walk r xs s i = some j ↔
    ∃ k : ℕ, k ≤ xs.length ∧ j = i + k ∧ r ≤ s + (xs.take k).sum ∧ ∀ m < k, s + (xs.take m).sum < r
  | [], s, i, j => by
    unfold walk
    by_cases h : s < r
    · rw [if_pos h]
      constructor
      · intro h'; cases h'
      · rintro ⟨k, hk, -, h2, -⟩
        have : k = 0 := by simpa using hk
        subst this
        simp at h2
        linarith
    · rw [if_neg h]
      constructor
      · intro h'
        exact ⟨0, by simp, by rw [Option.some.inj h']; simp, by simpa using h, by simp⟩
      · rintro ⟨k, hk, h1, -, -⟩
        have : k = 0 := by simpa using hk
        subst this
        simp [h1]
  | x :: xs, s, i, j => by
    unfold walk
    by_cases h : s < r
    · rw [if_pos h, walk_iff r xs (s + x) (i + 1) j]
      constructor
      · rintro ⟨k, hk, h1, h2, h3⟩
        refine ⟨k + 1, by simpa using hk, by rw [h1]; push_cast; ring, by simpa [add_assoc] using h2, ?_⟩
        intro m hm
        rcases m with _ | m
        · simpa using h
        · have := h3 m (by omega)
          simpa [add_assoc] using this
      · rintro ⟨k, hk, h1, h2, h3⟩
        rcases k with _ | k
        · simp at h2; linarith
        · refine ⟨k, by simpa using hk, by rw [h1]; push_cast; ring, by simpa [add_assoc] using h2, ?_⟩
          intro m hm
          have := h3 (m + 1) (by omega)
          simpa [add_assoc] using this
    · rw [if_neg h]
      constructor
      · intro h'
        exact ⟨0, by simp, by rw [Option.some.inj h']; simp, by simpa using h, by simp⟩
      · rintro ⟨k, hk, h1, h2, h3⟩
        rcases k with _ | k
        · simp [h1]
        · have := h3 0 (by omega)
          simp at this
          linarith

theorem sum_take_mono (xs : List ℝ) (h : ∀ x ∈ xs, 0 ≤ x) {a b : ℕ} (hab : a ≤ b) :
    (xs.take a).sum ≤ (xs.take b).sum := by
  induction xs generalizing a b with
  | nil => simp
  | cons x xs ih =>
    rcases b with _ | b
    · simp [Nat.le_zero.1 hab]
    · rcases a with _ | a
      · simp only [List.take_zero, List.sum_nil]
        exact List.sum_nonneg fun y hy => h y (List.mem_of_mem_take hy)
      · simp only [List.take_succ_cons, List.sum_cons]
        have := ih (fun y hy => h y (by simp [hy])) (by omega : a ≤ b)
        linarith

/-- **C166.** Which cell is chosen: cell `i` exactly if the number drawn is above the sum of the particle numbers of the
cells before and not above this sum plus its own number. -/
theorem C166_choice (ns : List ℝ) (h : ∀ x ∈ ns, 0 ≤ x) (r : ℝ) (i : ℕ) : choose ns r = some i ↔
    i < ns.length ∧ (ns.take i).sum < r ∧ r ≤ (ns.take (i + 1)).sum := by
  have h1 : choose ns r = some i ↔ walk r ns 0 (-1) = some (i : ℤ) := by
    unfold choose
    rw [Option.bind_eq_some_iff]
    constructor
    · rintro ⟨j, hj, h2⟩
      split_ifs at h2 with h3
      have := Option.some.inj h2
      rw [hj, ← this, Int.toNat_of_nonneg h3]
    · intro h2
      exact ⟨i, h2, by simp⟩
  rw [h1, walk_iff]
  constructor
  · rintro ⟨k, hk, h2, h3, h4⟩
    have : k = i + 1 := by omega
    subst this
    refine ⟨by omega, by simpa using h4 i (by omega), by simpa using h3⟩
  · rintro ⟨h2, h3, h4⟩
    refine ⟨i + 1, by omega, by push_cast; ring, by simpa using h4, fun m hm => ?_⟩
    rw [zero_add]
    exact lt_of_le_of_lt (sum_take_mono ns h (by omega)) h3

theorem totalN_eq (ns : List ℝ) : totalN ns = ns.sum := by
  unfold totalN
  rw [List.sum_eq_foldl]

/-- **C166.** For every number drawn above 0 a cell is chosen. -/
theorem C166_chosen (ns : List ℝ) (h : ∀ x ∈ ns, 0 ≤ x) (r : ℝ) (h0 : 0 < r) (h1 : r ≤ ns.sum) :
    ∃ i, choose ns r = some i := by
  have : ∃ k, r ≤ (ns.take k).sum := ⟨ns.length, by simpa using h1⟩
  classical
  obtain ⟨k, hk, hmin⟩ : ∃ k, r ≤ (ns.take k).sum ∧ ∀ m < k, (ns.take m).sum < r :=
    ⟨Nat.find this, Nat.find_spec this, fun m hm => not_le.1 (Nat.find_min this hm)⟩
  rcases k with _ | k
  · simp at hk; linarith
  · refine ⟨k, (C166_choice ns h r k).2 ⟨?_, hmin k (by omega), hk⟩⟩
    by_contra hc
    have h2 := hmin k (by omega)
    rw [List.take_of_length_le (by omega)] at h2 hk
    linarith

/-- **C166.** A cell is chosen with a probability proportional to its particle number: of the numbers from 0 to the total,
a set of the measure of this number leads to the cell. -/
theorem C166_probability (ns : List ℝ) (h : ∀ x ∈ ns, 0 ≤ x) (i : ℕ) (hi : i < ns.length) :
    MeasureTheory.volume {r : ℝ | 0 ≤ r ∧ r ≤ totalN ns ∧ choose ns r = some i} = ENNReal.ofReal ns[i] := by
  have h1 : {r : ℝ | 0 ≤ r ∧ r ≤ totalN ns ∧ choose ns r = some i} = Set.Ioc (ns.take i).sum (ns.take (i + 1)).sum := by
    ext r
    simp only [Set.mem_setOf_eq, Set.mem_Ioc, C166_choice ns h, totalN_eq]
    constructor
    · rintro ⟨-, -, -, h2⟩; exact h2
    · rintro ⟨h2, h3⟩
      have h4 : 0 ≤ (ns.take i).sum := List.sum_nonneg fun y hy => h y (List.mem_of_mem_take hy)
      have h5 := sum_take_mono ns h (by omega : i + 1 ≤ ns.length)
      rw [List.take_length] at h5
      exact ⟨by linarith, by linarith, hi, h2, h3⟩
  rw [h1, Real.volume_Ioc, List.sum_take_succ _ _ hi]
  congr 1
  ring

/-- Violation of **C166**: if the number drawn is 0 (which the generator can give, and always does if the particle numbers of
all cells are 0), the element with the index -1 is read. -/
theorem C166_zero_false (ns : List ℝ) : choose ns 0 = none := by
  unfold choose
  rcases ns with _ | ⟨x, xs⟩ <;> simp [walk]

/-! ### The expected numbers -/

/-- Specification: the mean number of particles of a species in a cell of volume `vol` (in the computational frame) of matter
with rest frame density `dens` of its thermal state that moves with velocity `v`. -/
noncomputable def mean (vol : ℝ) (dens : ℝ → ℝ → ℝ → ℝ → ℝ) (c : Node) : ℝ :=
  vol * dens c.st.T c.st.mub c.st.mus c.st.muq / Real.sqrt (1 - (c.v.x ^ 2 + c.v.y ^ 2 + c.v.z ^ 2))

theorem numberBF_eq (vol : ℝ) (dens : ℝ → ℝ → ℝ → ℝ → ℝ) (c : Node) : numberBF vol dens c = mean vol dens c := by
  unfold numberBF mean
  rw [sqr_eq]; ring

theorem foldl_add {α : Type} (f : α → ℝ) (cs : List α) (a : ℝ) :
    cs.foldl (fun s c => s + f c) a = a + (cs.map f).sum := by
  induction cs generalizing a with
  | nil => simp
  | cons c cs ih => rw [List.foldl_cons, ih, List.map_cons, List.sum_cons]; ring

/-- **C166.** The Becattini-Ferroni algorithm uses in each cell the mean number of the moving matter, and its expected
number of a species is the sum over the cells times the number of test particles. -/
theorem C166_numbers (vol : ℝ) (ntest : ℕ) (dens : ℝ → ℝ → ℝ → ℝ → ℝ) (cs : List Node) :
    (∀ c, numberBF vol dens c = mean vol dens c) ∧
    expected vol ntest dens cs = ntest * (cs.map (mean vol dens)).sum := by
  refine ⟨numberBF_eq vol dens, ?_⟩
  unfold expected
  rw [foldl_add, zero_add, ← List.sum_map_mul_left]
  congr 1
  refine List.map_congr_left fun c _ => ?_
  rw [← numberBF_eq]; unfold numberBF; ring

/-- **C166.** The mode algorithm uses the total mean number of the species of the mode in cells whose chemical potential of the
charge is 0.  Missing: other cells, see `C166_mode_false`. -/
theorem C166_mode_partial (vol : ℝ) (types : List (ℝ → ℝ → ℝ → ℝ → ℝ)) (c : Node) (h : c.st.muq = 0) :
    numberMode vol types c = (types.map fun d => mean vol d c).sum := by
  unfold numberMode
  rw [foldl_add (fun d : ℝ → ℝ → ℝ → ℝ → ℝ => vol * (1 / Real.sqrt (1 - c.v.sqr)) * d c.st.T c.st.mub c.st.mus 0), zero_add]
  congr 1
  refine List.map_congr_left fun d _ => ?_
  unfold mean
  rw [sqr_eq, h]; ring

/-- Violation of **C166**: the mode algorithm ignores the chemical potential of the charge that was found for the cell. -/
theorem C166_mode_false : ∃ (types : List (ℝ → ℝ → ℝ → ℝ → ℝ)) (c : Node),
    numberMode 1 types c = 1 ∧ (types.map fun d => mean 1 d c).sum = 2 := by
  refine ⟨[fun _ _ _ q => 1 + q], { Node.empty with st := ⟨0, 0, 0, 0, 1⟩ }, ?_, ?_⟩
  · simp [numberMode, Node.empty, V3.sqr, V3.dot]
  · simp [mean, Node.empty]; norm_num

/-! ### Position and momentum -/

/-- **C166.** A new particle lies in the cell that was chosen for it: looking up its position gives the values of this cell. -/
theorem C166_position {L : Lat Node} (hL : Fine L) (i : ℕ) (hi : i < L.data.length) (u : Lattice.V3 ℚ)
    (hx : -(L.cell.x / 2) ≤ u.x ∧ u.x < L.cell.x / 2) (hy : -(L.cell.y / 2) ≤ u.y ∧ u.y < L.cell.y / 2)
    (hz : -(L.cell.z / 2) ≤ u.z ∧ u.z < L.cell.z / 2) :
    valueAt Node.empty L (place L i u) = .ok (true, L.data[i]) := by
  obtain ⟨-, h2, h3⟩ := Lattice.C18_index_bijection hL.wf
  obtain ⟨⟨ix, iy, iz⟩, ⟨hin, hidx⟩, -⟩ := h2 i (by omega) (by omega)
  dsimp only at hin hidx
  have hc := h3 ix iy iz hin
  rw [hidx] at hc
  have inC (o c w : ℚ) (j : ℤ) (hw : -(c / 2) ≤ w ∧ w < c / 2) : InCell o c (o + c * (j + 1 / 2) + w) j := by
    constructor
    · linarith [hw.1]
    · linarith [hw.2]
  obtain ⟨v, hv, hv2⟩ := value_in (r := place L i u) hL hin
    (by simp only [place, hc, Lattice.center]; exact inC _ _ _ _ hx)
    (by simp only [place, hc, Lattice.center]; exact inC _ _ _ _ hy)
    (by simp only [place, hc, Lattice.center]; exact inC _ _ _ _ hz)
  rw [hv2]
  rw [hidx, Int.toNat_natCast, List.getElem?_eq_getElem hi] at hv
  rw [Option.some.inj hv]

/-- **C166.** The momentum of a new particle is on its mass shell, and seen from the rest frame of the cell it is the sampled
one. -/
theorem C166_momentum (m : ℝ) (q : V3) (c : Node) (hc : c.v.x ^ 2 + c.v.y ^ 2 + c.v.z ^ 2 < 1) :
    Kin.minkowski (momentum m q c) (momentum m q c) = m ^ 2 ∧
    Kin.boost (momentum m q c) c.v = ⟨Real.sqrt (m ^ 2 + (q.x ^ 2 + q.y ^ 2 + q.z ^ 2)), q.x, q.y, q.z⟩ := by
  have hs : Kin.Subluminal c.v.neg := by
    unfold Kin.Subluminal
    simp only [V3.neg]
    nlinarith
  have hnn : c.v.neg.neg = c.v := by simp [V3.neg]
  have hq : m * m + q.dot q = m ^ 2 + (q.x ^ 2 + q.y ^ 2 + q.z ^ 2) := by simp only [V3.dot]; ring
  constructor
  · unfold momentum
    rw [Kin.C29_isometry _ _ _ hs, hq]
    simp only [Kin.minkowski, V4.mk']
    rw [Real.mul_self_sqrt (by positivity)]
    ring
  · have := Kin.C29_inverse (V4.mk' (Real.sqrt (m * m + q.dot q)) q) c.v.neg hs
    rw [hnn] at this
    unfold momentum
    rw [this, hq]
    rfl

/-- **C166.** A particle at rest in its cell moves with the velocity of the cell. -/
theorem C166_flow (m : ℝ) (hm : 0 < m) (c : Node) (hc : c.v.x ^ 2 + c.v.y ^ 2 + c.v.z ^ 2 < 1) :
    (momentum m ⟨0, 0, 0⟩ c).velocity = c.v := by
  have hs : Kin.Subluminal c.v.neg := by
    unfold Kin.Subluminal
    simp only [V3.neg]
    nlinarith
  have h0 : Real.sqrt (m * m + (V3.mk 0 0 0).dot ⟨0, 0, 0⟩) = m := by
    simp only [V3.dot, mul_zero, add_zero]
    exact Real.sqrt_mul_self hm.le
  unfold momentum
  rw [h0]
  have e1 : Kin.boost (V4.mk' m ⟨0, 0, 0⟩) c.v.neg = ⟨Kin.gamma c.v.neg * m, Kin.gamma c.v.neg * m * c.v.x,
      Kin.gamma c.v.neg * m * c.v.y, Kin.gamma c.v.neg * m * c.v.z⟩ := by
    obtain ⟨hg, hv⟩ := Kin.gamma_spec hs
    simp only [Kin.boost, V4.mk', V4.vec, V3.smul, V3.sub, V3.dot]
    generalize Kin.gamma c.v.neg = g at hg hv
    simp only [V3.neg]
    congr 1 <;> field_simp <;> ring
  rw [e1]
  have hg2 := (Kin.gamma_spec hs).1
  ext <;> simp only [V4.velocity, V4.vec, V3.div, V3.smul] <;> field_simp

/-! ### Examples -/

/-- A lattice of 2 x 2 x 2 cells, all hot. -/
noncomputable def exLat : Lat Node where
  data := List.replicate 8 { Node.empty with e := 1 }
  sizes := ⟨2, 2, 2⟩
  n := ⟨2, 2, 2⟩
  cell := ⟨1, 1, 1⟩
  vol := 1
  origin := ⟨-1, -1, -1⟩
  periodic := false

theorem exFine : Fine exLat := by
  refine ⟨⟨by decide, by decide, by decide, by decide, by decide, ?_⟩, by norm_num [exLat], by norm_num [exLat],
    by norm_num [exLat], by simp [exLat]⟩
  simp [exLat, Lattice.cells]

/-- Non-vacuity of `C166_removed` and `C166_cells_exist`: 31 particles in the centre of a hot cell. -/
example : ∃ r : List (Mem ℕ), (∀ x ∈ List.replicate 31 (Mem.mk ⟨1 / 2, 1 / 2, 1 / 2⟩ 0), Reachable exLat x.pos) ∧
    toRemove exLat (1 / 2) (List.replicate 31 (Mem.mk ⟨1 / 2, 1 / 2, 1 / 2⟩ 0)) = .ok r ∧ r.length = 31 := by
  have hr : Reachable exLat ⟨1 / 2, 1 / 2, 1 / 2⟩ :=
    ⟨1, 1, 1, by norm_num [InCell, exLat], by norm_num [InCell, exLat], by norm_num [InCell, exLat], by norm_num, by norm_num,
      by norm_num, by simp [exLat]⟩
  have hh : Hot exLat (1 / 2) ⟨1 / 2, 1 / 2, 1 / 2⟩ :=
    ⟨1, 1, 1, { Node.empty with e := 1 }, by norm_num [InLat, exLat], by norm_num [InCell, exLat], by norm_num [InCell, exLat],
      by norm_num [InCell, exLat], by simp [index1d, exLat], by norm_num⟩
  have hx : ∀ x ∈ List.replicate 31 (Mem.mk (⟨1 / 2, 1 / 2, 1 / 2⟩ : Lattice.V3 ℚ) (0 : ℕ)), Reachable exLat x.pos := by
    intro x hx
    rw [List.eq_of_mem_replicate hx]
    exact hr
  refine ⟨_, hx, C166_removed exFine (1 / 2) _ hx, ?_⟩
  have hf : (List.replicate 31 (Mem.mk (⟨1 / 2, 1 / 2, 1 / 2⟩ : Lattice.V3 ℚ) (0 : ℕ))).filter
      (fun x => Classical.propDecidable (Hot exLat (1 / 2) x.pos) |>.decide) =
      List.replicate 31 (Mem.mk ⟨1 / 2, 1 / 2, 1 / 2⟩ 0) := by
    rw [List.filter_eq_self]
    intro x hx
    rw [List.eq_of_mem_replicate hx]
    simpa using hh
  rw [hf]
  simp

/-- Non-vacuity of `C166_position`, `C166_choice` and `C166_probability`. -/
example : valueAt Node.empty exLat (place exLat 3 ⟨1 / 4, 0, -(1 / 2)⟩) = .ok (true, { Node.empty with e := 1 }) ∧
    choose [1, 2, 3] (5 / 2) = some 1 := by
  constructor
  · rw [C166_position exFine 3 (by simp [exLat]) _ (by norm_num [exLat]) (by norm_num [exLat]) (by norm_num [exLat])]
    simp [exLat]
  · refine (C166_choice _ (by intro x hx; simp at hx; rcases hx with rfl | rfl | rfl <;> norm_num) _ _).2 ⟨by simp, ?_, ?_⟩ <;>
      norm_num

end Verif.Cell
