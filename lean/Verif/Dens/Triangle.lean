import Verif.Dens.SmearProps

/-
C108: the triangular smearing.
-/
namespace Verif.Dens
open Verif.Lattice

theorem pair_sum (n : ℕ) (g h : ℕ → ℚ) (c : ℚ) (H : ∀ j, j < n → g j + h j = c) :
    ((List.range n).map g).sum + ((List.range n).map h).sum = n * c := by
  induction n with
  | zero => simp
  | succ n ih =>
    have h1 := H n (Nat.lt_succ_self n)
    have h2 := ih (fun j hj => H j (Nat.lt_succ_of_lt hj))
    simp only [List.range_succ, List.map_append, List.sum_append, List.map_cons, List.map_nil,
      List.sum_cons, List.sum_nil]
    push_cast
    linarith

/-- The lower end of the visited indices in one direction for an integer range. -/
theorem ceil_shift (o c p : ℚ) (R : ℕ) (hc : 0 < c) :
    ⌈(p - o - R * c) / c - 1 / 2⌉ = ⌈(p - o) / c - 1 / 2⌉ - R ∧
    ⌈(p - o + R * c) / c - 1 / 2⌉ = ⌈(p - o) / c - 1 / 2⌉ + R := by
  constructor
  · rw [show (p - o - R * c) / c - 1 / 2 = ((p - o) / c - 1 / 2) - ((R : ℤ) : ℚ) by
      push_cast; field_simp; ring, Int.ceil_sub_intCast]
  · rw [show (p - o + R * c) / c - 1 / 2 = ((p - o) / c - 1 / 2) + ((R : ℤ) : ℚ) by
      push_cast; field_simp; ring, Int.ceil_add_intCast]

/-- In one direction the weights add up to the range squared. -/
theorem tri_sum (o c p : ℚ) (R : ℕ) (hc : 0 < c) :
    ((loop (⌈(p - o) / c - 1 / 2⌉ - R) (⌈(p - o) / c - 1 / 2⌉ + R)).map fun i : Int =>
      R * c - |o + c * (i + 1 / 2) - p|).sum = R * (R * c) := by
  set t := (p - o) / c - 1 / 2 with ht
  set k := ⌈t⌉ with hk
  have k1 : t ≤ k := Int.le_ceil t
  have k2 : (k : ℚ) < t + 1 := Int.ceil_lt_add_one t
  have hp : p = o + c * (t + 1 / 2) := by rw [ht]; field_simp; ring
  have hlen : (k + R - (k - R)).toNat = R + R := by omega
  unfold loop
  rw [hlen, List.range_add, List.map_append, List.map_append, List.sum_append, List.map_map,
    List.map_map, List.map_map]
  apply pair_sum
  intro j hj
  have hj' : (j : ℚ) + 1 ≤ R := by exact_mod_cast hj
  have hj0 : (0 : ℚ) ≤ j := by positivity
  simp only [Function.comp]
  push_cast
  have e1 : o + c * ((k : ℚ) - R + j + 1 / 2) - p = c * (k - t - R + j) := by rw [hp]; ring
  have e2 : o + c * ((k : ℚ) - R + (R + j) + 1 / 2) - p = c * (k - t + j) := by rw [hp]; ring
  rw [e1, e2, abs_of_nonpos, abs_of_nonneg]
  · ring
  · apply mul_nonneg hc.le; linarith
  · apply mul_nonpos_of_nonneg_of_nonpos hc.le; linarith

theorem sum_mul_left' (l : List Int) (a : ℚ) (f : Int → ℚ) :
    (l.map fun i => a * f i).sum = a * (l.map f).sum := by
  induction l with
  | nil => simp
  | cons x l ih => simp only [List.map_cons, List.sum_cons, ih]; ring

theorem sum_flatMap' {α : Type} (l : List Int) (g : Int → List α) (f : α → ℚ) :
    ((l.flatMap g).map f).sum = (l.map fun a => ((g a).map f).sum).sum := by
  induction l with
  | nil => simp
  | cons x l ih => simp only [List.flatMap_cons, List.map_append, List.sum_append, ih,
      List.map_cons, List.sum_cons]

/-- Sums of products over all calls factorise. -/
theorem calls_sum (f : Int → Int → Int → Int) (lo hi : V3 Int) (C : ℚ) (wx wy wz : Int → ℚ) :
    ((calls f lo hi).map fun v => C * wx v.ix * wy v.iy * wz v.iz).sum
      = C * ((loop lo.x hi.x).map wx).sum * ((loop lo.y hi.y).map wy).sum *
        ((loop lo.z hi.z).map wz).sum := by
  unfold calls
  rw [sum_flatMap']
  have e : ∀ z, (((loop lo.y hi.y).flatMap fun iy => (loop lo.x hi.x).map fun ix =>
      (⟨f ix iy z, ix, iy, z⟩ : Visit)).map fun v => C * wx v.ix * wy v.iy * wz v.iz).sum
      = (C * ((loop lo.x hi.x).map wx).sum * ((loop lo.y hi.y).map wy).sum) * wz z := by
    intro z
    rw [sum_flatMap']
    have e2 : ∀ y, (((loop lo.x hi.x).map fun ix => (⟨f ix y z, ix, y, z⟩ : Visit)).map
        fun v => C * wx v.ix * wy v.iy * wz v.iz).sum
        = (C * ((loop lo.x hi.x).map wx).sum * wz z) * wy y := by
      intro y
      rw [List.map_map]
      have : ((fun v : Visit => C * wx v.ix * wy v.iy * wz v.iz) ∘
          fun ix => (⟨f ix y z, ix, y, z⟩ : Visit))
          = fun ix => (C * wy y * wz z) * wx ix := by
        funext ix; simp only [Function.comp]; ring
      rw [this, sum_mul_left']; ring
    simp only [e2]
    rw [sum_mul_left']; ring
  simp only [e]
  rw [sum_mul_left']

/-- All cell centres within the range of the particle belong to the lattice (on a periodic lattice:
have indices that the periodic continuation handles). -/
def InRange (L : Lat Node) (R : ℕ) (p : V3 ℚ) : Prop :=
  let ok (n i : Int) : Prop := if L.periodic then SafeIndex n i else 0 ≤ i ∧ i < n
  (∀ i, Near L.origin.x L.cell.x p.x (R * L.cell.x) i → ok L.n.x i) ∧
  (∀ i, Near L.origin.y L.cell.y p.y (R * L.cell.y) i → ok L.n.y i) ∧
  (∀ i, Near L.origin.z L.cell.z p.z (R * L.cell.z) i → ok L.n.z i)

/-- Periodic lattices whose size the periodic continuation can handle. -/
def SmallEnough (L : Lat Node) : Prop :=
  L.n.x * 256 < 2147483648 ∧ L.n.y * 256 < 2147483648 ∧ L.n.z * 256 < 2147483648

theorem bounds_ok {o c p : ℚ} {R : ℕ} (hc : 0 < c) {lo hi : Int} (hlo : -2147483648 ≤ lo)
    (hhi : hi ≤ 2147483648 - 1) (hR : 0 < R)
    (h : ∀ i, Near o c p (R * c) i → lo ≤ i ∧ i < hi) :
    bounds p o (R * c) c = .ok (⌈(p - o) / c - 1 / 2⌉ - R, ⌈(p - o) / c - 1 / 2⌉ + R) ∧
    lo ≤ ⌈(p - o) / c - 1 / 2⌉ - R ∧ ⌈(p - o) / c - 1 / 2⌉ + R ≤ hi := by
  obtain ⟨e1, e2⟩ := ceil_shift o c p R hc
  have n1 := h _ ((ceil_bounds (r := R * c) hc).1 ⟨e1.le, by
    rw [e2]; omega⟩ : Near o c p (R * c) (⌈(p - o) / c - 1 / 2⌉ - R))
  have n2 := h _ ((ceil_bounds (r := R * c) hc).1 ⟨by rw [e1]; omega, by
    rw [e2]; omega⟩ : Near o c p (R * c) (⌈(p - o) / c - 1 / 2⌉ + R - 1))
  refine ⟨?_, by omega, by omega⟩
  unfold bounds castInt
  rw [e1, e2, if_pos (by omega), if_pos (by omega)]
  rfl

theorem triangular_sum (P : Par) {L : Lat Node} (hv : Valid L) {c : Charge} {R : ℕ} (hR : 0 < R)
    (hr : P.range = R) (hs : L.periodic = true → SmallEnough L) (hi : InRange L R c.pos)
    (hn : 0 < P.ntest) (he : 0 < P.nens) :
    ∃ ws, triangularWeights P L c = .ok ws ∧ (∀ w ∈ ws, 0 ≤ w.1 ∧ w.1 < L.data.length) ∧
      (ws.map Prod.snd).sum * (L.cell.x * L.cell.y * L.cell.z)
        = c.factor / (P.ntest * P.nens) := by
  have h := hv.wf
  have hlim : L.n.x < 2147483648 ∧ L.n.y < 2147483648 ∧ L.n.z < 2147483648 := by
    have := h.fits
    have hx := h.nx
    have hy := h.ny
    have hz := h.nz
    refine ⟨?_, ?_, ?_⟩ <;> nlinarith [mul_pos (by omega : 0 < L.n.x) (by omega : 0 < L.n.y),
      mul_pos (by omega : 0 < L.n.x) (by omega : 0 < L.n.z),
      mul_pos (by omega : 0 < L.n.y) (by omega : 0 < L.n.z)]
  have hx1 := h.nx
  have hy1 := h.ny
  have hz1 := h.nz
  set kx := ⌈(c.pos.x - L.origin.x) / L.cell.x - 1 / 2⌉ with hkx
  set ky := ⌈(c.pos.y - L.origin.y) / L.cell.y - 1 / 2⌉ with hky
  set kz := ⌈(c.pos.z - L.origin.z) / L.cell.z - 1 / 2⌉ with hkz
  -- the calls
  have key : ∃ f : Int → Int → Int → Int,
      iterateInRectangle L c.pos ⟨R * L.cell.x, R * L.cell.y, R * L.cell.z⟩
        = .ok (calls f ⟨kx - R, ky - R, kz - R⟩ ⟨kx + R, ky + R, kz + R⟩) ∧
      ∀ ix iy iz, (kx - R ≤ ix ∧ ix < kx + R) → (ky - R ≤ iy ∧ iy < ky + R) →
        (kz - R ≤ iz ∧ iz < kz + R) → 0 ≤ f ix iy iz ∧ f ix iy iz < L.data.length := by
    cases hper : L.periodic with
    | false =>
      simp only [InRange, hper, Bool.false_eq_true, if_false] at hi
      obtain ⟨b1, b2, b3⟩ := bounds_ok hv.cx (by omega) (by omega) hR hi.1
      obtain ⟨c1, c2, c3⟩ := bounds_ok hv.cy (by omega) (by omega) hR hi.2.1
      obtain ⟨d1, d2, d3⟩ := bounds_ok hv.cz (by omega) (by omega) hR hi.2.2
      have hin : ∀ ix iy iz, (kx - R ≤ ix ∧ ix < kx + R) → (ky - R ≤ iy ∧ iy < ky + R) →
          (kz - R ≤ iz ∧ iz < kz + R) → InLat L ix iy iz := by
        intro ix iy iz h1 h2 h3
        exact ⟨⟨by omega, by omega⟩, ⟨by omega, by omega⟩, by omega, by omega⟩
      refine ⟨index1d L, ?_, fun ix iy iz h1 h2 h3 => wf_index h (hin ix iy iz h1 h2 h3)⟩
      have hcl : ∀ n l u : Int, 0 ≤ l → u ≤ n → l < u → clamp n (l, u) = some (l, u) := by
        intro n l u h1 h2 h3
        unfold clamp
        simp only
        rw [if_neg (by omega), if_neg (by omega), if_neg (by omega)]
      unfold iterateInRectangle
      rw [b1, ok_bind, c1, ok_bind, d1, ok_bind, hper]
      simp only [Bool.false_eq_true, if_false]
      rw [hcl _ _ _ b2 b3 (by omega), hcl _ _ _ c2 c3 (by omega), hcl _ _ _ d2 d3 (by omega)]
      simp only
      refine iterateSublattice_ok ?_
      intro ix iy iz h1 h2 h3
      rw [hper]
      simp only [Bool.false_eq_true, if_false]
      exact visit_ok (wf_index h (hin ix iy iz h1 h2 h3))
    | true =>
      obtain ⟨s1, s2, s3⟩ := hs hper
      simp only [InRange, hper, if_true] at hi
      obtain ⟨b1, b2, b3⟩ := bounds_ok (lo := -(256 * L.n.x)) (hi := 2147483648 - L.n.x * 256)
        hv.cx (by omega) (by omega) hR (fun i hn => by
          have := hi.1 i hn; unfold SafeIndex at this; omega)
      obtain ⟨c1, c2, c3⟩ := bounds_ok (lo := -(256 * L.n.y)) (hi := 2147483648 - L.n.y * 256)
        hv.cy (by omega) (by omega) hR (fun i hn => by
          have := hi.2.1 i hn; unfold SafeIndex at this; omega)
      obtain ⟨d1, d2, d3⟩ := bounds_ok (lo := -(256 * L.n.z)) (hi := 2147483648 - L.n.z * 256)
        hv.cz (by omega) (by omega) hR (fun i hn => by
          have := hi.2.2 i hn; unfold SafeIndex at this; omega)
      have hin (ix iy iz : Int) : InLat L (ix % L.n.x) (iy % L.n.y) (iz % L.n.z) :=
        ⟨⟨Int.emod_nonneg _ (by omega), Int.emod_lt_of_pos _ (by omega)⟩,
          ⟨Int.emod_nonneg _ (by omega), Int.emod_lt_of_pos _ (by omega)⟩,
          ⟨Int.emod_nonneg _ (by omega), Int.emod_lt_of_pos _ (by omega)⟩⟩
      refine ⟨fun ix iy iz => index1d L (ix % L.n.x) (iy % L.n.y) (iz % L.n.z), ?_,
        fun ix iy iz _ _ _ => wf_index h (hin ix iy iz)⟩
      unfold iterateInRectangle
      rw [b1, ok_bind, c1, ok_bind, d1, ok_bind, hper]
      simp only [if_true]
      refine iterateSublattice_ok ?_
      intro ix iy iz hx hy hz
      rw [hper]
      simp only [if_true]
      simp only at hx hy hz
      rw [positiveModulo_ok hz1 s3 (by omega) (by omega), ok_bind,
        positiveModulo_ok hy1 s2 (by omega) (by omega), ok_bind,
        positiveModulo_ok hx1 s1 (by omega) (by omega), ok_bind]
      exact visit_ok (wf_index h (hin ix iy iz))
  obtain ⟨f, h1, h2⟩ := key
  refine ⟨_, by unfold triangularWeights; rw [hr]; simp only; rw [h1, ok_bind]; rfl, ?_, ?_⟩
  · intro w hw
    obtain ⟨v, hv', rfl⟩ := List.mem_map.1 hw
    rw [mem_calls] at hv'
    simp only
    rw [hv'.2.2.2]
    exact h2 _ _ _ hv'.1 hv'.2.1 hv'.2.2.1
  · rw [List.map_map]
    simp only [Function.comp_def, center]
    rw [calls_sum f _ _ _ (fun i => R * L.cell.x - |L.origin.x + L.cell.x * (i + 1 / 2) - c.pos.x|)
      (fun i => R * L.cell.y - |L.origin.y + L.cell.y * (i + 1 / 2) - c.pos.y|)
      (fun i => R * L.cell.z - |L.origin.z + L.cell.z * (i + 1 / 2) - c.pos.z|)]
    simp only
    rw [hkx, hky, hkz, tri_sum _ _ _ _ hv.cx, tri_sum _ _ _ _ hv.cy, tri_sum _ _ _ _ hv.cz]
    have hx0 := hv.cx
    have hy0 := hv.cy
    have hz0 := hv.cz
    have h3 : (0 : ℚ) < P.ntest := by exact_mod_cast hn
    have h4 : (0 : ℚ) < P.nens := by exact_mod_cast he
    have h5 : (0 : ℚ) < R := by exact_mod_cast hR
    field_simp

/-- **C108 (triangular smearing).** If the range is a positive integer and all nodes in range of the
particles belong to the lattice, the update never fails and the lattice gains exactly the charge
of the particles divided by the numbers of test particles and ensembles. Missing: ranges that are
no integers (`C108_fractional_range_false`) and particles near the border of a plain lattice, whose
charge is partly outside. -/
theorem C108_triangular_partial (P : Par) {L : Lat Node} (hv : Valid L) (hn : 0 < P.ntest)
    (he : 0 < P.nens) {R : ℕ} (hR : 0 < R) (hr : P.range = R)
    (hs : L.periodic = true → SmallEnough L) (cs : List Charge)
    (hcs : ∀ c ∈ cs, counts P c = true → InRange L R c.pos) :
    ∃ M, update (triangularWeights P) P cs L = .ok M ∧ SameShape L M ∧
      total M = total L + chargeOf P cs := by
  refine update_total (fun L c => Valid L ∧ (L.periodic = true → SmallEnough L) ∧
    InRange L R c.pos) ?_ ?_ cs L ?_
  · intro L c h
    exact triangular_sum P h.1 hR hr h.2.1 h.2.2 hn he
  · rintro L M c hsh ⟨h1, h2, h3⟩
    refine ⟨hsh.valid h1, ?_, ?_⟩
    · obtain ⟨a, b, c, d, e, f⟩ := hsh
      unfold SmallEnough
      rw [a, d]; exact h2
    · obtain ⟨a, b, c, d, e, f⟩ := hsh
      unfold InRange
      rw [a, b, c, d]; exact h3
  · intro c hc hcc
    exact ⟨hv, hs, hcs c hc hcc⟩

/-! ### Counterexamples -/

/-- A lattice of 3x3x3 unit cells. -/
def lat3 (per : Bool) : Lat Node :=
  { data := List.replicate 27 ⟨0, 0⟩, sizes := ⟨3, 3, 3⟩, n := ⟨3, 3, 3⟩, cell := ⟨1, 1, 1⟩,
    vol := 1, origin := ⟨0, 0, 0⟩, periodic := per }

/-- **C108 (border).** A particle of charge 1 in a corner cell of a plain lattice deposits the
charge 5/3, because the missing neighbours are replaced by the cell itself, each with the central
weight (here 1/3); in the middle it deposits 1. -/
theorem C108_border_false :
    let P : Par := ⟨1, 1, false, 1 / 3, 2⟩
    (update (discreteWeights P) P [⟨⟨1 / 2, 1 / 2, 1 / 2⟩, 1, 1, 0⟩] (lat3 false)).map total
      = .ok (5 / 3) ∧
    (update (discreteWeights P) P [⟨⟨3 / 2, 3 / 2, 3 / 2⟩, 1, 1, 0⟩] (lat3 false)).map total
      = .ok 1 := by
  decide +kernel

/-- **C108 (fractional range).** With the range 3/2 a particle of charge 1 at the centre of a cell
deposits the charge 1000/729. -/
theorem C108_fractional_range_false :
    let P : Par := ⟨1, 1, false, 1 / 3, 3 / 2⟩
    (update (triangularWeights P) P [⟨⟨3 / 2, 3 / 2, 3 / 2⟩, 1, 1, 0⟩] (lat3 true)).map total
      = .ok (1000 / 729) := by
  decide +kernel

/-! ### Examples -/

example (per : Bool) : Valid (lat3 per) := by
  refine ⟨⟨?_, ?_, ?_, ?_, ?_, ?_⟩, ?_, ?_, ?_⟩ <;> simp [lat3, cells]

example : Interior (lat3 true) ⟨1 / 2, 1 / 2, 1 / 2⟩ :=
  ⟨0, 0, 0, by simp [InLat, lat3], by norm_num [InCell, lat3], by norm_num [InCell, lat3],
    by norm_num [InCell, lat3], by simp [lat3]⟩

example : SmallEnough (lat3 true) := by simp [SmallEnough, lat3]

example : InRange (lat3 true) 2 ⟨1 / 2, 1 / 2, 1 / 2⟩ := by
  have h : ∀ i : Int, Near 0 1 (1 / 2) ((2 : ℕ) * 1) i → SafeIndex 3 i := by
    intro i ⟨h1, h2⟩
    unfold SafeIndex
    have a : (-2 : ℚ) ≤ i := by push_cast at h1; linarith
    have b : (i : ℚ) < 2 := by push_cast at h2; linarith
    have a' : (-2 : Int) ≤ i := by exact_mod_cast a
    have b' : i < (2 : Int) := by exact_mod_cast b
    omega
  exact ⟨h, h, h⟩

end Verif.Dens
