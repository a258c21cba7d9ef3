import Verif.Lattice.Props
/-! C19 and C21. -/
namespace Verif.Lattice

/-- The coordinates of a visited node. -/
def Visit.coords (v : Visit) : Int × Int × Int := (v.ix, v.iy, v.iz)

/-- The calls of a triple loop with index function `f`. -/
def calls (f : Int → Int → Int → Int) (lo hi : V3 Int) : List Visit :=
  (loop lo.z hi.z).flatMap fun iz => (loop lo.y hi.y).flatMap fun iy =>
    (loop lo.x hi.x).map fun ix => ⟨f ix iy iz, ix, iy, iz⟩

theorem mem_calls {f : Int → Int → Int → Int} {lo hi : V3 Int} {v : Visit} :
    v ∈ calls f lo hi ↔ (lo.x ≤ v.ix ∧ v.ix < hi.x) ∧ (lo.y ≤ v.iy ∧ v.iy < hi.y) ∧
      (lo.z ≤ v.iz ∧ v.iz < hi.z) ∧ v.index = f v.ix v.iy v.iz := by
  unfold calls
  simp only [List.mem_flatMap, List.mem_map, mem_loop]
  constructor
  · rintro ⟨z, hz, y, hy, x, hx, rfl⟩; exact ⟨hx, hy, hz, rfl⟩
  · rintro ⟨hx, hy, hz, he⟩
    refine ⟨v.iz, hz, v.iy, hy, v.ix, hx, ?_⟩
    cases v; simp only at he; subst he; rfl

theorem calls_nodup (f : Int → Int → Int → Int) (lo hi : V3 Int) :
    ((calls f lo hi).map Visit.coords).Nodup := by
  unfold calls
  simp only [List.map_flatMap, List.map_map]
  rw [List.nodup_flatMap]
  refine ⟨fun z _ => ?_, ?_⟩
  · rw [List.nodup_flatMap]
    refine ⟨fun y _ => ?_, ?_⟩
    · refine List.Nodup.map ?_ (loop_nodup _ _)
      intro a b h
      simp only [Function.comp, Visit.coords, Prod.mk.injEq] at h
      exact h.1
    · refine (loop_nodup lo.y hi.y).imp ?_
      intro a b hab
      rw [Function.onFun, List.disjoint_left]
      intro c h1 h2
      simp only [List.mem_map, Function.comp, Visit.coords] at h1 h2
      obtain ⟨_, _, rfl⟩ := h1
      obtain ⟨_, _, h2⟩ := h2
      simp only [Prod.mk.injEq] at h2
      exact hab h2.2.1.symm
  · refine (loop_nodup lo.z hi.z).imp ?_
    intro a b hab
    rw [Function.onFun, List.disjoint_left]
    intro c h1 h2
    simp only [List.mem_flatMap, List.mem_map, Function.comp, Visit.coords] at h1 h2
    obtain ⟨_, _, _, _, rfl⟩ := h1
    obtain ⟨_, _, _, _, h2⟩ := h2
    simp only [Prod.mk.injEq] at h2
    exact hab h2.2.2.symm

theorem iterateSublattice_ok {T : Type} {L : Lat T} {lo hi : V3 Int} {f : Int → Int → Int → Int}
    (H : ∀ ix iy iz, (lo.x ≤ ix ∧ ix < hi.x) → (lo.y ≤ iy ∧ iy < hi.y) →
      (lo.z ≤ iz ∧ iz < hi.z) →
      (if L.periodic then do
          let c ← positiveModulo iz L.n.z
          let b ← positiveModulo iy L.n.y
          let a ← positiveModulo ix L.n.x
          visit L (a + L.n.x * (b + c * L.n.y)) ix iy iz
        else visit L (ix + L.n.x * (iy + iz * L.n.y)) ix iy iz) =
        .ok ⟨f ix iy iz, ix, iy, iz⟩) :
    iterateSublattice L lo hi = .ok (calls f lo hi) := by
  unfold iterateSublattice
  rw [mapM_ok (g := fun iz => (loop lo.y hi.y).flatMap fun iy =>
    (loop lo.x hi.x).map fun ix => ⟨f ix iy iz, ix, iy, iz⟩)]
  · rw [ok_bind]; simp only [calls, List.flatMap]; rfl
  · intro z hz
    rw [mapM_ok (g := fun iy => (loop lo.x hi.x).map fun ix => ⟨f ix iy z, ix, iy, z⟩)]
    · rw [ok_bind]; simp only [List.flatMap]; rfl
    · intro y hy
      refine mapM_ok ?_
      intro x hx
      exact H x y z (mem_loop.1 hx) (mem_loop.1 hy) (mem_loop.1 hz)

theorem visit_ok {T : Type} {L : Lat T} {i x y z : Int} (h : 0 ≤ i ∧ i < L.data.length) :
    visit L i x y z = .ok ⟨i, x, y, z⟩ := by
  unfold visit; rw [if_pos h]

/-! ### Specification of the visited region -/

/-- The centre of cell `i` is in the half-open interval of half width `r` around `p`. -/
def Near (o c p r : ℚ) (i : Int) : Prop :=
  p - r ≤ o + c * (i + 1 / 2) ∧ o + c * (i + 1 / 2) < p + r

theorem ceil_bounds {o c p r : ℚ} {i : Int} (hc : 0 < c) :
    (⌈(p - o - r) / c - 1 / 2⌉ ≤ i ∧ i < ⌈(p - o + r) / c - 1 / 2⌉) ↔ Near o c p r i := by
  unfold Near
  rw [Int.ceil_le, Int.lt_ceil, sub_le_iff_le_add, div_le_iff₀ hc, lt_sub_iff_add_lt,
    lt_div_iff₀ hc]
  constructor
  · rintro ⟨h1, h2⟩; constructor <;> linarith
  · rintro ⟨h1, h2⟩; constructor <;> linarith

theorem bounds_cases (p o r c : ℚ) :
    bounds p o r c = .error .domainError ∨
    bounds p o r c = .ok (⌈(p - o - r) / c - 1 / 2⌉, ⌈(p - o + r) / c - 1 / 2⌉) := by
  unfold bounds castInt
  split_ifs
  · right; rfl
  · left; rfl
  · left; rfl
  · left; rfl

theorem clamp_spec {n : Int} {b : Int × Int} (hn : 1 ≤ n) :
    (clamp n b = none → ∀ i, ¬ (b.1 ≤ i ∧ i < b.2 ∧ 0 ≤ i ∧ i < n)) ∧
    (∀ b', clamp n b = some b' →
      ∀ i, (b'.1 ≤ i ∧ i < b'.2) ↔ (b.1 ≤ i ∧ i < b.2 ∧ 0 ≤ i ∧ i < n)) := by
  unfold clamp
  refine ⟨?_, ?_⟩
  · intro h i hi
    simp only at h
    split_ifs at h <;> omega
  · intro b' h i
    simp only at h
    split_ifs at h <;>
    · have := Option.some.inj h
      subst this
      simp only
      omega

/-- What it means that a list of calls visits exactly the nodes near `p`. -/
structure Exactly {T : Type} (L : Lat T) (region : Int → Int → Int → Prop)
    (image : Int → Int → Int → Int × Int × Int) (vs : List Visit) : Prop where
  /-- no node (no periodic image of a node) is visited twice -/
  once : (vs.map Visit.coords).Nodup
  /-- the visited nodes are those of the region -/
  nodes : ∀ ix iy iz, (ix, iy, iz) ∈ vs.map Visit.coords ↔ region ix iy iz
  /-- the value handed to the function is the one stored for that node -/
  value : ∀ v ∈ vs, InLat L (image v.ix v.iy v.iz).1 (image v.ix v.iy v.iz).2.1
      (image v.ix v.iy v.iz).2.2 ∧
    v.index = index1d L (image v.ix v.iy v.iz).1 (image v.ix v.iy v.iz).2.1
      (image v.ix v.iy v.iz).2.2 ∧ 0 ≤ v.index ∧ v.index < L.data.length

/-- **C19.** `iterate_in_rectangle` on a non-periodic lattice calls the function exactly
once for every node whose cell centre is in the half-open cuboid around the point; or it
throws because a bound does not fit into an `int`. In no case is memory outside the
lattice touched. -/
theorem C19_rectangle {T : Type} {L : Lat T} (h : WF L) (hper : L.periodic = false)
    (hcx : 0 < L.cell.x) (hcy : 0 < L.cell.y) (hcz : 0 < L.cell.z) (p r : V3 ℚ) :
    iterateInRectangle L p r = .error .domainError ∨
    ∃ vs, iterateInRectangle L p r = .ok vs ∧
      Exactly L (fun ix iy iz => InLat L ix iy iz ∧ Near L.origin.x L.cell.x p.x r.x ix ∧
        Near L.origin.y L.cell.y p.y r.y iy ∧ Near L.origin.z L.cell.z p.z r.z iz)
        (fun ix iy iz => (ix, iy, iz)) vs := by
  unfold iterateInRectangle
  rcases bounds_cases p.x L.origin.x r.x L.cell.x with e | e
  · left; rw [e]; rfl
  rcases bounds_cases p.y L.origin.y r.y L.cell.y with e2 | e2
  · left; rw [e, ok_bind, e2]; rfl
  rcases bounds_cases p.z L.origin.z r.z L.cell.z with e3 | e3
  · left; rw [e, ok_bind, e2, ok_bind, e3]; rfl
  right
  rw [e, ok_bind, e2, ok_bind, e3, ok_bind, hper]
  simp only [Bool.false_eq_true, if_false]
  have nx (i : Int) := ceil_bounds (o := L.origin.x) (p := p.x) (r := r.x) (i := i) hcx
  have ny (i : Int) := ceil_bounds (o := L.origin.y) (p := p.y) (r := r.y) (i := i) hcy
  have nz (i : Int) := ceil_bounds (o := L.origin.z) (p := p.z) (r := r.z) (i := i) hcz
  generalize hbx : ((⌈(p.x - L.origin.x - r.x) / L.cell.x - 1 / 2⌉,
    ⌈(p.x - L.origin.x + r.x) / L.cell.x - 1 / 2⌉) : Int × Int) = bx
  generalize hbY : ((⌈(p.y - L.origin.y - r.y) / L.cell.y - 1 / 2⌉,
    ⌈(p.y - L.origin.y + r.y) / L.cell.y - 1 / 2⌉) : Int × Int) = bY
  generalize hbz : ((⌈(p.z - L.origin.z - r.z) / L.cell.z - 1 / 2⌉,
    ⌈(p.z - L.origin.z + r.z) / L.cell.z - 1 / 2⌉) : Int × Int) = bz
  have nx' (i : Int) : (bx.1 ≤ i ∧ i < bx.2) ↔ Near L.origin.x L.cell.x p.x r.x i := by
    rw [← hbx]; exact nx i
  have ny' (i : Int) : (bY.1 ≤ i ∧ i < bY.2) ↔ Near L.origin.y L.cell.y p.y r.y i := by
    rw [← hbY]; exact ny i
  have nz' (i : Int) : (bz.1 ≤ i ∧ i < bz.2) ↔ Near L.origin.z L.cell.z p.z r.z i := by
    rw [← hbz]; exact nz i
  clear nx ny nz hbx hbY hbz e e2 e3
  have cx := clamp_spec (b := bx) h.nx
  have cy := clamp_spec (b := bY) h.ny
  have cz := clamp_spec (b := bz) h.nz
  have empty (hno : ∀ ix iy iz, ¬ (InLat L ix iy iz ∧ Near L.origin.x L.cell.x p.x r.x ix ∧
        Near L.origin.y L.cell.y p.y r.y iy ∧ Near L.origin.z L.cell.z p.z r.z iz)) :
      ∃ vs, (pure [] : Except Err (List Visit)) = .ok vs ∧
      Exactly L (fun ix iy iz => InLat L ix iy iz ∧ Near L.origin.x L.cell.x p.x r.x ix ∧
        Near L.origin.y L.cell.y p.y r.y iy ∧ Near L.origin.z L.cell.z p.z r.z iz)
        (fun ix iy iz => (ix, iy, iz)) vs :=
    ⟨[], rfl, by simp, by intro x y z; simp only [List.map_nil, List.not_mem_nil, false_iff];
                          exact hno x y z, by simp⟩
  cases h1 : clamp L.n.x bx with
  | none =>
    refine empty fun x y z hh => cx.1 h1 x ?_
    have := (nx' x).2 hh.2.1
    exact ⟨this.1, this.2, hh.1.1.1, hh.1.1.2⟩
  | some b1 =>
    cases h2 : clamp L.n.y bY with
    | none =>
      refine empty fun x y z hh => cy.1 h2 y ?_
      have := (ny' y).2 hh.2.2.1
      exact ⟨this.1, this.2, hh.1.2.1.1, hh.1.2.1.2⟩
    | some b2 =>
      cases h3 : clamp L.n.z bz with
      | none =>
        refine empty fun x y z hh => cz.1 h3 z ?_
        have := (nz' z).2 hh.2.2.2
        exact ⟨this.1, this.2, hh.1.2.2.1, hh.1.2.2.2⟩
      | some b3 =>
        have kx := cx.2 b1 h1
        have ky := cy.2 b2 h2
        have kz := cz.2 b3 h3
        have key : iterateSublattice L ⟨b1.1, b2.1, b3.1⟩ ⟨b1.2, b2.2, b3.2⟩ =
            .ok (calls (fun ix iy iz => index1d L ix iy iz) ⟨b1.1, b2.1, b3.1⟩
              ⟨b1.2, b2.2, b3.2⟩) := by
          refine iterateSublattice_ok ?_
          intro ix iy iz hx hy hz
          rw [hper]
          simp only [Bool.false_eq_true, if_false]
          have hx := (kx ix).1 hx
          have hy := (ky iy).1 hy
          have hz := (kz iz).1 hz
          exact visit_ok (wf_index h ⟨hx.2.2, hy.2.2, hz.2.2⟩)
        refine ⟨_, key, calls_nodup _ _ _, ?_, ?_⟩
        · intro ix iy iz
          have e1 : ((ix, iy, iz) ∈ (calls (fun ix iy iz => index1d L ix iy iz)
              ⟨b1.1, b2.1, b3.1⟩ ⟨b1.2, b2.2, b3.2⟩).map Visit.coords) ↔
              (b1.1 ≤ ix ∧ ix < b1.2) ∧ (b2.1 ≤ iy ∧ iy < b2.2) ∧ (b3.1 ≤ iz ∧ iz < b3.2) := by
            rw [List.mem_map]
            constructor
            · rintro ⟨v, hv, he⟩
              rw [mem_calls] at hv
              simp only [Visit.coords, Prod.mk.injEq] at he
              obtain ⟨rfl, rfl, rfl⟩ := he
              exact ⟨hv.1, hv.2.1, hv.2.2.1⟩
            · rintro ⟨hx, hy, hz⟩
              exact ⟨⟨index1d L ix iy iz, ix, iy, iz⟩, mem_calls.2 ⟨hx, hy, hz, rfl⟩, rfl⟩
          rw [e1, kx, ky, kz, ← nx', ← ny', ← nz']
          constructor
          · rintro ⟨⟨a1, a2, a3⟩, ⟨b1, b2, b3⟩, c1, c2, c3⟩
            exact ⟨⟨a3, b3, c3⟩, ⟨a1, a2⟩, ⟨b1, b2⟩, c1, c2⟩
          · rintro ⟨⟨a3, b3, c3⟩, ⟨a1, a2⟩, ⟨b1, b2⟩, c1, c2⟩
            exact ⟨⟨a1, a2, a3⟩, ⟨b1, b2, b3⟩, c1, c2, c3⟩
        · intro v hv
          rw [mem_calls] at hv
          have hx := (kx v.ix).1 hv.1
          have hy := (ky v.iy).1 hv.2.1
          have hz := (kz v.iz).1 hv.2.2.1
          have hin : InLat L v.ix v.iy v.iz := ⟨hx.2.2, hy.2.2, hz.2.2⟩
          refine ⟨hin, hv.2.2.2, ?_⟩
          rw [hv.2.2.2]
          exact wf_index h hin

/-- **C19**, the cube version (`iterate_in_cube`). -/
theorem C19_cube {T : Type} {L : Lat T} (h : WF L) (hper : L.periodic = false)
    (hcx : 0 < L.cell.x) (hcy : 0 < L.cell.y) (hcz : 0 < L.cell.z) (p : V3 ℚ) (r : ℚ) :
    iterateInCube L p r = .error .domainError ∨
    ∃ vs, iterateInCube L p r = .ok vs ∧
      Exactly L (fun ix iy iz => InLat L ix iy iz ∧ Near L.origin.x L.cell.x p.x r ix ∧
        Near L.origin.y L.cell.y p.y r iy ∧ Near L.origin.z L.cell.z p.z r iz)
        (fun ix iy iz => (ix, iy, iz)) vs :=
  C19_rectangle h hper hcx hcy hcz p ⟨r, r, r⟩

/-- **C19**, periodic lattices: every periodic image of a node in the cuboid is visited
exactly once, and the function gets the value of the node itself. Missing: cuboids that
reach more than 256 periods to the negative side (`C19_far_cube`). -/
theorem C19_rectangle_periodic_partial {T : Type} {L : Lat T} (h : WF L)
    (hper : L.periodic = true)
    (hcx : 0 < L.cell.x) (hcy : 0 < L.cell.y) (hcz : 0 < L.cell.z) (p r : V3 ℚ)
    (nx : L.n.x * 256 < 2147483648) (ny : L.n.y * 256 < 2147483648)
    (nz : L.n.z * 256 < 2147483648)
    (sx : ∀ i, Near L.origin.x L.cell.x p.x r.x i → SafeIndex L.n.x i)
    (sy : ∀ i, Near L.origin.y L.cell.y p.y r.y i → SafeIndex L.n.y i)
    (sz : ∀ i, Near L.origin.z L.cell.z p.z r.z i → SafeIndex L.n.z i) :
    iterateInRectangle L p r = .error .domainError ∨
    ∃ vs, iterateInRectangle L p r = .ok vs ∧
      Exactly L (fun ix iy iz => Near L.origin.x L.cell.x p.x r.x ix ∧
        Near L.origin.y L.cell.y p.y r.y iy ∧ Near L.origin.z L.cell.z p.z r.z iz)
        (fun ix iy iz => (ix % L.n.x, iy % L.n.y, iz % L.n.z)) vs := by
  unfold iterateInRectangle
  rcases bounds_cases p.x L.origin.x r.x L.cell.x with e | e
  · left; rw [e]; rfl
  rcases bounds_cases p.y L.origin.y r.y L.cell.y with e2 | e2
  · left; rw [e, ok_bind, e2]; rfl
  rcases bounds_cases p.z L.origin.z r.z L.cell.z with e3 | e3
  · left; rw [e, ok_bind, e2, ok_bind, e3]; rfl
  right
  rw [e, ok_bind, e2, ok_bind, e3, ok_bind, hper]
  simp only [if_true]
  have kx (i : Int) := ceil_bounds (o := L.origin.x) (p := p.x) (r := r.x) (i := i) hcx
  have ky (i : Int) := ceil_bounds (o := L.origin.y) (p := p.y) (r := r.y) (i := i) hcy
  have kz (i : Int) := ceil_bounds (o := L.origin.z) (p := p.z) (r := r.z) (i := i) hcz
  have hn := h.nx
  have hn2 := h.ny
  have hn3 := h.nz
  have hin (ix iy iz : Int) : InLat L (ix % L.n.x) (iy % L.n.y) (iz % L.n.z) :=
    ⟨⟨Int.emod_nonneg _ (by omega), Int.emod_lt_of_pos _ (by omega)⟩,
      ⟨Int.emod_nonneg _ (by omega), Int.emod_lt_of_pos _ (by omega)⟩,
      ⟨Int.emod_nonneg _ (by omega), Int.emod_lt_of_pos _ (by omega)⟩⟩
  generalize ⌈(p.x - L.origin.x - r.x) / L.cell.x - 1 / 2⌉ = lx at *
  generalize ⌈(p.x - L.origin.x + r.x) / L.cell.x - 1 / 2⌉ = ux at *
  generalize ⌈(p.y - L.origin.y - r.y) / L.cell.y - 1 / 2⌉ = ly at *
  generalize ⌈(p.y - L.origin.y + r.y) / L.cell.y - 1 / 2⌉ = uy at *
  generalize ⌈(p.z - L.origin.z - r.z) / L.cell.z - 1 / 2⌉ = lz at *
  generalize ⌈(p.z - L.origin.z + r.z) / L.cell.z - 1 / 2⌉ = uz at *
  have key : iterateSublattice L ⟨lx, ly, lz⟩ ⟨ux, uy, uz⟩ =
      .ok (calls (fun ix iy iz => index1d L (ix % L.n.x) (iy % L.n.y) (iz % L.n.z))
        ⟨lx, ly, lz⟩ ⟨ux, uy, uz⟩) := by
    refine iterateSublattice_ok ?_
    intro ix iy iz hx hy hz
    rw [hper]
    simp only [if_true]
    have tx := sx ix ((kx ix).1 hx)
    have ty := sy iy ((ky iy).1 hy)
    have tz := sz iz ((kz iz).1 hz)
    rw [positiveModulo_ok hn3 nz tz.1 tz.2, ok_bind, positiveModulo_ok hn2 ny ty.1 ty.2, ok_bind,
      positiveModulo_ok hn nx tx.1 tx.2, ok_bind]
    exact visit_ok (wf_index h (hin ix iy iz))
  refine ⟨_, key, calls_nodup _ _ _, ?_, ?_⟩
  · intro ix iy iz
    rw [← kx, ← ky, ← kz, List.mem_map]
    constructor
    · rintro ⟨v, hv, he⟩
      rw [mem_calls] at hv
      simp only [Visit.coords, Prod.mk.injEq] at he
      obtain ⟨rfl, rfl, rfl⟩ := he
      exact ⟨hv.1, hv.2.1, hv.2.2.1⟩
    · rintro ⟨hx, hy, hz⟩
      exact ⟨⟨index1d L (ix % L.n.x) (iy % L.n.y) (iz % L.n.z), ix, iy, iz⟩,
        mem_calls.2 ⟨hx, hy, hz, rfl⟩, rfl⟩
  · intro v hv
    rw [mem_calls] at hv
    refine ⟨hin _ _ _, hv.2.2.2, ?_⟩
    rw [hv.2.2.2]
    exact wf_index h (hin _ _ _)

/-- A cube more than 256 periods away on the negative side of a periodic lattice makes the
iteration leave the storage. -/
theorem C19_far_cube :
    ∃ L : Lat ℚ, construct 0 ⟨2, 2, 2⟩ ⟨2, 2, 2⟩ ⟨0, 0, 0⟩ true = .ok L ∧
      iterateInCube L ⟨-513, 1, 1⟩ 1 = .error .outOfBounds := by
  refine ⟨_, rfl, ?_⟩
  decide +kernel

/-- Non-vacuity: eight nodes around a corner, four at the border of a plain lattice, eight
(with images) at the border of a periodic one. -/
example : ∃ L M : Lat ℚ, construct 0 ⟨4, 4, 4⟩ ⟨4, 4, 4⟩ ⟨0, 0, 0⟩ false = .ok L ∧
    construct 0 ⟨4, 4, 4⟩ ⟨4, 4, 4⟩ ⟨0, 0, 0⟩ true = .ok M ∧
    (iterateInCube L ⟨2, 2, 2⟩ 1).map List.length = .ok 8 ∧
    (iterateInCube L ⟨0, 2, 2⟩ 1).map List.length = .ok 4 ∧
    (iterateInCube M ⟨0, 2, 2⟩ 1).map List.length = .ok 8 := by
  refine ⟨_, _, rfl, rfl, ?_⟩
  decide +kernel
example {L : Lat ℚ} (h : construct 0 ⟨4, 4, 4⟩ ⟨4, 4, 4⟩ ⟨0, 0, 0⟩ false = .ok L) :
    WF L ∧ L.periodic = false ∧ 0 < L.cell.x ∧ 0 < L.cell.y ∧ 0 < L.cell.z := by
  have hw := construct_wf h
  rw [hw.1.cell, hw.2.1, hw.2.2.1]
  exact ⟨hw.1, hw.2.2.2.2.1, by norm_num [cells]⟩

/-! ### Nearest neighbours -/

/-- **C66.** For a point inside the lattice `iterate_nearest_neighbors` calls the function
for the node containing the point and its six neighbours, always with the centre node as
second argument, without leaving the storage. Missing: points outside the lattice, which
are not checked (`C66_outside_point`). -/
theorem C66_nearest_partial {T : Type} {L : Lat T} (h : WF L)
    (hcx : 0 < L.cell.x) (hcy : 0 < L.cell.y) (hcz : 0 < L.cell.z) {p : V3 ℚ} {ix iy iz : Int}
    (hx : InCell L.origin.x L.cell.x p.x ix) (hy : InCell L.origin.y L.cell.y p.y iy)
    (hz : InCell L.origin.z L.cell.z p.z iz) (hc : InLat L ix iy iz) :
    iterateNearest L p = .ok ([index1d L ix iy iz,
      index1d L (stepTo L.periodic L.n.x ix (-1)) iy iz,
      index1d L (stepTo L.periodic L.n.x ix 1) iy iz,
      index1d L ix (stepTo L.periodic L.n.y iy (-1)) iz,
      index1d L ix (stepTo L.periodic L.n.y iy 1) iz,
      index1d L ix iy (stepTo L.periodic L.n.z iz (-1)),
      index1d L ix iy (stepTo L.periodic L.n.z iz 1)].map fun j => (j, index1d L ix iy iz)) := by
  have hN := C18_neighbours h hc
  have hl : L.n.x < 2147483648 ∧ L.n.y < 2147483648 ∧ L.n.z < 2147483648 := by
    have := h.fits
    have hx := h.nx
    have hy := h.ny
    have hz := h.nz
    refine ⟨?_, ?_, ?_⟩ <;> nlinarith [mul_pos (by omega : 0 < L.n.x) (by omega : 0 < L.n.y),
      mul_pos (by omega : 0 < L.n.x) (by omega : 0 < L.n.z),
      mul_pos (by omega : 0 < L.n.y) (by omega : 0 < L.n.z)]
  obtain ⟨⟨a1, a2⟩, ⟨b1, b2⟩, c1, c2⟩ := id hc
  unfold iterateNearest
  rw [cellOf_ok hcx hx (by omega), ok_bind, cellOf_ok hcy hy (by omega), ok_bind,
    cellOf_ok hcz hz (by omega), ok_bind]
  have := mapM_ok (l := [index1d L ix iy iz, indexLeft L ix iy iz, indexRight L ix iy iz,
    indexDown L ix iy iz, indexUp L ix iy iz, indexBackward L ix iy iz, indexForward L ix iy iz])
    (f := fun j => do
      let _ ← visit L j ix iy iz
      return (j, index1d L ix iy iz)) (g := fun j => (j, index1d L ix iy iz)) (by
      intro j hj
      have hr : 0 ≤ j ∧ j < L.data.length := by
        rw [List.mem_cons] at hj
        rcases hj with rfl | hj
        · exact wf_index h hc
        · exact hN.2.2.2.2.2.2 j hj
      rw [visit_ok hr]; rfl)
  rw [this, hN.1, hN.2.1, hN.2.2.1, hN.2.2.2.1, hN.2.2.2.2.1, hN.2.2.2.2.2.1]

/-- A point left of a (periodic or non-periodic) lattice is accepted and leads outside the
storage. -/
theorem C66_outside_point (per : Bool) :
    ∃ L : Lat ℚ, construct 0 ⟨2, 2, 2⟩ ⟨2, 2, 2⟩ ⟨0, 0, 0⟩ per = .ok L ∧
      iterateNearest L ⟨-1 / 2, 0, 0⟩ = .error .outOfBounds := by
  refine ⟨_, rfl, ?_⟩
  cases per <;> decide +kernel

/-! ### C21 -/

/-- **C21.** After `reset_and_resize` without new cell numbers the lattice is still
consistent (so that every theorem above applies), has the requested geometry and only
default values. Missing: new cell numbers (`C21_new_cells_break_storage`). -/
theorem C21_resize_partial {T : Type} (d : T) {L M : Lat T} (h : WF L)
    {newLength newOrigin : Option (V3 ℚ)}
    (hr : resetAndResize d L newLength newOrigin none = .ok M) :
    WF M ∧ M.n = L.n ∧ M.sizes = newLength.getD L.sizes ∧ M.origin = newOrigin.getD L.origin ∧
      M.periodic = L.periodic ∧ ∀ v ∈ M.data, v = d := by
  unfold resetAndResize at hr
  split_ifs at hr
  have := Except.ok.inj hr
  subst this
  refine ⟨⟨h.nx, h.ny, h.nz, ?_, h.fits, rfl⟩, rfl, rfl, rfl, rfl, ?_⟩
  · simp only [List.length_map]; exact h.len
  · intro v hv
    simp only [List.mem_map] at hv
    obtain ⟨_, _, rfl⟩ := hv; rfl

/-- Resizing to more cells does not enlarge the storage: a lookup at an existing node of
the new geometry leaves it. -/
theorem C21_new_cells_break_storage :
    ∃ L M : Lat ℚ, construct 0 ⟨2, 2, 2⟩ ⟨2, 2, 2⟩ ⟨0, 0, 0⟩ false = .ok L ∧
      resetAndResize 0 L none none (some ⟨4, 4, 4⟩) = .ok M ∧ InLat M 3 3 3 ∧
      M.get (index1d M 3 3 3) = .error .outOfBounds ∧
      valueAt 0 M ⟨19 / 10, 19 / 10, 19 / 10⟩ = .error .outOfBounds := by
  refine ⟨_, _, rfl, rfl, ?_⟩
  unfold InLat
  decide +kernel

/-- Non-vacuity of `C21_resize_partial`. -/
example : ∃ L M : Lat ℚ, construct 0 ⟨2, 2, 2⟩ ⟨2, 2, 2⟩ ⟨0, 0, 0⟩ false = .ok L ∧ WF L ∧
    resetAndResize 0 L (some ⟨4, 4, 6⟩) none none = .ok M ∧ M.cell = ⟨2, 2, 3⟩ := by
  have h : ∃ L : Lat ℚ, construct 0 ⟨2, 2, 2⟩ ⟨2, 2, 2⟩ ⟨0, 0, 0⟩ false = .ok L := ⟨_, rfl⟩
  obtain ⟨L, h⟩ := h
  have hw := construct_wf h
  refine ⟨L, _, h, hw.1, rfl, ?_⟩
  simp only [Option.getD_none, Option.getD_some, hw.2.1, cells]
  norm_num

end Verif.Lattice
