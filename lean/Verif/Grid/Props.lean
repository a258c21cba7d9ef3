import Verif.Grid.Build
/-
Properties C11–C13: the collision-finding grid.
-/
namespace Verif.Grid

/-! ## Specification -/

/-- The contents of cell `i`. -/
def Grid.cellAt (g : Grid) (i : Int) : List Part := if 0 ≤ i then g.cells.getD i.toNat [] else []

/-- Does a callback present the pair consisting of `p` displaced by `k` box lengths
and of `q`? (Equivalently `p` and `q` displaced by `-k`.) A search callback presents
all pairs of its cell, a neighbour callback all pairs of one particle of either list. -/
def presents (g : Grid) (p q : Part) (k : V3 Int) : Call → Bool
  | .search i => decide (k = ⟨0, 0, 0⟩ ∧ p ∈ g.cellAt i ∧ q ∈ g.cellAt i)
  | .neighbor i s j => decide ((s = k ∧ p ∈ g.cellAt i ∧ q ∈ g.cellAt j) ∨
      (s = ⟨-k.x, -k.y, -k.z⟩ ∧ q ∈ g.cellAt i ∧ p ∈ g.cellAt j))

/-- The number of times a pair is presented during an iteration. -/
def timesPresented (g : Grid) (calls : List Call) (p q : Part) (k : V3 Int) : Nat :=
  calls.countP (presents g p q k)

/-- Closer than `r` in every coordinate (in particular every pair closer than `r`). -/
def CloserThan (r : ℚ) (p q : Part) : Prop :=
  |q.pos.x - p.pos.x| < r ∧ |q.pos.y - p.pos.y| < r ∧ |q.pos.z - p.pos.z| < r

/-- All cell numbers a callback refers to. -/
def Call.cells : Call → List Int
  | .search i => [i]
  | .neighbor i _ j => [i, j]

/-! ## What a successful construction gives -/

/-- The grid as seen by its users: coordinates of each particle on it. -/
structure Placed (g : Grid) (ps : List Part) (on : Part → Bool) (coord : Part → V3 Int) : Prop where
  size : (g.cells.length : Int) = g.n.x * g.n.y * g.n.z
  range : ∀ p ∈ ps, on p = true → InRange g.n (coord p)
  cell : ∀ i : Nat, i < g.cells.length → g.cells.getD i [] =
    ps.filter (fun p => on p && (makeIndex g.n (coord p) == (i : Int)))

theorem Placed.mem_cellAt {g : Grid} {ps : List Part} {on : Part → Bool} {coord : Part → V3 Int}
    (h : Placed g ps on coord) {p : Part} (hp : p ∈ ps) (hon : on p = true) (i : Int) :
    p ∈ g.cellAt i ↔ i = makeIndex g.n (coord p) := by
  have hb := makeIndex_range (h.range p hp hon)
  unfold Grid.cellAt
  by_cases h0 : 0 ≤ i
  · rw [if_pos h0]
    by_cases h1 : i.toNat < g.cells.length
    · rw [h.cell _ h1]
      simp only [List.mem_filter, hp, hon, Bool.true_and, true_and, beq_iff_eq]
      omega
    · rw [List.getD_eq_getElem?_getD, List.getElem?_eq_none (by omega)]
      simp only [Option.getD_none, List.not_mem_nil, false_iff]
      have := h.size
      omega
  · rw [if_neg h0]
    simp only [List.not_mem_nil, false_iff]
    omega

theorem single_placed (ps : List Part) (on : Part → Bool) :
    Placed ⟨⟨1, 1, 1⟩, [ps.filter on]⟩ ps on (fun _ => ⟨0, 0, 0⟩) := by
  refine ⟨by simp, fun _ _ _ => by simp [InRange], ?_⟩
  intro i hi
  simp only [List.length_cons, List.length_nil, zero_add, Nat.lt_one_iff] at hi
  subst hi
  simp [makeIndex]

/-- Which particles are on the grid: with the largest cells and normal boundaries all of
them, otherwise the formed ones (or all if asked for). -/
def onGrid (o : Options) (incl : Bool) (st : Strategy) (p : Part) : Bool :=
  (decide (o = .normal ∧ st = .largest)) || included incl p

theorem build_placed {o : Options} {prev : ℚ → ℚ} {lo len : V3 ℚ} {ps : List Part} {l : ℚ}
    {lim : Limit} {incl : Bool} {st : Strategy} {g : Grid} (hl : 0 < l) (hprev : GoodPrev prev)
    (hne : ps ≠ []) (hx : 0 ≤ len.x) (hy : 0 ≤ len.y) (hz : 0 ≤ len.z)
    (hbox : ∀ p ∈ ps, onGrid o incl st p = true → InBox lo len p)
    (h : build o prev lo len ps l lim incl st = .ok g) :
    (∃ coord, Placed g ps (onGrid o incl st) coord ∧ g.n = ⟨1, 1, 1⟩ ∧ o = .normal) ∨
    (∃ f : V3 ℚ, Placed g ps (onGrid o incl st) (coordOf f lo) ∧
      ¬ (o = .normal ∧ st = .largest) ∧
      axis o st lim prev (maxCells o ps.length) l len.x = .ok (g.n.x, f.x) ∧
      axis o st lim prev (maxCells o ps.length) l len.y = .ok (g.n.y, f.y) ∧
      axis o st lim prev (maxCells o ps.length) l len.z = .ok (g.n.z, f.z)) := by
  unfold build at h
  by_cases hs : o = .normal ∧ st = .largest
  · rw [if_pos hs] at h
    simp only [pure, Except.pure, Except.ok.injEq] at h
    subst h
    left
    refine ⟨fun _ => ⟨0, 0, 0⟩, ?_, rfl, hs.1⟩
    have := single_placed ps (onGrid o incl st)
    have e : ps.filter (onGrid o incl st) = ps := by
      rw [List.filter_eq_self]; intro p _; simp [onGrid, hs]
    rwa [e] at this
  · rw [if_neg hs] at h
    have hon : ∀ p, onGrid o incl st p = included incl p := by
      intro p; simp [onGrid, hs]
    have hm := maxCells_pos (o := o) hne
    simp only [bind, Except.bind] at h
    cases ex : axis o st lim prev (maxCells o ps.length) l len.x with
    | error e => rw [ex] at h; cases h
    | ok ax =>
    cases ey : axis o st lim prev (maxCells o ps.length) l len.y with
    | error e => rw [ex, ey] at h; cases h
    | ok ay =>
    cases ez : axis o st lim prev (maxCells o ps.length) l len.z with
    | error e => rw [ex, ey, ez] at h; cases h
    | ok az =>
    obtain ⟨nx, fx⟩ := ax
    obtain ⟨ny, fy⟩ := ay
    obtain ⟨nz, fz⟩ := az
    rw [ex, ey, ez] at h
    simp only at h
    split at h
    · rename_i hsmall
      simp only [pure, Except.pure, Except.ok.injEq] at h
      subst h
      left
      refine ⟨fun _ => ⟨0, 0, 0⟩, ?_, rfl, hsmall.1⟩
      have := single_placed ps (onGrid o incl st)
      have e : ps.filter (onGrid o incl st) = ps.filter (fun p => incl || p.active) := by
        congr 1; funext p; rw [hon]; rfl
      rwa [e] at this
    split at h
    · cases h
    · have ax := axis_ok hl hx hprev hm.1 hm.2 hs ex
      have ay := axis_ok hl hy hprev hm.1 hm.2 hs ey
      have az := axis_ok hl hz hprev hm.1 hm.2 hs ez
      right
      refine ⟨⟨fx, fy, fz⟩, ?_, hs, ?_⟩
      · obtain ⟨cells', e, hlen, hc⟩ := place_ok (n := ⟨nx, ny, nz⟩) (f := ⟨fx, fy, fz⟩)
          (lo := lo) (incl := incl) ax.1.n_lt ay.1.n_lt az.1.n_lt ps
          (fun p hp hin => coord_inRange (o := o) (l := l) (len := len) ax.1 ay.1 az.1
            (hbox p hp (by rw [hon]; exact hin)))
          (List.replicate (nx * ny * nz).toNat [])
          (by
            rw [List.length_replicate]
            have : 0 ≤ nx * ny * nz :=
              mul_nonneg (mul_nonneg (by have := ax.1.n_pos; omega) (by have := ay.1.n_pos; omega))
                (by have := az.1.n_pos; omega)
            simp only
            omega)
        rw [e] at h
        simp only [pure, Except.pure, Except.ok.injEq] at h
        subst h
        have hpos : 0 ≤ nx * ny * nz :=
              mul_nonneg (mul_nonneg (by have := ax.1.n_pos; omega) (by have := ay.1.n_pos; omega))
                (by have := az.1.n_pos; omega)
        refine ⟨?_, ?_, ?_⟩
        · simp only [hlen, List.length_replicate]; omega
        · intro p hp hin
          exact coord_inRange (o := o) (l := l) (len := len) ax.1 ay.1 az.1 (hbox p hp hin)
        · intro i hi
          simp only [hlen] at hi
          simp only
          rw [hc i hi]
          simp only [List.length_replicate] at hi
          simp only [List.getD_eq_getElem?_getD, List.getElem?_replicate, hi, if_true,
            Option.getD_some, List.nil_append]
          congr 1
          funext p
          rw [hon]
      · cases hpl : place ⟨nx, ny, nz⟩ ⟨fx, fy, fz⟩ lo incl ps
            (List.replicate (nx * ny * nz).toNat []) with
        | error e => rw [hpl] at h; cases h
        | ok c =>
          rw [hpl] at h
          simp only [pure, Except.pure, Except.ok.injEq] at h
          subst h
          exact ⟨rfl, rfl, rfl⟩

theorem flatten_perm {α : Type} (l : List α) (m : Nat) (key : α → Nat) (h : ∀ a ∈ l, key a < m) :
    (((List.range m).map (fun i => l.filter (fun a => key a == i))).flatten).Perm l := by
  induction l with
  | nil => simp
  | cons a l ih =>
    have ih := ih (fun b hb => h b (List.mem_cons_of_mem _ hb))
    have ha := h a List.mem_cons_self
    have split : List.range m = List.range (key a) ++ key a ::
        (List.range (m - key a - 1)).map (fun i => key a + 1 + i) := by
      have e1 : m = (key a + 1) + (m - key a - 1) := by omega
      conv_lhs => rw [e1]
      rw [List.range_add, List.range_succ]
      simp
    have hA : ∀ i ∈ List.range (key a),
        (a :: l).filter (fun b => key b == i) = l.filter (fun b => key b == i) := by
      intro i hi
      rw [List.mem_range] at hi
      rw [List.filter_cons_of_neg]; simp; omega
    have hB : ∀ i ∈ (List.range (m - key a - 1)).map (fun i => key a + 1 + i),
        (a :: l).filter (fun b => key b == i) = l.filter (fun b => key b == i) := by
      intro i hi
      rw [List.mem_map] at hi
      obtain ⟨j, _, rfl⟩ := hi
      rw [List.filter_cons_of_neg]; simp; omega
    rw [split] at ih ⊢
    rw [List.map_append, List.map_cons, List.flatten_append, List.flatten_cons] at ih ⊢
    rw [List.map_congr_left hA, List.map_congr_left hB, List.filter_cons_of_pos (by simp)]
    refine List.Perm.trans ?_ (List.Perm.cons a ih)
    rw [List.cons_append]
    exact List.perm_middle

theorem Placed.perm {g : Grid} {ps : List Part} {on : Part → Bool} {coord : Part → V3 Int}
    (h : Placed g ps on coord) : g.cells.flatten.Perm (ps.filter on) := by
  have hcells : g.cells = (List.range g.cells.length).map (fun i =>
      (ps.filter on).filter (fun p => (makeIndex g.n (coord p)).toNat == i)) := by
    apply List.ext_getElem
    · simp
    · intro i h1 h2
      have hc := h.cell i h1
      rw [List.getD_eq_getElem?_getD, List.getElem?_eq_getElem h1, Option.getD_some] at hc
      rw [hc, List.getElem_map, List.getElem_range, List.filter_filter]
      apply List.filter_congr
      intro p hp
      by_cases hon : on p = true
      · have hb := makeIndex_range (h.range p hp hon)
        simp only [hon, Bool.true_and, Bool.and_true]
        rw [Bool.eq_iff_iff]
        simp only [beq_iff_eq]
        omega
      · simp [hon]
  rw [hcells]
  apply flatten_perm
  intro p hp
  rw [List.mem_filter] at hp
  have hb := makeIndex_range (h.range p hp.1 hp.2)
  have := h.size
  omega

/-! ## C11 -/

/-- C11: in a successfully built grid (any boundary type, cell size strategy and limit)
the cells together contain exactly the particles that are to be on the grid, each once;
each is in precisely one cell. In particular every particle with positive cross-section
scaling factor is in exactly one cell. -/
theorem C11_each_particle_in_one_cell {o : Options} {prev : ℚ → ℚ} {lo len : V3 ℚ}
    {ps : List Part} {l : ℚ} {lim : Limit} {incl : Bool} {st : Strategy} {g : Grid}
    (hl : 0 < l) (hprev : GoodPrev prev) (hne : ps ≠ [])
    (hx : 0 ≤ len.x) (hy : 0 ≤ len.y) (hz : 0 ≤ len.z) (hbox : ∀ p ∈ ps, InBox lo len p)
    (h : build o prev lo len ps l lim incl st = .ok g) :
    g.cells.flatten.Perm (ps.filter (onGrid o incl st)) ∧
    (g.cells.length : Int) = g.n.x * g.n.y * g.n.z ∧
    ∀ p ∈ ps, p.active = true → ∃! i : Int, p ∈ g.cellAt i := by
  have key : ∃ coord, Placed g ps (onGrid o incl st) coord := by
    rcases build_placed hl hprev hne hx hy hz (fun p hp _ => hbox p hp) h with ⟨c, hc, _⟩ | ⟨f, hf, _⟩
    · exact ⟨c, hc⟩
    · exact ⟨_, hf⟩
  obtain ⟨coord, hc⟩ := key
  refine ⟨hc.perm, hc.size, ?_⟩
  intro p hp hact
  have hon : onGrid o incl st p = true := by simp [onGrid, included, hact]
  refine ⟨_, (hc.mem_cellAt hp hon _).2 rfl, ?_⟩
  intro j hj
  exact (hc.mem_cellAt hp hon j).1 hj

/-- C11: the cell of a particle is the one that contains its position: there are cell
widths `wx, wy, wz > 0` such that the particle in the cell with coordinates `c` lies in
`[lo + c·w, lo + (c+1)·w)`; unless everything is in one cell, the widths are at least
`l` (for the optimal strategy). -/
theorem C11_cell_contains_position {o : Options} {prev : ℚ → ℚ} {lo len : V3 ℚ}
    {ps : List Part} {l : ℚ} {lim : Limit} {incl : Bool} {st : Strategy} {g : Grid}
    (hl : 0 < l) (hprev : GoodPrev prev) (hne : ps ≠ [])
    (hx : 0 ≤ len.x) (hy : 0 ≤ len.y) (hz : 0 ≤ len.z) (hbox : ∀ p ∈ ps, InBox lo len p)
    (h : build o prev lo len ps l lim incl st = .ok g) :
    g.cells.length = 1 ∨ ∃ w : V3 ℚ, 0 < w.x ∧ 0 < w.y ∧ 0 < w.z ∧
      (st = .optimal → l ≤ w.x ∧ l ≤ w.y ∧ l ≤ w.z) ∧
      ∀ p ∈ ps, ∀ c : V3 Int, InRange g.n c → p ∈ g.cellAt (makeIndex g.n c) →
        (lo.x + c.x * w.x ≤ p.pos.x ∧ p.pos.x < lo.x + (c.x + 1) * w.x) ∧
        (lo.y + c.y * w.y ≤ p.pos.y ∧ p.pos.y < lo.y + (c.y + 1) * w.y) ∧
        (lo.z + c.z * w.z ≤ p.pos.z ∧ p.pos.z < lo.z + (c.z + 1) * w.z) := by
  rcases build_placed hl hprev hne hx hy hz (fun p hp _ => hbox p hp) h with
    ⟨c, hc, hn, _⟩ | ⟨f, hc, hs, ex, ey, ez⟩
  · left
    have := hc.size
    rw [hn] at this
    simp only [mul_one] at this
    exact_mod_cast this
  · right
    have hm := maxCells_pos (o := o) hne
    have ax := axis_ok hl hx hprev hm.1 hm.2 hs ex
    have ay := axis_ok hl hy hprev hm.1 hm.2 hs ey
    have az := axis_ok hl hz hprev hm.1 hm.2 hs ez
    have fx := ax.1.f_pos
    have fy := ay.1.f_pos
    have fz := az.1.f_pos
    have inv : ∀ {f : ℚ}, 0 < f → f ≤ 1 / l → l ≤ 1 / f := by
      intro f hf h
      rw [le_div_iff₀ hl] at h
      rw [le_div_iff₀ hf]; linarith
    refine ⟨⟨1 / f.x, 1 / f.y, 1 / f.z⟩, by positivity, by positivity, by positivity, ?_, ?_⟩
    · intro ho
      exact ⟨inv fx (ax.2.1 ho).1, inv fy (ay.2.1 ho).1, inv fz (az.2.1 ho).1⟩
    · intro p hp c hcr hmem
      have hon : onGrid o incl st p = true := by
        have hb := makeIndex_range hcr
        unfold Grid.cellAt at hmem
        rw [if_pos hb.1, hc.cell _ (by have := hc.size; omega)] at hmem
        have := (List.mem_filter.1 hmem).2
        rw [Bool.and_eq_true] at this
        exact this.1
      have he := (hc.mem_cellAt hp hon _).1 hmem
      have hcc : c = coordOf f lo p := makeIndex_inj hcr (hc.range p hp hon) he
      have one : ∀ {a b f : ℚ}, 0 < f → a + ⌊(b - a) * f⌋ * (1 / f) ≤ b ∧
          b < a + (⌊(b - a) * f⌋ + 1) * (1 / f) := by
        intro a b f hf
        have h1 := Int.floor_le ((b - a) * f)
        have h2 := Int.lt_floor_add_one ((b - a) * f)
        constructor
        · rw [mul_one_div]
          have : (⌊(b - a) * f⌋ : ℚ) / f ≤ b - a := by rw [div_le_iff₀ hf]; exact h1
          linarith
        · rw [mul_one_div]
          have : b - a < ((⌊(b - a) * f⌋ : ℚ) + 1) / f := by rw [lt_div_iff₀ hf]; exact h2
          linarith
      subst hcc
      exact ⟨one fx, one fy, one fz⟩

/-- C11: for a non-empty particle list the construction with normal boundaries never
accesses a cell outside the array; it succeeds unless the particles are too far apart
(a documented exception) or the total number of cells does not fit into an `int`. -/
theorem C11_normal_never_out_of_bounds {prev : ℚ → ℚ} {ps : List Part} {l : ℚ}
    {lim : Limit} {incl : Bool} {st : Strategy} (hl : 0 < l) (hprev : GoodPrev prev)
    (hne : ps ≠ []) :
    (∃ g, buildAuto .normal prev ps l lim incl st = .ok g) ∨
      buildAuto .normal prev ps l lim incl st = .error .overflowError ∨
      buildAuto .normal prev ps l lim incl st = .error .intOverflow := by
  obtain ⟨lo, len, e, hbox, hx, hy, hz⟩ := findMinAndLength_ok hne
  have eb : buildAuto .normal prev ps l lim incl st =
      build .normal prev lo len ps l lim incl st := by
    unfold buildAuto; rw [e]; rfl
  rw [eb]
  unfold build
  by_cases hs : (Options.normal = .normal) ∧ st = .largest
  · rw [if_pos hs]; exact .inl ⟨_, rfl⟩
  · rw [if_neg hs]
    have hm := maxCells_pos (o := .normal) hne
    simp only [bind, Except.bind]
    have only : ∀ {x : ℚ} {er : Err},
        axis .normal st lim prev (maxCells .normal ps.length) l x = .error er →
        er = .overflowError := by
      intro x er h
      rcases axis_err h with h | h
      · exact h.1
      · exact absurd h.2.1 (by simp)
    cases ex : axis .normal st lim prev (maxCells .normal ps.length) l len.x with
    | error er => simp [only ex]
    | ok ax =>
    cases ey : axis .normal st lim prev (maxCells .normal ps.length) l len.y with
    | error er => simp [only ey]
    | ok ay =>
    cases ez : axis .normal st lim prev (maxCells .normal ps.length) l len.z with
    | error er => simp [only ez]
    | ok az =>
    obtain ⟨nx, fx⟩ := ax
    obtain ⟨ny, fy⟩ := ay
    obtain ⟨nz, fz⟩ := az
    have ax := axis_ok hl hx hprev hm.1 hm.2 hs ex
    have ay := axis_ok hl hy hprev hm.1 hm.2 hs ey
    have az := axis_ok hl hz hprev hm.1 hm.2 hs ez
    simp only
    split
    · exact .inl ⟨_, rfl⟩
    split
    · exact .inr (.inr rfl)
    · have hpos : 0 ≤ nx * ny * nz :=
        mul_nonneg (mul_nonneg (by have := ax.1.n_pos; omega) (by have := ay.1.n_pos; omega))
          (by have := az.1.n_pos; omega)
      obtain ⟨cells', e, _⟩ := place_ok (n := ⟨nx, ny, nz⟩) (f := ⟨fx, fy, fz⟩)
        (lo := lo) (incl := incl) ax.1.n_lt ay.1.n_lt az.1.n_lt ps
        (fun p hp _ => coord_inRange (o := .normal) (l := l) (len := len) ax.1 ay.1 az.1
          (hbox p hp))
        (List.replicate (nx * ny * nz).toNat [])
        (by rw [List.length_replicate]; simp only; omega)
      rw [e]
      exact .inl ⟨_, rfl⟩

/-! ## C12 -/

theorem countP_le_one {α : Type} {l : List α} {P : α → Bool} (hnd : l.Nodup)
    (h : ∀ a ∈ l, ∀ b ∈ l, P a = true → P b = true → a = b) : l.countP P ≤ 1 := by
  induction l with
  | nil => simp
  | cons a l ih =>
    have ha := List.nodup_cons.1 hnd
    by_cases hp : P a = true
    · rw [List.countP_cons_of_pos hp]
      have : l.countP P = 0 := by
        rw [List.countP_eq_zero]
        intro b hb hpb
        have := h a List.mem_cons_self b (List.mem_cons_of_mem _ hb) hp hpb
        exact ha.1 (this ▸ hb)
      omega
    · rw [List.countP_cons_of_neg hp]
      exact ih ha.2 (fun x hx y hy => h x (List.mem_cons_of_mem _ hx) y (List.mem_cons_of_mem _ hy))

theorem presents_cases {g : Grid} {ps : List Part} {on : Part → Bool} {coord : Part → V3 Int}
    (h : Placed g ps on coord) {p q : Part} (hp : p ∈ ps) (hq : q ∈ ps) (hop : on p = true)
    (hoq : on q = true) (k : V3 Int) (c : Call) :
    presents g p q k c = true ↔
      (k = ⟨0, 0, 0⟩ ∧ coord p = coord q ∧ c = .search (makeIndex g.n (coord p))) ∨
      c = .neighbor (makeIndex g.n (coord p)) k (makeIndex g.n (coord q)) ∨
      c = .neighbor (makeIndex g.n (coord q)) ⟨-k.x, -k.y, -k.z⟩ (makeIndex g.n (coord p)) := by
  have mp := h.mem_cellAt hp hop
  have mq := h.mem_cellAt hq hoq
  cases c with
  | search i =>
    simp only [presents, decide_eq_true_eq, mp, mq, reduceCtorEq, or_false, Call.search.injEq]
    constructor
    · rintro ⟨h1, h2, h3⟩
      exact ⟨h1, makeIndex_inj (h.range p hp hop) (h.range q hq hoq) (by rw [← h2, h3]), h2⟩
    · rintro ⟨h1, h2, h3⟩
      exact ⟨h1, h3, by rw [h3, h2]⟩
  | neighbor i s j =>
    simp only [presents, decide_eq_true_eq, mp, mq, reduceCtorEq, and_false, false_or,
      Call.neighbor.injEq]
    constructor
    · rintro (⟨h1, h2, h3⟩ | ⟨h1, h2, h3⟩)
      · exact .inl ⟨h2, h1, h3⟩
      · exact .inr ⟨h2, h1, h3⟩
    · rintro (⟨h1, h2, h3⟩ | ⟨h1, h2, h3⟩)
      · exact .inl ⟨h2, h1, h3⟩
      · exact .inr ⟨h2, h1, h3⟩

/-- Among the calls for one pair and one image at most one occurs. -/
theorem presented_le_one {g : Grid} {ps : List Part} {on : Part → Bool} {coord : Part → V3 Int}
    (h : Placed g ps on coord) {calls : List Call} (hnd : calls.Nodup)
    (hN : ∀ i s j, Call.neighbor i s j ∈ calls → ∃ a b, InRange g.n a ∧ InRange g.n b ∧
      i = makeIndex g.n a ∧ j = makeIndex g.n b ∧
      0 < makeIndex g.n ⟨b.x - a.x - s.x * g.n.x, b.y - a.y - s.y * g.n.y,
        b.z - a.z - s.z * g.n.z⟩)
    {p q : Part} (hp : p ∈ ps) (hq : q ∈ ps) (hop : on p = true) (hoq : on q = true)
    (k : V3 Int) : timesPresented g calls p q k ≤ 1 := by
  apply countP_le_one hnd
  have rp := h.range p hp hop
  have rq := h.range q hq hoq
  -- displacement belonging to the two possible neighbour calls
  have d1 : Call.neighbor (makeIndex g.n (coord p)) k (makeIndex g.n (coord q)) ∈ calls →
      0 < makeIndex g.n ⟨(coord q).x - (coord p).x - k.x * g.n.x,
        (coord q).y - (coord p).y - k.y * g.n.y, (coord q).z - (coord p).z - k.z * g.n.z⟩ := by
    intro hm
    obtain ⟨a, b, ha, hb, ea, eb, hpos⟩ := hN _ _ _ hm
    rw [makeIndex_inj rp ha ea, makeIndex_inj rq hb eb]
    exact hpos
  have d2 : Call.neighbor (makeIndex g.n (coord q)) ⟨-k.x, -k.y, -k.z⟩
      (makeIndex g.n (coord p)) ∈ calls →
      makeIndex g.n ⟨(coord q).x - (coord p).x - k.x * g.n.x,
        (coord q).y - (coord p).y - k.y * g.n.y, (coord q).z - (coord p).z - k.z * g.n.z⟩ < 0 := by
    intro hm
    obtain ⟨a, b, ha, hb, ea, eb, hpos⟩ := hN _ _ _ hm
    rw [← makeIndex_inj rq ha ea, ← makeIndex_inj rp hb eb] at hpos
    have : makeIndex g.n ⟨(coord q).x - (coord p).x - k.x * g.n.x,
        (coord q).y - (coord p).y - k.y * g.n.y, (coord q).z - (coord p).z - k.z * g.n.z⟩ =
        -makeIndex g.n ⟨(coord p).x - (coord q).x - -k.x * g.n.x,
        (coord p).y - (coord q).y - -k.y * g.n.y, (coord p).z - (coord q).z - -k.z * g.n.z⟩ := by
      unfold makeIndex; ring
    simp only at hpos
    omega
  have d0 : k = ⟨0, 0, 0⟩ → coord p = coord q → makeIndex g.n
      ⟨(coord q).x - (coord p).x - k.x * g.n.x,
        (coord q).y - (coord p).y - k.y * g.n.y, (coord q).z - (coord p).z - k.z * g.n.z⟩ = 0 := by
    intro h1 h2
    rw [h1, h2]; unfold makeIndex; ring
  intro a ha b hb pa pb
  rw [presents_cases h hp hq hop hoq] at pa pb
  rcases pa with ⟨ka, ca, ea⟩ | ea | ea <;> rcases pb with ⟨kb, cb, eb⟩ | eb | eb <;>
    (try rw [ea, eb]) <;> exfalso <;> rw [ea] at ha <;> rw [eb] at hb
  · have := d0 ka ca; have := d1 hb; omega
  · have := d0 ka ca; have := d2 hb; omega
  · have := d0 kb cb; have := d1 ha; omega
  · have := d1 ha; have := d2 hb; omega
  · have := d0 kb cb; have := d2 ha; omega
  · have := d2 ha; have := d1 hb; omega

/-- C12: with normal boundaries every pair of distinct particles on the grid that are
closer than the minimal cell length is presented exactly once, and no pair is presented
more than once. -/
theorem C12_pairs_exactly_once {prev : ℚ → ℚ} {ps : List Part} {l : ℚ} {lim : Limit}
    {incl : Bool} {st : Strategy} {g : Grid} (hl : 0 < l) (hprev : GoodPrev prev) (hne : ps ≠ [])
    (h : buildAuto .normal prev ps l lim incl st = .ok g)
    {p q : Part} (hp : p ∈ ps) (hq : q ∈ ps)
    (hop : onGrid .normal incl st p = true) (hoq : onGrid .normal incl st q = true) :
    timesPresented g (normalCalls g.n) p q ⟨0, 0, 0⟩ ≤ 1 ∧
    (CloserThan l p q → timesPresented g (normalCalls g.n) p q ⟨0, 0, 0⟩ = 1) := by
  obtain ⟨lo, len, e, hbox, hx, hy, hz⟩ := findMinAndLength_ok hne
  have eb : buildAuto .normal prev ps l lim incl st =
      build .normal prev lo len ps l lim incl st := by
    unfold buildAuto; rw [e]; rfl
  rw [eb] at h
  have hm := maxCells_pos (o := .normal) hne
  have key : ∃ coord, Placed g ps (onGrid .normal incl st) coord ∧
      (CloserThan l p q → Near ⟨(coord q).x - (coord p).x, (coord q).y - (coord p).y,
        (coord q).z - (coord p).z⟩) := by
    rcases build_placed hl hprev hne hx hy hz (fun p hp _ => hbox p hp) h with
      ⟨c, hc, hn, _⟩ | ⟨f, hc, hs, ex, ey, ez⟩
    · refine ⟨c, hc, fun _ => ?_⟩
      have rp := hc.range p hp hop
      have rq := hc.range q hq hoq
      rw [hn] at rp rq
      obtain ⟨a1, a2, a3⟩ := rp
      obtain ⟨b1, b2, b3⟩ := rq
      simp only at a1 a2 a3 b1 b2 b3
      unfold Near
      simp only
      omega
    · refine ⟨_, hc, fun hclose => ?_⟩
      have ho : st = .optimal := by
        cases st with
        | optimal => rfl
        | largest => exact absurd ⟨rfl, rfl⟩ hs
      have ax := axis_ok hl hx hprev hm.1 hm.2 hs ex
      have ay := axis_ok hl hy hprev hm.1 hm.2 hs ey
      have az := axis_ok hl hz hprev hm.1 hm.2 hs ez
      obtain ⟨c1, c2, c3⟩ := hclose
      refine ⟨floor_close hl ax.1.f_pos (ax.2.1 ho).1 ?_,
        floor_close hl ay.1.f_pos (ay.2.1 ho).1 ?_, floor_close hl az.1.f_pos (az.2.1 ho).1 ?_⟩
      · have : q.pos.x - lo.x - (p.pos.x - lo.x) = q.pos.x - p.pos.x := by ring
        rw [this]; exact c1
      · have : q.pos.y - lo.y - (p.pos.y - lo.y) = q.pos.y - p.pos.y := by ring
        rw [this]; exact c2
      · have : q.pos.z - lo.z - (p.pos.z - lo.z) = q.pos.z - p.pos.z := by ring
        rw [this]; exact c3
  obtain ⟨coord, hc, hnear⟩ := key
  have rp := hc.range p hp hop
  have rq := hc.range q hq hoq
  have hle : timesPresented g (normalCalls g.n) p q ⟨0, 0, 0⟩ ≤ 1 := by
    apply presented_le_one hc (normalCalls_nodup g.n) _ hp hq hop hoq
    intro i s j hm
    obtain ⟨hs, a, b, ha, hb, ea, eb, _, hlt⟩ := neighbor_mem_normal.1 hm
    refine ⟨a, b, ha, hb, ea, eb, ?_⟩
    have : makeIndex g.n ⟨b.x - a.x - s.x * g.n.x, b.y - a.y - s.y * g.n.y,
        b.z - a.z - s.z * g.n.z⟩ = makeIndex g.n b - makeIndex g.n a := by
      rw [hs]; unfold makeIndex; ring
    omega
  refine ⟨hle, fun hclose => le_antisymm hle ?_⟩
  have hn := hnear hclose
  unfold timesPresented
  rw [Nat.succ_le_iff, List.countP_pos_iff]
  by_cases hsame : coord p = coord q
  · refine ⟨.search (makeIndex g.n (coord p)), search_mem_normal.2 ⟨_, rp, rfl⟩, ?_⟩
    rw [presents_cases hc hp hq hop hoq]
    exact .inl ⟨rfl, hsame, rfl⟩
  · have hne' : makeIndex g.n (coord p) ≠ makeIndex g.n (coord q) :=
      fun h => hsame (makeIndex_inj rp rq h)
    rcases lt_or_gt_of_ne hne' with hlt | hlt
    · refine ⟨.neighbor (makeIndex g.n (coord p)) ⟨0, 0, 0⟩ (makeIndex g.n (coord q)),
        neighbor_mem_normal.2 ⟨rfl, _, _, rp, rq, rfl, rfl, hn, hlt⟩, ?_⟩
      rw [presents_cases hc hp hq hop hoq]
      exact .inr (.inl rfl)
    · refine ⟨.neighbor (makeIndex g.n (coord q)) ⟨0, 0, 0⟩ (makeIndex g.n (coord p)),
        neighbor_mem_normal.2 ⟨rfl, _, _, rq, rp, rfl, rfl, ?_, hlt⟩, ?_⟩
      · obtain ⟨h1, h2, h3⟩ := hn
        unfold Near
        simp only at h1 h2 h3 ⊢
        omega
      · rw [presents_cases hc hp hq hop hoq]
        exact .inr (.inr (by simp))

/-- C12: every callback refers to existing cells. -/
theorem C12_calls_in_bounds {n : V3 Int} {c : Call} (hc : c ∈ normalCalls n) :
    ∀ i ∈ c.cells, 0 ≤ i ∧ i < n.x * n.y * n.z := by
  cases c with
  | search i =>
    obtain ⟨a, ha, rfl⟩ := search_mem_normal.1 hc
    simp only [Call.cells, List.mem_singleton, forall_eq]
    exact makeIndex_range ha
  | neighbor i s j =>
    obtain ⟨_, a, b, ha, hb, rfl, rfl, _⟩ := neighbor_mem_normal.1 hc
    simp only [Call.cells, List.mem_cons, List.not_mem_nil, or_false, forall_eq_or_imp, forall_eq]
    exact ⟨makeIndex_range ha, makeIndex_range hb⟩

/-! ## C13 -/

/-- `q` and the image of `p` displaced by `k` box lengths are closer than `r`. -/
def ImageCloserThan (r : V3 ℚ) (len : V3 ℚ) (k : V3 Int) (p q : Part) : Prop :=
  |q.pos.x - p.pos.x - k.x * len.x| < r.x ∧ |q.pos.y - p.pos.y - k.y * len.y| < r.y ∧
    |q.pos.z - p.pos.z - k.z * len.z| < r.z

theorem near_zero {n d : V3 Int} (hn : AtLeast2 n) (h : Near d) (h0 : makeIndex n d = 0) :
    d.x = 0 ∧ d.y = 0 ∧ d.z = 0 := by
  obtain ⟨⟨a1, a2⟩, ⟨b1, b2⟩, c1, c2⟩ := h
  obtain ⟨n1, n2, n3⟩ := hn
  unfold makeIndex at h0
  have hm : d.z * n.y + d.y = 0 := by
    by_contra hne
    rcases lt_or_gt_of_ne hne with hlt | hgt
    · have : (d.z * n.y + d.y) * n.x ≤ (-1) * n.x := mul_le_mul_of_nonneg_right (by omega) (by omega)
      omega
    · have : 1 * n.x ≤ (d.z * n.y + d.y) * n.x := mul_le_mul_of_nonneg_right (by omega) (by omega)
      omega
  have hz : d.z = 0 := by
    by_contra hne
    rcases lt_or_gt_of_ne hne with hlt | hgt
    · have : d.z * n.y ≤ (-1) * n.y := mul_le_mul_of_nonneg_right (by omega) (by omega)
      omega
    · have : 1 * n.y ≤ d.z * n.y := mul_le_mul_of_nonneg_right (by omega) (by omega)
      omega
  rw [hm] at h0
  rw [hz] at hm
  refine ⟨by omega, by omega, hz⟩

theorem same_of_zero {m t u k : Int} (h1 : 0 ≤ t) (h2 : t < m) (h3 : 0 ≤ u) (h4 : u < m)
    (h5 : u - t - k * m = 0) : k = 0 ∧ t = u := by
  have hk : k = 0 := by
    by_contra hne
    rcases lt_or_gt_of_ne hne with hlt | hgt
    · have : k * m ≤ (-1) * m := mul_le_mul_of_nonneg_right (by omega) (by omega)
      omega
    · have : 1 * m ≤ k * m := mul_le_mul_of_nonneg_right (by omega) (by omega)
      omega
  subst hk
  exact ⟨rfl, by omega⟩

/-- C13: with periodic boundaries, for particles in the box and every image `k`, the pair
"`p` displaced by `k` box lengths, `q`" is presented exactly once if it is closer than the
cell length (up to the relative safety margin `δ` of `nextafter` per cell), with the
coordinates of the search particle displaced by exactly `k` box lengths; and never more
than once. Holds for the optimal strategy, and for the largest cells if the box is at
least two minimal cell lengths wide. -/
theorem C13_pairs_exactly_once {prev : ℚ → ℚ} {lo len : V3 ℚ} {ps : List Part} {l δ : ℚ}
    {lim : Limit} {incl : Bool} {st : Strategy} {g : Grid} (hl : 0 < l) (hprev : GoodPrev prev)
    (hδ : 0 ≤ δ) (hprev' : ∀ f, 0 < f → (1 - δ) * f ≤ prev f) (hne : ps ≠ [])
    (hst : st = .optimal ∨ (2 * l ≤ len.x ∧ 2 * l ≤ len.y ∧ 2 * l ≤ len.z))
    (hx : 0 ≤ len.x) (hy : 0 ≤ len.y) (hz : 0 ≤ len.z) (hbox : ∀ p ∈ ps, InBox lo len p)
    (h : build .periodic prev lo len ps l lim incl st = .ok g)
    {p q : Part} (hp : p ∈ ps) (hq : q ∈ ps)
    (hop : included incl p = true) (hoq : included incl q = true) (k : V3 Int) :
    timesPresented g (periodicCalls g.n) p q k ≤ 1 ∧
    (ImageCloserThan ⟨l * (1 - g.n.x * δ), l * (1 - g.n.y * δ), l * (1 - g.n.z * δ)⟩ len k p q →
      timesPresented g (periodicCalls g.n) p q k = 1) := by
  have hm := maxCells_pos (o := .periodic) hne
  have hon : ∀ p, onGrid .periodic incl st p = included incl p := by
    intro p; simp [onGrid]
  rcases build_placed hl hprev hne hx hy hz (fun p hp _ => hbox p hp) h with
    ⟨c, _, _, hno⟩ | ⟨f, hc, hs, ex, ey, ez⟩
  · exact absurd hno (by simp)
  have ax := axis_ok hl hx hprev hm.1 hm.2 hs ex
  have ay := axis_ok hl hy hprev hm.1 hm.2 hs ey
  have az := axis_ok hl hz hprev hm.1 hm.2 hs ez
  have hop' : onGrid .periodic incl st p = true := by rw [hon]; exact hop
  have hoq' : onGrid .periodic incl st q = true := by rw [hon]; exact hoq
  have rp := hc.range p hp hop'
  have rq := hc.range q hq hoq'
  have h2 : AtLeast2 g.n := ⟨ax.1.n_two rfl, ay.1.n_two rfl, az.1.n_two rfl⟩
  have hle : timesPresented g (periodicCalls g.n) p q k ≤ 1 := by
    apply presented_le_one hc (periodicCalls_nodup h2) _ hp hq hop' hoq'
    intro i s j hm
    obtain ⟨a, b, ha, hb, ea, eb, _, hpos⟩ := (neighbor_mem_periodic h2).1 hm
    exact ⟨a, b, ha, hb, ea, eb, hpos⟩
  refine ⟨hle, fun hclose => le_antisymm hle ?_⟩
  -- one axis
  have one : ∀ {len : ℚ} {n : Int} {f a t t' : ℚ} {k : Int},
      axis .periodic st lim prev (maxCells .periodic ps.length) l len = .ok (n, f) →
      0 ≤ len → (st = .optimal ∨ 2 * l ≤ len) →
      a ≤ t → t ≤ a + len → a ≤ t' → t' ≤ a + len →
      |t' - t - k * len| < l * (1 - n * δ) →
      -1 ≤ ⌊(t' - a) * f⌋ - ⌊(t - a) * f⌋ - k * n ∧
        ⌊(t' - a) * f⌋ - ⌊(t - a) * f⌋ - k * n ≤ 1 := by
    intro len n f a t t' k hax hlen hst t1 t2 t3 t4 hcl
    have A := axis_ok hl hlen hprev hm.1 hm.2 hs hax
    have hn2 := A.1.n_two rfl
    have hnq : (2 : ℚ) ≤ n := by exact_mod_cast hn2
    have hcover : l ≤ len := by
      rcases hst with ho | h2
      · by_contra hlt
        have hlt := not_le.1 hlt
        have hfl : ⌊len * (1 / l)⌋ < 2 := by
          rw [Int.floor_lt]; push_cast
          rw [mul_one_div, div_lt_iff₀ hl]; linarith
        -- then construction would have failed
        have : axis .periodic st lim prev (maxCells .periodic ps.length) l len =
            .error .boxTooSmall := by
          unfold axis rawCells
          simp only [bind, Except.bind, ho, reduceCtorEq, if_false]
          have hov : ¬ len > (2 ^ 31 - 1) / (1 / l) := by
            rw [gt_iff_lt, not_lt, le_div_iff₀ (by positivity), mul_one_div, div_le_iff₀ hl]
            linarith
          rw [if_neg hov]
          have c1 : ¬ (⌊len * (1 / l)⌋ = 0 ∧ Options.periodic ≠ .periodic) := fun h => h.2 rfl
          simp only [limitCells]
          rw [if_neg c1, if_pos ⟨hfl, by trivial⟩]
        rw [this] at hax
        cases hax
      · linarith
    have hnl : n * l ≤ len := by
      rcases hst with ho | h2
      · exact (A.2.1 ho).2 hcover
      · cases st with
        | optimal => exact (A.2.1 rfl).2 hcover
        | largest => rw [A.2.2.2 rfl]; push_cast; exact h2
    have hlp : 0 < len := lt_of_lt_of_le hl hcover
    have hq : (0 : ℚ) < n / len := by positivity
    have hf := A.2.2.1 hcover
    have g1 := hprev _ hq
    have g2 := hprev' _ hq
    rw [← hf] at g1 g2
    refine floor_close_periodic hl hn2 hnl g2 g1.2 hδ g1.1 (by linarith) (by linarith)
      (by linarith) (by linarith) ?_
    have : t' - a - (t - a) - k * len = t' - t - k * len := by ring
    rw [this]; exact hcl
  have bp := hbox p hp
  have bq := hbox q hq
  obtain ⟨c1, c2, c3⟩ := hclose
  have hstx : st = .optimal ∨ 2 * l ≤ len.x := hst.imp id (·.1)
  have hsty : st = .optimal ∨ 2 * l ≤ len.y := hst.imp id (·.2.1)
  have hstz : st = .optimal ∨ 2 * l ≤ len.z := hst.imp id (·.2.2)
  have nx := one ex hx hstx bp.1.1 bp.1.2 bq.1.1 bq.1.2 c1
  have ny := one ey hy hsty bp.2.1.1 bp.2.1.2 bq.2.1.1 bq.2.1.2 c2
  have nz := one ez hz hstz bp.2.2.1 bp.2.2.2 bq.2.2.1 bq.2.2.2 c3
  have hn : Near ⟨(coordOf f lo q).x - (coordOf f lo p).x - k.x * g.n.x,
      (coordOf f lo q).y - (coordOf f lo p).y - k.y * g.n.y,
      (coordOf f lo q).z - (coordOf f lo p).z - k.z * g.n.z⟩ := ⟨nx, ny, nz⟩
  unfold timesPresented
  rw [Nat.succ_le_iff, List.countP_pos_iff]
  rcases lt_trichotomy (makeIndex g.n ⟨(coordOf f lo q).x - (coordOf f lo p).x - k.x * g.n.x,
      (coordOf f lo q).y - (coordOf f lo p).y - k.y * g.n.y,
      (coordOf f lo q).z - (coordOf f lo p).z - k.z * g.n.z⟩) 0 with hneg | hzero | hpos
  · refine ⟨.neighbor (makeIndex g.n (coordOf f lo q)) ⟨-k.x, -k.y, -k.z⟩
        (makeIndex g.n (coordOf f lo p)), (neighbor_mem_periodic h2).2
        ⟨_, _, rq, rp, rfl, rfl, ?_, ?_⟩, ?_⟩
    · obtain ⟨h1, h2, h3⟩ := hn
      simp only at h1 h2 h3
      have e1 : -k.x * g.n.x = -(k.x * g.n.x) := by ring
      have e2 : -k.y * g.n.y = -(k.y * g.n.y) := by ring
      have e3 : -k.z * g.n.z = -(k.z * g.n.z) := by ring
      unfold Near
      simp only [e1, e2, e3]
      omega
    · have : makeIndex g.n ⟨(coordOf f lo p).x - (coordOf f lo q).x - -k.x * g.n.x,
        (coordOf f lo p).y - (coordOf f lo q).y - -k.y * g.n.y,
        (coordOf f lo p).z - (coordOf f lo q).z - -k.z * g.n.z⟩ =
        -makeIndex g.n ⟨(coordOf f lo q).x - (coordOf f lo p).x - k.x * g.n.x,
      (coordOf f lo q).y - (coordOf f lo p).y - k.y * g.n.y,
      (coordOf f lo q).z - (coordOf f lo p).z - k.z * g.n.z⟩ := by
        unfold makeIndex; ring
      simp only
      omega
    · rw [presents_cases hc hp hq hop' hoq']
      exact .inr (.inr rfl)
  · obtain ⟨d0, d1, d2⟩ := near_zero h2 hn hzero
    obtain ⟨kx, cx⟩ := same_of_zero rp.1.1 rp.1.2 rq.1.1 rq.1.2 d0
    obtain ⟨ky, cy⟩ := same_of_zero rp.2.1.1 rp.2.1.2 rq.2.1.1 rq.2.1.2 d1
    obtain ⟨kz, cz⟩ := same_of_zero rp.2.2.1 rp.2.2.2 rq.2.2.1 rq.2.2.2 d2
    refine ⟨.search (makeIndex g.n (coordOf f lo p)), search_mem_periodic.2 ⟨_, rp, rfl⟩, ?_⟩
    rw [presents_cases hc hp hq hop' hoq']
    exact .inl ⟨V3.ext kx ky kz, V3.ext cx cy cz, rfl⟩
  · refine ⟨.neighbor (makeIndex g.n (coordOf f lo p)) k (makeIndex g.n (coordOf f lo q)),
      (neighbor_mem_periodic h2).2 ⟨_, _, rp, rq, rfl, rfl, hn, hpos⟩, ?_⟩
    rw [presents_cases hc hp hq hop' hoq']
    exact .inr (.inl rfl)

/-- C13: the image within the cell length is unique, so a close pair is presented once
in total. -/
theorem C13_image_unique {len : V3 ℚ} {l : ℚ} {p q : Part} {k k' : V3 Int}
    (hl : 0 < l) (hx : 2 * l ≤ len.x) (hy : 2 * l ≤ len.y) (hz : 2 * l ≤ len.z)
    (h : ImageCloserThan ⟨l, l, l⟩ len k p q) (h' : ImageCloserThan ⟨l, l, l⟩ len k' p q) :
    k = k' := by
  have one : ∀ {d m : ℚ} {a b : Int}, 2 * l ≤ m → |d - a * m| < l → |d - b * m| < l → a = b := by
    intro d m a b hm h1 h2
    rw [abs_lt] at h1 h2
    have hmpos : 0 < m := by linarith
    have u : ((a : ℚ) - b) * m < 1 * m := by
      have : ((a : ℚ) - b) * m = a * m - b * m := by ring
      linarith [h1.1, h1.2, h2.1, h2.2]
    have v : (-1 : ℚ) * m < ((a : ℚ) - b) * m := by
      have : ((a : ℚ) - b) * m = a * m - b * m := by ring
      linarith [h1.1, h1.2, h2.1, h2.2]
    have u' := lt_of_mul_lt_mul_right u hmpos.le
    have v' := lt_of_mul_lt_mul_right v hmpos.le
    have u'' : a - b < 1 := by exact_mod_cast u'
    have v'' : -1 < a - b := by exact_mod_cast v'
    omega
  exact V3.ext (one hx h.1 h'.1) (one hy h.2.1 h'.2.1) (one hz h.2.2 h'.2.2)

/-- C13: every callback refers to existing cells. -/
theorem C13_calls_in_bounds {n : V3 Int} (hn : AtLeast2 n) {c : Call} (hc : c ∈ periodicCalls n) :
    ∀ i ∈ c.cells, 0 ≤ i ∧ i < n.x * n.y * n.z := by
  cases c with
  | search i =>
    obtain ⟨a, ha, rfl⟩ := search_mem_periodic.1 hc
    simp only [Call.cells, List.mem_singleton, forall_eq]
    exact makeIndex_range ha
  | neighbor i s j =>
    obtain ⟨a, b, ha, hb, rfl, rfl, _⟩ := (neighbor_mem_periodic hn).1 hc
    simp only [Call.cells, List.mem_cons, List.not_mem_nil, or_false, forall_eq_or_imp, forall_eq]
    exact ⟨makeIndex_range ha, makeIndex_range hb⟩

/-! ## Findings and concrete cases -/

/-- A `nextafter` for the examples: relative step 2⁻⁵². -/
def prev52 (f : ℚ) : ℚ := f * (1 - 1 / 2 ^ 52)

theorem prev52_good : GoodPrev prev52 ∧ ∀ f, 0 < f → (1 - 1 / 2 ^ 52) * f ≤ prev52 f := by
  refine ⟨fun f hf => ?_, fun f hf => ?_⟩
  · unfold prev52
    constructor
    · apply mul_pos hf; norm_num
    · nlinarith
  · unfold prev52; rw [mul_comm]

def partAt (i : Nat) (x y z : ℚ) : Part := ⟨i, ⟨x, y, z⟩, true⟩

/-- The total number of cells is computed in an `int` without check: two particles
2000 cell lengths apart in every direction overflow it when the number of cells is not
limited. -/
theorem C11_cell_count_overflows :
    buildAuto .normal prev52 [partAt 0 0 0 0, partAt 1 2000 2000 2000] 1 .none false .optimal =
      .error .intOverflow := by
  decide +kernel

/-- C13 fails for the largest-cells strategy in a box narrower than the minimal cell
length: two particles at a distance of 1/5 across the boundary are not presented with
the image that is close. -/
theorem C13_largest_cells_miss_pair :
    ∃ g, build .periodic prev52 ⟨0, 0, 0⟩ ⟨1, 1, 1⟩
      [partAt 0 (1/10) (1/2) (1/2), partAt 1 (9/10) (1/2) (1/2)] 2 .none false .largest = .ok g ∧
      timesPresented g (periodicCalls g.n) (partAt 0 (1/10) (1/2) (1/2))
        (partAt 1 (9/10) (1/2) (1/2)) ⟨1, 0, 0⟩ = 0 := by
  refine ⟨⟨⟨2, 2, 2⟩, [[partAt 0 (1/10) (1/2) (1/2), partAt 1 (9/10) (1/2) (1/2)],
    [], [], [], [], [], [], []]⟩, ?_, ?_⟩
  · decide +kernel
  · decide +kernel

/-- A normal grid of 4×1×1 cells with three particles, to which C11 and C12 apply. -/
example : ∃ g, buildAuto .normal prev52 [partAt 0 0 0 0, partAt 1 (1/2) 0 0, partAt 2 4 0 0] 1
      .none false .optimal = .ok g ∧
      g.cells.map (·.map (·.id)) = [[0, 1], [], [], [2]] ∧
      timesPresented g (normalCalls g.n) (partAt 0 0 0 0) (partAt 1 (1/2) 0 0) ⟨0, 0, 0⟩ = 1 := by
  refine ⟨⟨⟨4, 1, 1⟩, [[partAt 0 0 0 0, partAt 1 (1/2) 0 0], [], [], [partAt 2 4 0 0]]⟩,
    ?_, ?_, ?_⟩ <;> decide +kernel

/-- A periodic grid of 2×2×2 cells to which C13 applies: the pair across the boundary is
presented once with the close image. -/
example : ∃ g, build .periodic prev52 ⟨0, 0, 0⟩ ⟨2, 2, 2⟩
      [partAt 0 (1/10) (1/2) (1/2), partAt 1 (19/10) (1/2) (1/2)] 1 .none false .optimal = .ok g ∧
      timesPresented g (periodicCalls g.n) (partAt 0 (1/10) (1/2) (1/2))
        (partAt 1 (19/10) (1/2) (1/2)) ⟨1, 0, 0⟩ = 1 := by
  refine ⟨⟨⟨2, 2, 2⟩, [[partAt 0 (1/10) (1/2) (1/2)], [partAt 1 (19/10) (1/2) (1/2)],
    [], [], [], [], [], []]⟩, ?_, ?_⟩ <;> decide +kernel

end Verif.Grid
