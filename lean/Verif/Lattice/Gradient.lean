import Verif.Lattice.Iterate
import Mathlib.Tactic.Module
import Mathlib.Algebra.Module.Rat
/-! C20. -/
namespace Verif.Lattice
variable {T : Type} [AddCommGroup T] [Module ℚ T]

/-- The lattice stores the values of the field `f` (a function of the node). -/
def Stores {U : Type} (L : Lat U) (f : Int → Int → Int → U) : Prop :=
  ∀ ix iy iz, InLat L ix iy iz → L.data[(index1d L ix iy iz).toNat]? = some (f ix iy iz)

theorem Stores.get {U : Type} {L : Lat U} {f : Int → Int → Int → U} (h : WF L) (hf : Stores L f)
    {ix iy iz k : Int} (hc : InLat L ix iy iz) (hk : k = index1d L ix iy iz) :
    L.get k = .ok (f ix iy iz) := by
  subst hk
  unfold Lat.get
  rw [if_neg (by have := (wf_index h hc).1; omega), hf ix iy iz hc]

theorem diff_periodic {L : Lat T} (hper : L.periodic = true) {inv : ℚ} {index i n d D base : Int}
    {g : Int → T} (hi : 0 ≤ i ∧ i < n) (hn : 2 ≤ n) (hD : D = n * d) (hx : index = base + d * i)
    (hg : ∀ j, 0 ≤ j ∧ j < n → L.get (base + d * j) = .ok (g j)) :
    diff L inv index i n d D =
      .ok (inv • (g (stepTo true n i 1) - g (stepTo true n i (-1)))) := by
  rw [stepTo_left hi, stepTo_right hi]
  unfold diff
  simp only [hper, if_true]
  by_cases h0 : i = 0
  · rw [if_pos h0, if_pos h0, if_neg (by omega)]
    have e1 : index + d = base + d * (i + 1) := by rw [hx]; ring
    have e2 : index + D - d = base + d * (n - 1) := by rw [hx, hD, h0]; ring
    rw [e1, e2, hg _ (by omega), hg _ (by omega)]
    rfl
  · rw [if_neg h0, if_neg h0]
    by_cases h1 : i = n - 1
    · rw [if_pos h1, if_pos h1]
      have e1 : index - D + d = base + d * 0 := by rw [hx, hD, h1]; ring
      have e2 : index - d = base + d * (i - 1) := by rw [hx]; ring
      rw [e1, e2, hg _ (by omega), hg _ (by omega)]
      rfl
    · rw [if_neg h1, if_neg h1]
      have e1 : index + d = base + d * (i + 1) := by rw [hx]; ring
      have e2 : index - d = base + d * (i - 1) := by rw [hx]; ring
      rw [e1, e2, hg _ (by omega), hg _ (by omega)]
      rfl

theorem diff_affine {L : Lat T} (hper : L.periodic = false) {index i n d D base : Int}
    {g : Int → T} {a b : T} {o c : ℚ} (hc : c ≠ 0)
    (hi : 0 ≤ i ∧ i < n) (hn : 2 ≤ n) (hx : index = base + d * i)
    (hg : ∀ j, 0 ≤ j ∧ j < n → L.get (base + d * j) = .ok (g j))
    (ha : ∀ j, 0 ≤ j ∧ j < n → g j = a + (o + c * ((j : ℚ) + 1 / 2)) • b) :
    diff L (1 / 2 / c) index i n d D = .ok b := by
  have two : (1 / 2 / c) * (2 * c) = 1 := by field_simp
  unfold diff
  simp only [hper, Bool.false_eq_true, if_false]
  by_cases h0 : i = 0
  · rw [if_pos h0]
    have e1 : index + d = base + d * (i + 1) := by rw [hx]; ring
    rw [e1, hx, hg _ (by omega), hg _ (by omega), ok_bind, ok_bind, ha _ (by omega),
      ha _ (by omega)]
    have : (1 / 2 / c) • ((2 : ℚ) • (a + (o + c * (((i + 1 : Int) : ℚ) + 1 / 2)) • b -
        (a + (o + c * ((i : ℚ) + 1 / 2)) • b))) = ((1 / 2 / c) * (2 * c)) • b := by
      push_cast; module
    rw [this, two, one_smul]; rfl
  · rw [if_neg h0]
    by_cases h1 : i = n - 1
    · rw [if_pos h1]
      have e1 : index - d = base + d * (i - 1) := by rw [hx]; ring
      rw [e1, hx, hg _ (by omega), hg _ (by omega), ok_bind, ok_bind, ha _ (by omega),
        ha _ (by omega)]
      have : (1 / 2 / c) • ((2 : ℚ) • (a + (o + c * ((i : ℚ) + 1 / 2)) • b -
          (a + (o + c * (((i - 1 : Int) : ℚ) + 1 / 2)) • b))) = ((1 / 2 / c) * (2 * c)) • b := by
        push_cast; module
      rw [this, two, one_smul]; rfl
    · rw [if_neg h1]
      have e1 : index + d = base + d * (i + 1) := by rw [hx]; ring
      have e2 : index - d = base + d * (i - 1) := by rw [hx]; ring
      rw [e1, e2, hg _ (by omega), hg _ (by omega), ok_bind, ok_bind, ha _ (by omega),
        ha _ (by omega)]
      have : (1 / 2 / c) • (a + (o + c * (((i + 1 : Int) : ℚ) + 1 / 2)) • b -
          (a + (o + c * (((i - 1 : Int) : ℚ) + 1 / 2)) • b)) = ((1 / 2 / c) * (2 * c)) • b := by
        push_cast; module
      rw [this, two, one_smul]; rfl

theorem mem_nodes {n : V3 Int} {c : V3 Int} :
    c ∈ nodes n ↔ (0 ≤ c.x ∧ c.x < n.x) ∧ (0 ≤ c.y ∧ c.y < n.y) ∧ (0 ≤ c.z ∧ c.z < n.z) := by
  unfold nodes
  simp only [List.mem_flatMap, List.mem_map, mem_loop]
  constructor
  · rintro ⟨z, hz, y, hy, x, hx, rfl⟩; exact ⟨hx, hy, hz⟩
  · rintro ⟨hx, hy, hz⟩; exact ⟨c.z, hz, c.y, hy, c.x, hx, rfl⟩

theorem index_alt (L : Lat T) (c : V3 Int) :
    c.x + (L.n.x * c.y + L.n.x * L.n.y * c.z) = index1d L c.x c.y c.z := by
  unfold index1d; ring

theorem index_inj {L : Lat T} (h : WF L) {c c' : V3 Int} (hc : InLat L c.x c.y c.z)
    (hc' : InLat L c'.x c'.y c'.z)
    (he : index1d L c.x c.y c.z = index1d L c'.x c'.y c'.z) : c = c' := by
  have hr := wf_index h hc
  obtain ⟨u, -, hu⟩ := (C18_index_bijection h).2.1 _ hr.1 hr.2
  have h1 := hu (c.x, c.y, c.z) ⟨hc, rfl⟩
  have h2 := hu (c'.x, c'.y, c'.z) ⟨hc', he.symm⟩
  rw [← h2] at h1
  simp only [Prod.mk.injEq] at h1
  cases c; cases c'; simp_all

theorem fillLoop_ok {U : Type} {L : Lat T} (h : WF L) {f : V3 Int → Except Err U} {g : V3 Int → U}
    (hf : ∀ c : V3 Int, InLat L c.x c.y c.z → f c = .ok (g c)) (cs : List (V3 Int))
    (hcs : ∀ c ∈ cs, InLat L c.x c.y c.z) (G : Lat U) (hG : G.data.length = L.data.length) :
    ∃ G', fillLoop L f cs G = .ok G' ∧ G'.data.length = G.data.length ∧ G'.n = G.n ∧
      G'.sizes = G.sizes ∧ G'.origin = G.origin ∧ G'.periodic = G.periodic ∧ G'.cell = G.cell ∧
      ∀ c : V3 Int, InLat L c.x c.y c.z →
        (c ∈ cs ∨ G.data[(index1d L c.x c.y c.z).toNat]? = some (g c)) →
        G'.data[(index1d L c.x c.y c.z).toNat]? = some (g c) := by
  induction cs generalizing G with
  | nil => exact ⟨G, rfl, rfl, rfl, rfl, rfl, rfl, rfl, fun c _ hc => by simpa using hc⟩
  | cons a cs ih =>
    have ha := hcs a (by simp)
    have hr := wf_index h ha
    have hput : G.put (a.x + (L.n.x * a.y + L.n.x * L.n.y * a.z)) (g a) =
        .ok { G with data := G.data.set (index1d L a.x a.y a.z).toNat (g a) } := by
      rw [index_alt]; unfold Lat.put; rw [hG, if_pos hr]
    obtain ⟨G', h1, h2, h3, h4, h5, h6, h7, h8⟩ :=
      ih (fun c hc => hcs c (by simp [hc]))
        { G with data := G.data.set (index1d L a.x a.y a.z).toNat (g a) } (by simpa using hG)
    refine ⟨G', ?_, by simpa using h2, h3, h4, h5, h6, h7, ?_⟩
    · unfold fillLoop
      rw [hf a ha, ok_bind, hput, ok_bind, h1]
    · intro c hc hor
      by_cases hca : c = a
      · subst hca
        refine h8 c hc (.inr ?_)
        simp only
        rw [List.getElem?_set_self (by rw [hG]; omega)]
      · rcases hor with hor | hor
        · rw [List.mem_cons] at hor
          exact h8 c hc (.inl (hor.resolve_left hca))
        · refine h8 c hc (.inr ?_)
          simp only
          rw [List.getElem?_set_ne, hor]
          intro he
          have hr' := wf_index h hc
          exact hca (index_inj h hc ha (by omega))

theorem gradAt_of {L : Lat T} (h : WF L) {f : Int → Int → Int → T} (hf : Stores L f)
    {ix iy iz : Int} (hc : InLat L ix iy iz) {gx gy gz : T}
    (h1 : ∀ {index base : Int}, index = base + 1 * ix →
      (∀ j, 0 ≤ j ∧ j < L.n.x → L.get (base + 1 * j) = .ok (f j iy iz)) →
      diff L (1 / 2 / L.cell.x) index ix L.n.x 1 L.n.x = .ok gx)
    (h2 : ∀ {index base : Int}, index = base + L.n.x * iy →
      (∀ j, 0 ≤ j ∧ j < L.n.y → L.get (base + L.n.x * j) = .ok (f ix j iz)) →
      diff L (1 / 2 / L.cell.y) index iy L.n.y L.n.x (L.n.x * L.n.y) = .ok gy)
    (h3 : ∀ {index base : Int}, index = base + L.n.x * L.n.y * iz →
      (∀ j, 0 ≤ j ∧ j < L.n.z → L.get (base + L.n.x * L.n.y * j) = .ok (f ix iy j)) →
      diff L (1 / 2 / L.cell.z) index iz L.n.z (L.n.x * L.n.y) (L.n.x * L.n.y * L.n.z) = .ok gz) :
    gradAt L ix iy iz = .ok ⟨gx, gy, gz⟩ := by
  unfold gradAt
  simp only
  rw [h1 (base := L.n.x * iy + L.n.x * L.n.y * iz) (by ring)
      (fun j hj => hf.get h ⟨hj, hc.2⟩ (by unfold index1d; ring)), ok_bind,
    h2 (base := ix + L.n.x * L.n.y * iz) (by ring)
      (fun j hj => hf.get h ⟨hc.1, hj, hc.2.2⟩ (by unfold index1d; ring)), ok_bind,
    h3 (base := ix + L.n.x * iy) (by ring)
      (fun j hj => hf.get h ⟨hc.1, hc.2.1, hj⟩ (by unfold index1d; ring)), ok_bind]
  rfl

/-- The field is affine in the position: `f = a + x bx + y by + z bz` at cell centres. -/
def Affine (L : Lat T) (f : Int → Int → Int → T) (a bx bY bz : T) : Prop :=
  ∀ ix iy iz, f ix iy iz = a + (center L ix iy iz).x • bx + (center L ix iy iz).y • bY +
    (center L ix iy iz).z • bz

theorem gradAt_affine {L : Lat T} (h : WF L) (hper : L.periodic = false)
    (hn : 2 ≤ L.n.x ∧ 2 ≤ L.n.y ∧ 2 ≤ L.n.z)
    (hcell : L.cell.x ≠ 0 ∧ L.cell.y ≠ 0 ∧ L.cell.z ≠ 0)
    {f : Int → Int → Int → T} (hf : Stores L f) {a bx bY bz : T} (ha : Affine L f a bx bY bz)
    {ix iy iz : Int} (hc : InLat L ix iy iz) : gradAt L ix iy iz = .ok ⟨bx, bY, bz⟩ := by
  refine gradAt_of h hf hc ?_ ?_ ?_
  · intro index base hi hg
    refine diff_affine hper hcell.1 hc.1 hn.1 hi hg (o := L.origin.x)
      (a := a + (center L ix iy iz).y • bY + (center L ix iy iz).z • bz) ?_
    intro j _
    rw [ha]; simp only [center]; abel
  · intro index base hi hg
    refine diff_affine hper hcell.2.1 hc.2.1 hn.2.1 hi hg (o := L.origin.y)
      (a := a + (center L ix iy iz).x • bx + (center L ix iy iz).z • bz) ?_
    intro j _
    rw [ha]; simp only [center]; abel
  · intro index base hi hg
    refine diff_affine hper hcell.2.2 hc.2.2 hn.2.2 hi hg (o := L.origin.z)
      (a := a + (center L ix iy iz).x • bx + (center L ix iy iz).y • bY) ?_
    intro j _
    rw [ha]; simp only [center]

/-- The central differences of `f` at a node of a periodic lattice. -/
def central (L : Lat T) (f : Int → Int → Int → T) (ix iy iz : Int) : V3 T :=
  ⟨(1 / (2 * L.cell.x)) • (f (stepTo true L.n.x ix 1) iy iz - f (stepTo true L.n.x ix (-1)) iy iz),
   (1 / (2 * L.cell.y)) • (f ix (stepTo true L.n.y iy 1) iz - f ix (stepTo true L.n.y iy (-1)) iz),
   (1 / (2 * L.cell.z)) • (f ix iy (stepTo true L.n.z iz 1) - f ix iy (stepTo true L.n.z iz (-1)))⟩

theorem gradAt_periodic {L : Lat T} (h : WF L) (hper : L.periodic = true)
    (hn : 2 ≤ L.n.x ∧ 2 ≤ L.n.y ∧ 2 ≤ L.n.z)
    {f : Int → Int → Int → T} (hf : Stores L f)
    {ix iy iz : Int} (hc : InLat L ix iy iz) : gradAt L ix iy iz = .ok (central L f ix iy iz) := by
  have e (c : ℚ) : 1 / 2 / c = 1 / (2 * c) := by rw [div_div]
  refine gradAt_of h hf hc ?_ ?_ ?_
  · intro index base hi hg
    rw [diff_periodic hper (g := fun j => f j iy iz) hc.1 hn.1 (by ring) hi hg, e]
  · intro index base hi hg
    rw [diff_periodic hper (g := fun j => f ix j iz) hc.2.1 hn.2.1 (by ring) hi hg, e]
  · intro index base hi hg
    rw [diff_periodic hper (g := fun j => f ix iy j) hc.2.2 hn.2.2 (by ring) hi hg, e]

theorem identical_n {U W : Type} {L : Lat U} {G : Lat W} (h : identical L G = true) : L.n = G.n := by
  unfold identical at h
  simp only [Bool.and_eq_true, decide_eq_true_eq] at h
  cases hL : L.n; cases hG : G.n
  simp_all

theorem identical_self {U W : Type} {L : Lat U} {G : Lat W} (h1 : L.n = G.n)
    (h2 : L.sizes = G.sizes) (h3 : L.origin = G.origin) (h4 : L.periodic = G.periodic) :
    identical L G = true := by
  unfold identical; simp [h1, h2, h3, h4]

theorem computeGradient_of {L : Lat T} (h : WF L) (hn : 2 ≤ L.n.x ∧ 2 ≤ L.n.y ∧ 2 ≤ L.n.z)
    {G : Lat (V3 T)} (hG : WF G) (hid : identical L G = true) {g : Int → Int → Int → V3 T}
    (hg : ∀ ix iy iz, InLat L ix iy iz → gradAt L ix iy iz = .ok (g ix iy iz)) :
    ∃ G', computeGradient L G = .ok G' ∧ WF G' ∧ Stores G' g := by
  have hnn := identical_n hid
  have hlen : G.data.length = L.data.length := by
    have h1 := h.len
    have h2 := hG.len
    rw [← hnn, ← h1] at h2
    omega
  obtain ⟨G', h1, h2, h3, h4, h5, h6, h7, h8⟩ := fillLoop_ok h
    (f := fun c => gradAt L c.x c.y c.z) (g := fun c => g c.x c.y c.z)
    (fun c hc => hg _ _ _ hc) (nodes L.n) (fun c hc => mem_nodes.1 hc) G hlen
  refine ⟨G', ?_, ⟨?_, ?_, ?_, ?_, ?_, ?_⟩, ?_⟩
  · unfold computeGradient
    rw [if_neg (by omega), hid]
    exact h1
  · rw [h3]; exact hG.nx
  · rw [h3]; exact hG.ny
  · rw [h3]; exact hG.nz
  · rw [h2, h3]; exact hG.len
  · rw [h3]; exact hG.fits
  · rw [h7, h3, h4]; exact hG.cell
  · intro ix iy iz hc
    have hc' : InLat L ix iy iz := by unfold InLat at hc ⊢; rw [h3, ← hnn] at hc; exact hc
    have := h8 ⟨ix, iy, iz⟩ hc' (.inl (mem_nodes.2 hc'))
    have e : index1d G' ix iy iz = index1d L ix iy iz := by
      unfold index1d; rw [h3, hnn]
    rw [e]; exact this

/-- **C20.** On a non-periodic lattice with at least two nodes per direction the gradient
of an affine field is exact at every node, borders included. `T` is `double` for
`compute_gradient_lattice`. -/
theorem C20_affine {L : Lat T} (h : WF L) (hper : L.periodic = false)
    (hn : 2 ≤ L.n.x ∧ 2 ≤ L.n.y ∧ 2 ≤ L.n.z)
    (hcell : L.cell.x ≠ 0 ∧ L.cell.y ≠ 0 ∧ L.cell.z ≠ 0)
    {G : Lat (V3 T)} (hG : WF G) (hid : identical L G = true)
    {f : Int → Int → Int → T} (hf : Stores L f) {a bx bY bz : T} (ha : Affine L f a bx bY bz) :
    ∃ G', computeGradient L G = .ok G' ∧ WF G' ∧ Stores G' (fun _ _ _ => ⟨bx, bY, bz⟩) :=
  computeGradient_of h hn hG hid fun _ _ _ hc => gradAt_affine h hper hn hcell hf ha hc

/-- **C20.** On a periodic lattice the gradient is the central difference over the two
neighbours (around the border). -/
theorem C20_periodic {L : Lat T} (h : WF L) (hper : L.periodic = true)
    (hn : 2 ≤ L.n.x ∧ 2 ≤ L.n.y ∧ 2 ≤ L.n.z)
    {G : Lat (V3 T)} (hG : WF G) (hid : identical L G = true)
    {f : Int → Int → Int → T} (hf : Stores L f) :
    ∃ G', computeGradient L G = .ok G' ∧ WF G' ∧ Stores G' (central L f) :=
  computeGradient_of h hn hG hid fun _ _ _ hc => gradAt_periodic h hper hn hf hc

/-- **C20.** Too small lattices and lattices of different geometry are rejected. -/
theorem C20_rejects (L : Lat T) (G : Lat (V3 T)) :
    (L.n.x < 2 ∨ L.n.y < 2 ∨ L.n.z < 2 → computeGradient L G = .error .runtimeError) ∧
    (¬(L.n.x < 2 ∨ L.n.y < 2 ∨ L.n.z < 2) → (L.n ≠ G.n ∨ L.periodic ≠ G.periodic) →
      computeGradient L G = .error .invalidArgument) := by
  refine ⟨fun h => by unfold computeGradient; rw [if_pos h], fun h hne => ?_⟩
  unfold computeGradient
  rw [if_neg h]
  have : identical L G = false := by
    by_contra hid
    rw [Bool.not_eq_false] at hid
    rcases hne with hne | hne
    · exact hne (identical_n hid)
    · unfold identical at hid
      simp only [Bool.and_eq_true, decide_eq_true_eq] at hid
      exact hne hid.2
  rw [this]; rfl

/-- **C20**, four-gradients: for a field that is affine in space and changes linearly in
time, `compute_four_gradient_lattice` is exact on a non-periodic lattice. -/
theorem C20_four_gradient {L old : Lat T} (h : WF L) (hper : L.periodic = false)
    (hn : 2 ≤ L.n.x ∧ 2 ≤ L.n.y ∧ 2 ≤ L.n.z)
    (hcell : L.cell.x ≠ 0 ∧ L.cell.y ≠ 0 ∧ L.cell.z ≠ 0)
    {dt : ℚ} (hdt : dt ≠ 0) (hold : WF old) (hon : old.n = L.n)
    {G : Lat (T × V3 T)} (hG : WF G) (hid : identical L G = true)
    {f f' : Int → Int → Int → T} (hf : Stores L f) (hf' : Stores old f')
    {a bx bY bz v : T} (ha : Affine L f a bx bY bz)
    (hv : ∀ ix iy iz, f ix iy iz = f' ix iy iz + dt • v) :
    ∃ G', computeFourGradient L old dt G = .ok G' ∧
      Stores G' (fun _ _ _ => (v, ⟨bx, bY, bz⟩)) := by
  have hnn := identical_n hid
  have hlen : G.data.length = L.data.length := by
    have h1 := h.len
    have h2 := hG.len
    rw [← hnn, ← h1] at h2
    omega
  have hfg (c : V3 Int) (hc : InLat L c.x c.y c.z) :
      fourGradAt L old dt c = .ok (v, (⟨bx, bY, bz⟩ : V3 T)) := by
    unfold fourGradAt
    simp only
    rw [hf.get h hc (index_alt L c), ok_bind]
    have hco : InLat old c.x c.y c.z := by unfold InLat at hc ⊢; rw [hon]; exact hc
    rw [hf'.get hold hco (by rw [index_alt]; unfold index1d; rw [hon]), ok_bind,
      gradAt_affine h hper hn hcell hf ha hc, ok_bind, hv]
    have : (1 / dt) • (f' c.x c.y c.z + dt • v - f' c.x c.y c.z) = (1 / dt * dt) • v := by module
    rw [this, one_div_mul_cancel hdt, one_smul]; rfl
  obtain ⟨G', h1, h2, h3, h4, h5, h6, h7, h8⟩ := fillLoop_ok h
    (f := fourGradAt L old dt) (g := fun _ => (v, (⟨bx, bY, bz⟩ : V3 T)))
    hfg (nodes L.n) (fun c hc => mem_nodes.1 hc) G hlen
  refine ⟨G', ?_, ?_⟩
  · unfold computeFourGradient
    rw [if_neg (by omega), hid]
    exact h1
  · intro ix iy iz hc
    have hc' : InLat L ix iy iz := by unfold InLat at hc ⊢; rw [h3, ← hnn] at hc; exact hc
    have := h8 ⟨ix, iy, iz⟩ hc' (.inl (mem_nodes.2 hc'))
    have e : index1d G' ix iy iz = index1d L ix iy iz := by
      unfold index1d; rw [h3, hnn]
    rw [e]; exact this

/-- Non-vacuity: an affine field on a concrete lattice, and the computed gradient. -/
def exLat : Lat ℚ :=
  { data := (nodes ⟨3, 2, 2⟩).map fun c => 1 + 2 * (c.x + 1 / 2) + 3 * (c.y + 1 / 2) - (c.z + 1 / 2)
    sizes := ⟨3, 2, 2⟩, n := ⟨3, 2, 2⟩, cell := ⟨1, 1, 1⟩, vol := 1, origin := ⟨0, 0, 0⟩
    periodic := false }
example : WF exLat := ⟨by decide, by decide, by decide, by decide, by decide, by
  simp only [exLat, cells]; norm_num⟩
example : Affine exLat (fun ix iy iz => 1 + 2 * ((ix : ℚ) + 1 / 2) + 3 * (iy + 1 / 2)
    - (iz + 1 / 2)) 1 2 3 (-1) := by
  intro ix iy iz; simp only [center, exLat, smul_eq_mul]; ring
example : ∀ G : Lat (V3 ℚ), construct ⟨0, 0, 0⟩ ⟨3, 2, 2⟩ ⟨3, 2, 2⟩ ⟨0, 0, 0⟩ false = .ok G →
    (computeGradient exLat G).map (fun G => G.data) = .ok (List.replicate 12 ⟨2, 3, -1⟩) := by
  intro G hG
  have := Except.ok.inj hG
  subst this
  decide +kernel

end Verif.Lattice
