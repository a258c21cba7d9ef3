import Verif.Lat.Geom
import Mathlib.Data.Rat.Floor
import Mathlib.Tactic.Ring
import Mathlib.Tactic.Linarith
import Mathlib.Tactic.NormNum
import Mathlib.Tactic.FieldSimp
import Mathlib.Tactic.Positivity
import Mathlib.Tactic.SplitIfs
/-! C157: the lattice is the one described by the user or the documented default of the modus. -/
namespace Verif.Lat

variable {K : Type} [Field K] [LinearOrder K] [IsStrictOrderedRing K] [FloorRing K]

/-! ### Specification -/

/-- A point in the region of a lattice. -/
def Covers (g : Geometry K) (p : V3 K) : Prop :=
  (g.origin.x ≤ p.x ∧ p.x ≤ g.origin.x + g.sizes.x) ∧ (g.origin.y ≤ p.y ∧ p.y ≤ g.origin.y + g.sizes.y) ∧
  (g.origin.z ≤ p.z ∧ p.z ≤ g.origin.z + g.sizes.z)

/-- A point after a time. -/
def moved (p v : V3 K) (t : K) : V3 K := ⟨p.x + v.x * t, p.y + v.y * t, p.z + v.z * t⟩

/-- The smallest number of cells of at most this size. -/
def CellsOf (size cell : K) (n : Int) : Prop := ((n : K) - 1) * cell < size ∧ size ≤ n * cell

/-- The section asks for an automatic lattice and gives nothing else. -/
def auto (per : Option Bool) : Given K := ⟨true, per, none, none, none⟩

/-- A legal geometry: cells in every direction, an `int` for all, no negative size. -/
def Legal (g : Geometry K) : Prop :=
  (1 ≤ g.cells.x ∧ 1 ≤ g.cells.y ∧ 1 ≤ g.cells.z) ∧ g.cells.x * g.cells.y * g.cells.z ≤ 2 ^ 31 - 1 ∧
  0 ≤ g.sizes.x ∧ 0 ≤ g.sizes.y ∧ 0 ≤ g.sizes.z

/-! ### Lemmas -/

theorem isInt_iff (n : Int) : isInt n = true ↔ -2147483648 ≤ n ∧ n ≤ 2147483647 := by simp [isInt]

theorem toInt_ok (n k : Int) : toInt n = .ok k ↔ k = n ∧ isInt n = true := by
  unfold toInt
  split_ifs with h
  · exact ⟨fun e => ⟨(Except.ok.inj e).symm, h⟩, fun e => by rw [e.1]⟩
  · exact ⟨fun e => (by cases e), fun e => absurd e.2 h⟩

theorem cells_ceil (size cell : K) (hc : 0 < cell) : CellsOf size cell ⌈size / cell⌉ := by
  constructor
  · have := Int.ceil_lt_add_one (size / cell)
    rw [← lt_div_iff₀ hc]
    linarith
  · rw [← div_le_iff₀ hc]
    exact Int.le_ceil _

theorem construct_iff (g g' : Geometry K) : construct g = .ok g' ↔ g' = g ∧ Legal g := by
  unfold construct
  simp only []
  have hlegal : Legal g ↔ (isInt (g.cells.x * g.cells.y) = true ∧ isInt (g.cells.x * g.cells.y * g.cells.z) = true) ∧
      ¬(g.cells.x < 1 ∨ g.cells.y < 1 ∨ g.cells.z < 1 ∨ g.sizes.x < 0 ∨ g.sizes.y < 0 ∨ g.sizes.z < 0) := by
    unfold Legal
    simp only [isInt_iff, not_or, not_lt]
    constructor
    · rintro ⟨⟨h1, h2, h3⟩, h4, h5, h6, h7⟩
      have h12 : 1 ≤ g.cells.x * g.cells.y := one_le_mul_of_one_le_of_one_le h1 h2
      have h123 : g.cells.x * g.cells.y ≤ g.cells.x * g.cells.y * g.cells.z := le_mul_of_one_le_right (by omega) h3
      exact ⟨⟨⟨by omega, by omega⟩, by omega, by omega⟩, h1, h2, h3, h5, h6, h7⟩
    · rintro ⟨⟨_, _, h4⟩, h1, h2, h3, h5, h6, h7⟩
      exact ⟨⟨h1, h2, h3⟩, by omega, h5, h6, h7⟩
  rw [hlegal]
  split_ifs with h1 h2 h3
  · refine ⟨fun e => (by cases e), fun e => ?_⟩
    rw [Bool.or_eq_true, Bool.not_eq_true', Bool.not_eq_true'] at h1
    rcases h1 with h1 | h1
    · rw [e.2.1.1] at h1; cases h1
    · rw [e.2.1.2] at h1; cases h1
  · refine ⟨fun e => (by cases e), fun e => ?_⟩
    obtain ⟨_, _, e⟩ := e
    simp only [not_or, not_lt] at e
    have : 0 ≤ g.cells.x * g.cells.y * g.cells.z :=
      mul_nonneg (mul_nonneg (by omega) (by omega)) (by omega)
    omega
  · exact ⟨fun e => (by cases e), fun e => absurd h3 e.2.2⟩
  · refine ⟨fun e => ⟨(Except.ok.inj e).symm, ?_, h3⟩, fun e => by rw [e.1]⟩
    simpa using h1

theorem lattice_iff (m : Modus K) (t : K) (sm : Smearing) (g : Given K) (r : Geometry K) :
    lattice m t sm g = .ok r ↔ geometry m t sm g = .ok r ∧ Legal r := by
  unfold lattice
  cases h : geometry m t sm g with
  | error e => exact ⟨fun e => (by cases e), fun e => (by cases e.1)⟩
  | ok q =>
    simp only []
    rw [construct_iff]
    exact ⟨fun ⟨e, l⟩ => ⟨by rw [e], e ▸ l⟩, fun ⟨e, l⟩ => ⟨(Except.ok.inj e).symm, (Except.ok.inj e) ▸ l⟩⟩

/-! ### The user's lattice -/

/-- **C157** (manual): with `Automatic: False` the run is accepted exactly if all three properties are given
and legal, and the lattice is the given one. -/
theorem C157_manual (m : Modus K) (t : K) (sm : Smearing) (g : Given K) (h : g.automatic = false) (r : Geometry K) :
    lattice m t sm g = .ok r ↔
      (g.sizes = some r.sizes ∧ g.cells = some r.cells ∧ g.origin = some r.origin) ∧
      r.periodic = g.periodic.getD m.isBox ∧ Legal r := by
  rw [lattice_iff]
  obtain ⟨a, p, l, n, o⟩ := g
  simp only at h
  subst h
  obtain ⟨rl, rn, ro, rp⟩ := r
  unfold geometry
  cases l <;> cases n <;> cases o <;> simp
  grind

/-- **C157** (automatic): with `Automatic: True` and not all properties given, the result is the default of the
modus with the given properties put in afterwards. -/
theorem C157_automatic (m : Modus K) (t : K) (sm : Smearing) (g : Given K) (h : g.automatic = true)
    (r : Geometry K) :
    lattice m t sm g = .ok r ↔
      ¬(g.sizes.isSome ∧ g.cells.isSome ∧ g.origin.isSome) ∧ Legal r ∧
      ∃ d, geometry m t sm (auto g.periodic) = .ok d ∧ r.sizes = g.sizes.getD d.sizes ∧
        r.cells = g.cells.getD d.cells ∧ r.origin = g.origin.getD d.origin ∧ r.periodic = d.periodic := by
  rw [lattice_iff]
  obtain ⟨a, p, l, n, o⟩ := g
  simp only at h
  subst h
  obtain ⟨rl, rn, ro, rp⟩ := r
  unfold geometry auto
  cases hd : defaults m t sm with
  | error e => cases l <;> cases n <;> cases o <;> simp
  | ok d =>
    obtain ⟨dl, dn, dor⟩ := d
    cases l <;> cases n <;> cases o <;> simp <;> grind

/-- **C157** (list): there is no automatic lattice for the modus `List`. -/
theorem C157_list (t : K) (sm : Smearing) (g : Given K) (h : g.automatic = true) (r : Geometry K) :
    lattice .list t sm g ≠ .ok r := by
  rw [Ne, C157_automatic .list t sm g h r]
  rintro ⟨_, _, d, hd, _⟩
  simp [geometry, auto, defaults] at hd

/-! ### Defaults -/

theorem auto_iff (m : Modus K) (t : K) (sm : Smearing) (per : Option Bool) (r : Geometry K) :
    lattice m t sm (auto per) = .ok r ↔
      defaults m t sm = .ok (r.sizes, r.cells, r.origin) ∧ r.periodic = per.getD m.isBox ∧ Legal r := by
  rw [lattice_iff]
  obtain ⟨rl, rn, ro, rp⟩ := r
  unfold geometry auto
  cases hd : defaults m t sm with
  | error e => simp
  | ok d =>
    obtain ⟨dl, dn, dor⟩ := d
    simp
    grind

theorem widen_spec (a : K) : (widen (2 * a) (-a)).1 = max 30 (2 * a) ∧
    (widen (2 * a) (-a)).2 = -(max 30 (2 * a)) / 2 := by
  unfold widen
  split_ifs with h
  · rw [max_eq_left h.le]
    exact ⟨rfl, by ring⟩
  · rw [max_eq_right (not_lt.1 h)]
    exact ⟨rfl, by ring⟩

/-- The documented factor of the contraction. -/
def gammaOf (sqrts : K) : K := sqrts / (2 * (938 / 1000))

/-- **C157** (collider): the automatic lattice is symmetric around the origin, 5 fm and what light covers, 0.7
of it in the transverse directions, but at least 30 fm wide, with as few cells as possible of at most 0.8 fm,
contracted in z for the smearings that are bound to the cells. -/
theorem C157_collider (s t : K) (hs : 0 < s) (sm : Smearing) (per : Option Bool) (r : Geometry K)
    (h : lattice (.collider s) t sm (auto per) = .ok r) :
    r.sizes = ⟨max 30 (2 * (5 + 7 / 10 * t)), max 30 (2 * (5 + 7 / 10 * t)), max 30 (2 * (5 / gammaOf s + t))⟩ ∧
    r.origin = ⟨-r.sizes.x / 2, -r.sizes.y / 2, -r.sizes.z / 2⟩ ∧
    CellsOf r.sizes.x (8 / 10) r.cells.x ∧ CellsOf r.sizes.y (8 / 10) r.cells.y ∧
    CellsOf r.sizes.z (if sm = .gaussian then 8 / 10 else 8 / 10 / gammaOf s) r.cells.z ∧
    r.periodic = per.getD false := by
  obtain ⟨h1, h2, _⟩ := (auto_iff _ _ _ _ _).1 h
  obtain ⟨rl, rn, ro, rp⟩ := r
  have hg : 0 < gammaOf s := by unfold gammaOf; positivity
  simp only [defaults, colliderDefault] at h1
  obtain ⟨wx1, wx2⟩ := widen_spec (5 + 7 / 10 * t)
  have hgam : s / (2 * nucleonMass) = gammaOf s := rfl
  rw [hgam] at h1
  obtain ⟨wz1, wz2⟩ := widen_spec (5 / gammaOf s + t)
  rw [wx1, wx2, wz1, wz2] at h1
  cases hx : toInt ⌈max 30 (2 * (5 + 7 / 10 * t)) / (8 / 10 : K)⌉ with
  | error e => rw [hx] at h1; cases h1
  | ok nxy =>
    rw [hx] at h1
    simp only at h1
    cases hz : toInt ⌈max 30 (2 * (5 / gammaOf s + t)) / (8 / 10 : K) *
        (if sm = .discrete ∨ sm = .triangular then gammaOf s else 1)⌉ with
    | error e => rw [hz] at h1; cases h1
    | ok nz =>
      rw [hz] at h1
      simp only [Except.ok.injEq, Prod.mk.injEq] at h1
      obtain ⟨e1, e2, e3⟩ := h1
      subst e1 e2 e3
      have cx := ((toInt_ok _ _).1 hx).1
      have cz := ((toInt_ok _ _).1 hz).1
      have c8 : (0 : K) < 8 / 10 := by norm_num
      refine ⟨rfl, rfl, ?_, ?_, ?_, h2⟩
      · rw [show (_ : Int) = _ from cx]; exact cells_ceil _ _ c8
      · rw [show (_ : Int) = _ from cx]; exact cells_ceil _ _ c8
      · rw [show (_ : Int) = _ from cz]
        cases sm with
        | gaussian =>
          simp only [reduceCtorEq, or_self, if_false, if_true, mul_one]
          exact cells_ceil _ _ c8
        | discrete =>
          simp only [reduceCtorEq, or_false, if_false, if_true, true_or]
          have := cells_ceil (max 30 (2 * (5 / gammaOf s + t))) (8 / 10 / gammaOf s) (by positivity)
          rwa [show max 30 (2 * (5 / gammaOf s + t)) / (8 / 10 / gammaOf s) =
            max 30 (2 * (5 / gammaOf s + t)) / (8 / 10) * gammaOf s by field_simp] at this
        | triangular =>
          simp only [reduceCtorEq, or_true, if_false, if_true]
          have := cells_ceil (max 30 (2 * (5 / gammaOf s + t))) (8 / 10 / gammaOf s) (by positivity)
          rwa [show max 30 (2 * (5 / gammaOf s + t)) / (8 / 10 / gammaOf s) =
            max 30 (2 * (5 / gammaOf s + t)) / (8 / 10) * gammaOf s by field_simp] at this

/-- A coordinate that starts within `a` and moves with at most `c` stays within half of the size. -/
theorem within (a c x v t T L : K) (hx : |x| ≤ a) (hv : |v| ≤ c) (h0 : 0 ≤ t) (hT : t ≤ T)
    (hL : 2 * (a + c * T) ≤ L) : -L / 2 ≤ x + v * t ∧ x + v * t ≤ -L / 2 + L := by
  have hc : 0 ≤ c := (abs_nonneg v).trans hv
  have h1 : |v * t| ≤ c * T := by
    rw [abs_mul, abs_of_nonneg h0]
    exact mul_le_mul hv hT h0 hc
  have h2 := abs_le.1 hx
  have h3 := abs_le.1 h1
  constructor <;> linarith [h2.1, h2.2, h3.1, h3.2]

/-- **C157** (collider, region): a particle that starts in nuclei of 5 fm, contracted in z, and is not faster
than 0.7 in the transverse directions is on the lattice until the end time. -/
theorem C157_collider_covers (s T : K) (hs : 0 < s) (sm : Smearing) (per : Option Bool) (r : Geometry K)
    (h : lattice (.collider s) T sm (auto per) = .ok r) (p v : V3 K) (t : K)
    (hp : |p.x| ≤ 5 ∧ |p.y| ≤ 5 ∧ |p.z| ≤ 5 / gammaOf s) (hv : |v.x| ≤ 7 / 10 ∧ |v.y| ≤ 7 / 10 ∧ |v.z| ≤ 1)
    (h0 : 0 ≤ t) (hT : t ≤ T) : Covers r (moved p v t) := by
  obtain ⟨h1, h2, _⟩ := C157_collider s T hs sm per r h
  unfold Covers moved
  rw [h2, h1]
  exact ⟨within 5 (7 / 10) _ _ t T _ hp.1 hv.1 h0 hT (le_max_right _ _),
    within 5 (7 / 10) _ _ t T _ hp.2.1 hv.2.1 h0 hT (le_max_right _ _),
    within (5 / gammaOf s) 1 _ _ t T _ hp.2.2 hv.2.2 h0 hT (by rw [one_mul]; exact le_max_right _ _)⟩

/-- **C157** (box): the lattice is the box, with as few cells as possible of at most 0.5 fm, periodic unless
the user says otherwise. -/
theorem C157_box (m : Modus K) (L t : K) (hm : m = .box L ∨ m = .listBox L) (sm : Smearing) (per : Option Bool)
    (r : Geometry K) (h : lattice m t sm (auto per) = .ok r) :
    r.sizes = ⟨L, L, L⟩ ∧ r.origin = ⟨0, 0, 0⟩ ∧ CellsOf L (5 / 10) r.cells.x ∧
    r.cells = ⟨r.cells.x, r.cells.x, r.cells.x⟩ ∧ r.periodic = per.getD true := by
  obtain ⟨h1, h2, _⟩ := (auto_iff _ _ _ _ _).1 h
  have hb : m.isBox = true := by rcases hm with rfl | rfl <;> rfl
  rw [hb] at h2
  have hd : defaults m t sm = boxDefault L := by rcases hm with rfl | rfl <;> rfl
  rw [hd] at h1
  obtain ⟨rl, rn, ro, rp⟩ := r
  unfold boxDefault at h1
  cases hx : toInt ⌈L / (5 / 10 : K)⌉ with
  | error e => rw [hx] at h1; cases h1
  | ok n =>
    rw [hx] at h1
    simp only [Except.ok.injEq, Prod.mk.injEq] at h1
    obtain ⟨e1, e2, e3⟩ := h1
    subst e1 e2 e3
    refine ⟨rfl, rfl, ?_, rfl, h2⟩
    show CellsOf L (5 / 10) n
    rw [((toInt_ok _ _).1 hx).1]
    exact cells_ceil _ _ (by norm_num)

/-- **C157** (sphere): cube of cells of at most 0.8 fm that contains all particles that start in the sphere,
until the end time. -/
theorem C157_sphere (R T : K) (sm : Smearing) (per : Option Bool) (r : Geometry K)
    (h : lattice (.sphere R) T sm (auto per) = .ok r) :
    r.sizes = ⟨2 * (R + T), 2 * (R + T), 2 * (R + T)⟩ ∧ CellsOf (2 * (R + T)) (8 / 10) r.cells.x ∧
    r.cells = ⟨r.cells.x, r.cells.x, r.cells.x⟩ ∧ r.periodic = per.getD false ∧
    ∀ (p v : V3 K) (t : K), p.x ^ 2 + p.y ^ 2 + p.z ^ 2 ≤ R ^ 2 → 0 ≤ R → v.x ^ 2 + v.y ^ 2 + v.z ^ 2 ≤ 1 → 0 ≤ t →
      t ≤ T → Covers r (moved p v t) := by
  obtain ⟨h1, h2, _⟩ := (auto_iff _ _ _ _ _).1 h
  obtain ⟨rl, rn, ro, rp⟩ := r
  simp only [defaults, sphereDefault] at h1
  cases hx : toInt ⌈2 * (R + T) / (8 / 10 : K)⌉ with
  | error e => rw [hx] at h1; cases h1
  | ok n =>
    rw [hx] at h1
    simp only [Except.ok.injEq, Prod.mk.injEq] at h1
    obtain ⟨e1, e2, e3⟩ := h1
    subst e1 e2 e3
    refine ⟨rfl, ?_, rfl, h2, fun p v t hp hR hv h0 hT => ?_⟩
    · show CellsOf _ (8 / 10) n
      rw [((toInt_ok _ _).1 hx).1]
      exact cells_ceil _ _ (by norm_num)
    · have hc : ∀ a b c d : K, 0 ≤ d → a ^ 2 + b ^ 2 + c ^ 2 ≤ d ^ 2 → |a| ≤ d ∧ |b| ≤ d ∧ |c| ≤ d := by
        intro a b c d hd h
        refine ⟨abs_le_of_sq_le_sq ?_ hd, abs_le_of_sq_le_sq ?_ hd, abs_le_of_sq_le_sq ?_ hd⟩ <;>
          nlinarith [sq_nonneg a, sq_nonneg b, sq_nonneg c]
      obtain ⟨x1, x2, x3⟩ := hc _ _ _ R hR hp
      obtain ⟨v1, v2, v3⟩ := hc _ _ _ 1 zero_le_one (by simpa using hv)
      have hw : ∀ x v : K, |x| ≤ R → |v| ≤ 1 → -(R + T) ≤ x + v * t ∧ x + v * t ≤ -(R + T) + 2 * (R + T) := by
        intro x v hx hv
        have := within R 1 x v t T (2 * (R + T)) hx hv h0 hT (by rw [one_mul])
        constructor <;> linarith [this.1, this.2]
      exact ⟨hw _ _ x1 v1, hw _ _ x2 v2, hw _ _ x3 v3⟩

/-- **C157** (success): with Gaussian smearing and an end time of at most 600 fm the automatic lattice of
the collider can always be made, for every energy above 1.876 GeV. -/
theorem C157_gaussian_fits (s t : K) (hs : 2 * (938 / 1000) ≤ s) (hT : t ≤ 600) (per : Option Bool) :
    ∃ r, lattice (.collider s) t .gaussian (auto per) = .ok r := by
  have hg : 1 ≤ gammaOf s := by
    unfold gammaOf
    rw [le_div_iff₀ (by norm_num)]
    linarith
  have hg0 : 0 < gammaOf s := lt_of_lt_of_le one_pos hg
  have h5 : 5 / gammaOf s ≤ 5 := by rw [div_le_iff₀ hg0]; linarith
  have h5' : 0 < 5 / gammaOf s := by positivity
  set X : K := max 30 (2 * (5 + 7 / 10 * t)) with hX
  set Z : K := max 30 (2 * (5 / gammaOf s + t)) with hZ
  have hX1 : 30 ≤ X := le_max_left _ _
  have hX2 : X ≤ 850 := max_le (by norm_num) (by linarith)
  have hZ1 : 30 ≤ Z := le_max_left _ _
  have hZ2 : Z ≤ 1210 := max_le (by norm_num) (by linarith)
  have cx1 : 1 ≤ ⌈X / (8 / 10 : K)⌉ := by
    rw [Int.one_le_ceil_iff]; positivity
  have cx2 : ⌈X / (8 / 10 : K)⌉ ≤ 1063 := by
    rw [Int.ceil_le]; push_cast; rw [div_le_iff₀ (by norm_num)]; linarith
  have cz1 : 1 ≤ ⌈Z / (8 / 10 : K)⌉ := by
    rw [Int.one_le_ceil_iff]; positivity
  have cz2 : ⌈Z / (8 / 10 : K)⌉ ≤ 1513 := by
    rw [Int.ceil_le]; push_cast; rw [div_le_iff₀ (by norm_num)]; linarith
  obtain ⟨wx1, wx2⟩ := widen_spec (5 + 7 / 10 * t)
  obtain ⟨wz1, wz2⟩ := widen_spec (5 / gammaOf s + t)
  refine ⟨⟨⟨X, X, Z⟩, ⟨⌈X / (8 / 10 : K)⌉, ⌈X / (8 / 10 : K)⌉, ⌈Z / (8 / 10 : K)⌉⟩, ⟨-X / 2, -X / 2, -Z / 2⟩,
    per.getD false⟩, (auto_iff _ _ _ _ _).2 ⟨?_, rfl, ?_⟩⟩
  · simp only [defaults, colliderDefault]
    rw [show s / (2 * nucleonMass) = gammaOf s from rfl, wx1, wx2, wz1, wz2, ← hX, ← hZ]
    simp only [reduceCtorEq, or_self, if_false, mul_one]
    rw [(toInt_ok _ ⌈X / (8 / 10 : K)⌉).2 ⟨rfl, (isInt_iff _).2 ⟨by omega, by omega⟩⟩]
    simp only []
    rw [(toInt_ok _ ⌈Z / (8 / 10 : K)⌉).2 ⟨rfl, (isInt_iff _).2 ⟨by omega, by omega⟩⟩]
  · refine ⟨⟨cx1, cx1, cz1⟩, ?_, by simp only []; linarith, by simp only []; linarith, by simp only []; linarith⟩
    have a1 : ⌈X / (8 / 10 : K)⌉ * ⌈X / (8 / 10 : K)⌉ ≤ 1063 * 1063 := mul_le_mul cx2 cx2 (by omega) (by norm_num)
    have a2 : ⌈X / (8 / 10 : K)⌉ * ⌈X / (8 / 10 : K)⌉ * ⌈Z / (8 / 10 : K)⌉ ≤ 1063 * 1063 * 1513 :=
      mul_le_mul a1 cz2 (by omega) (by norm_num)
    exact a2.trans (by norm_num)

theorem cube_legal (n : Int) (h1 : 1 ≤ n) (h2 : n ≤ 1250) (a : K) (ha : 0 ≤ a) (o : V3 K) (p : Bool) :
    Legal (⟨.all a, .all n, o, p⟩ : Geometry K) := by
  refine ⟨⟨h1, h1, h1⟩, ?_, ha, ha, ha⟩
  have a1 : n * n ≤ 1250 * 1250 := mul_le_mul h2 h2 (by omega) (by norm_num)
  have a2 : n * n * n ≤ 1250 * 1250 * 1250 := mul_le_mul a1 h2 (by omega) (by norm_num)
  exact a2.trans (by norm_num)

/-- **C157** (success): the automatic lattice can be made for boxes of at most 625 fm and for spheres whose
radius and end time add up to at most 500 fm. -/
theorem C157_cubes_fit (t : K) (sm : Smearing) (per : Option Bool) :
    (∀ L : K, 0 < L → L ≤ 625 → ∃ r, lattice (.box L) t sm (auto per) = .ok r) ∧
    (∀ R : K, 0 < R + t → R + t ≤ 500 → ∃ r, lattice (.sphere R) t sm (auto per) = .ok r) := by
  constructor
  · intro L h0 h1
    have c1 : 1 ≤ ⌈L / (5 / 10 : K)⌉ := by rw [Int.one_le_ceil_iff]; positivity
    have c2 : ⌈L / (5 / 10 : K)⌉ ≤ 1250 := by
      rw [Int.ceil_le]; push_cast; rw [div_le_iff₀ (by norm_num)]; linarith
    refine ⟨⟨.all L, .all ⌈L / (5 / 10 : K)⌉, .all 0, per.getD true⟩, (auto_iff _ _ _ _ _).2 ⟨?_, rfl, ?_⟩⟩
    · simp only [defaults, boxDefault]
      rw [(toInt_ok _ ⌈L / (5 / 10 : K)⌉).2 ⟨rfl, (isInt_iff _).2 ⟨by omega, by omega⟩⟩]
    · exact cube_legal _ c1 c2 _ h0.le _ _
  · intro R h0 h1
    have c1 : 1 ≤ ⌈2 * (R + t) / (8 / 10 : K)⌉ := by rw [Int.one_le_ceil_iff]; positivity
    have c2 : ⌈2 * (R + t) / (8 / 10 : K)⌉ ≤ 1250 := by
      rw [Int.ceil_le]; push_cast; rw [div_le_iff₀ (by norm_num)]; linarith
    refine ⟨⟨.all (2 * (R + t)), .all ⌈2 * (R + t) / (8 / 10 : K)⌉, .all (-(R + t)), per.getD false⟩,
      (auto_iff _ _ _ _ _).2 ⟨?_, rfl, ?_⟩⟩
    · simp only [defaults, sphereDefault]
      rw [(toInt_ok _ ⌈2 * (R + t) / (8 / 10 : K)⌉).2 ⟨rfl, (isInt_iff _).2 ⟨by omega, by omega⟩⟩]
    · exact cube_legal _ c1 c2 _ (by linarith) _ _

/-! ### Where the claim fails -/

/-- **C157 is false** for high energies: at 200 GeV and an end time of 200 fm the number of cells of the
automatic lattice for discrete smearing overflows. -/
theorem C157_overflow_false : lattice (.collider (200 : ℚ)) 200 .discrete (auto none) = .error .ub := by
  decide +kernel

/-- **C157 is false** for a size of zero: it is accepted, although the message says that sizes have to be
positive. -/
theorem C157_zero_size_false (t : K) :
    lattice (.box 10) t .gaussian ⟨false, none, some ⟨0, 1, 1⟩, some ⟨1, 1, 1⟩, some ⟨0, 0, 0⟩⟩ =
      .ok ⟨⟨0, 1, 1⟩, ⟨1, 1, 1⟩, ⟨0, 0, 0⟩, true⟩ := by
  rw [C157_manual _ _ _ _ rfl]
  refine ⟨⟨rfl, rfl, rfl⟩, rfl, ⟨⟨le_refl _, le_refl _, le_refl _⟩, by norm_num, ?_⟩⟩
  exact ⟨le_refl _, zero_le_one, zero_le_one⟩

/-! ### Non-triviality -/

example : lattice (.collider (200 : ℚ)) 200 .gaussian (auto none) =
    .ok ⟨⟨290, 290, 400 + 938 / 10000⟩, ⟨363, 363, 501⟩, ⟨-145, -145, -(400 + 938 / 10000) / 2⟩, false⟩ := by
  decide +kernel

example : lattice (.collider (3 : ℚ)) 5 .discrete (auto none) =
    .ok ⟨⟨30, 30, 30⟩, ⟨38, 38, 60⟩, ⟨-15, -15, -15⟩, false⟩ := by
  decide +kernel

example : lattice (.box (10 : ℚ)) 5 .triangular (auto none) = .ok ⟨⟨10, 10, 10⟩, ⟨20, 20, 20⟩, ⟨0, 0, 0⟩, true⟩ := by
  decide +kernel

example : lattice (.sphere (5 : ℚ)) 10 .gaussian ⟨true, some true, none, some ⟨1, 2, 3⟩, none⟩ =
    .ok ⟨⟨30, 30, 30⟩, ⟨1, 2, 3⟩, ⟨-15, -15, -15⟩, true⟩ := by
  decide +kernel

end Verif.Lat
