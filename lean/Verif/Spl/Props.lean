import Verif.Spl.Model
import Verif.Em.Photon
import Mathlib.Tactic.Linarith
import Mathlib.Data.List.Nodup
import Mathlib.Analysis.Real.Pi.Bounds
import Mathlib.Tactic.NormNum
/-
C172: interpolation of tables in two variables and differential cross sections of bremsstrahlung.
-/
namespace Verif.Spl
open Verif.Em Classical

/-- Specification: a table of `xs.length` times `ys.length` values over increasing abscissas, at least four of each. -/
structure Table (xs ys zs : List ℝ) : Prop where
  size : zs.length = xs.length * ys.length
  x4 : 4 ≤ xs.length
  y4 : 4 ≤ ys.length
  xInc : xs.Pairwise (· < ·)
  yInc : ys.Pairwise (· < ·)

/-- **C172.** Exactly the proper tables are accepted. -/
theorem C172_build (xs ys zs : List ℝ) : (∃ s, build xs ys zs = .ok s) ↔ Table xs ys zs := by
  unfold build
  constructor
  · rintro ⟨s, h⟩
    split_ifs at h with h1 h2 h3
    push Not at h1 h2
    exact ⟨by rw [h1, mul_comm], h2.1, h2.2, h3.1, h3.2⟩
  · rintro ⟨h1, h2, h3, h4, h5⟩
    rw [if_neg (by rw [h1, mul_comm]; simp), if_neg (by omega), if_neg (by simp [h4, h5])]
    exact ⟨_, rfl⟩

/-- The table that was built. -/
theorem build_eq {xs ys zs : List ℝ} {s : Spline} (h : build xs ys zs = .ok s) :
    s = ⟨xs, ys, zs, xs.headD 0, xs.getLastD 0, ys.headD 0, ys.getLastD 0⟩ := by
  unfold build at h
  split_ifs at h
  exact (Except.ok.inj h).symm

/-- The place `x'` in the interval `lo, hi` at which a table is evaluated for `x`: `x` itself, or the nearest end. -/
def Nearest (lo hi x x' : ℝ) : Prop := (lo ≤ x ∧ x ≤ hi ∧ x' = x) ∨ (x < lo ∧ x' = lo) ∨ (hi < x ∧ x' = hi)

theorem clamp_nearest {lo hi : ℝ} (h : lo ≤ hi) (x : ℝ) : Nearest lo hi x (clamp lo hi x) ∧ lo ≤ clamp lo hi x ∧ clamp lo hi x ≤ hi := by
  unfold clamp Nearest
  dsimp only
  by_cases h1 : x < lo
  · rw [if_pos h1, if_neg (not_lt.2 h)]
    exact ⟨.inr (.inl ⟨h1, rfl⟩), le_refl _, h⟩
  · rw [if_neg h1]
    by_cases h2 : x > hi
    · rw [if_pos h2]
      exact ⟨.inr (.inr ⟨h2, rfl⟩), h, le_refl _⟩
    · rw [if_neg h2]
      exact ⟨.inl ⟨not_lt.1 h1, not_lt.1 h2, rfl⟩, not_lt.1 h1, not_lt.1 h2⟩

theorem sorted_bounds {l : List ℝ} (hs : l.Pairwise (· < ·)) (hl : l ≠ []) :
    l.headD 0 ≤ l.getLastD 0 ∧ ∀ x ∈ l, l.headD 0 ≤ x ∧ x ≤ l.getLastD 0 := by
  obtain ⟨a, t, rfl⟩ := List.exists_cons_of_ne_nil hl
  have hm : ∀ x ∈ a :: t, (a :: t).headD 0 ≤ x ∧ x ≤ (a :: t).getLastD 0 := by
    intro x hx
    constructor
    · rcases List.mem_cons.1 hx with rfl | hx
      · exact le_refl _
      · exact (List.rel_of_pairwise_cons hs hx).le
    · rw [List.getLastD_eq_getLast?, List.getLast?_eq_some_getLast hl, Option.getD_some]
      rcases (List.pairwise_iff_getElem.1 hs) with hp
      obtain ⟨i, hi, rfl⟩ := List.mem_iff_getElem.1 hx
      rw [List.getLast_eq_getElem]
      rcases Nat.lt_or_ge i ((a :: t).length - 1) with h | h
      · exact (hp i _ hi (by simp) h).le
      · have : i = (a :: t).length - 1 := by omega
        subst this
        exact le_refl _
  exact ⟨(hm a (List.mem_cons_self ..)).2, hm⟩

theorem Table.ne {xs ys zs : List ℝ} (h : Table xs ys zs) : xs ≠ [] ∧ ys ≠ [] := by
  constructor
  · intro e; have := h.x4; rw [e] at this; simp at this
  · intro e; have := h.y4; rw [e] at this; simp at this

/-- **C172.** Whatever the point, the spline is evaluated inside of the table: at the point, or where it is outside at the nearest edge. -/
theorem C172_value (G : Gsl) {xs ys zs : List ℝ} {s : Spline} (h : build xs ys zs = .ok s) (x y : ℝ) :
    ∃ x' y', Nearest (xs.headD 0) (xs.getLastD 0) x x' ∧ Nearest (ys.headD 0) (ys.getLastD 0) y y' ∧
      call G s x y = some (G xs ys zs x' y') := by
  have ht := (C172_build xs ys zs).1 ⟨s, h⟩
  have hx := clamp_nearest (sorted_bounds ht.xInc ht.ne.1).1 x
  have hy := clamp_nearest (sorted_bounds ht.yInc ht.ne.2).1 y
  refine ⟨_, _, hx.1, hy.1, ?_⟩
  rw [build_eq h]
  unfold call gslEval
  dsimp only
  rw [if_pos ⟨hx.2.1, hx.2.2, hy.2.1, hy.2.2⟩]

/-- The contract of the spline: it goes through the values of the table, stored with the first variable running fastest. -/
def Through (G : Gsl) : Prop := ∀ xs ys zs : List ℝ, Table xs ys zs → ∀ i j, i < xs.length → j < ys.length →
  G xs ys zs (xs.getD i 0) (ys.getD j 0) = zs.getD (j * xs.length + i) 0

/-- **C172.** At the points of the table the result is the value of the table. -/
theorem C172_nodes {G : Gsl} (hG : Through G) {xs ys zs : List ℝ} {s : Spline} (h : build xs ys zs = .ok s) {i j : Nat}
    (hi : i < xs.length) (hj : j < ys.length) : call G s (xs.getD i 0) (ys.getD j 0) = some (zs.getD (j * xs.length + i) 0) := by
  have ht := (C172_build xs ys zs).1 ⟨s, h⟩
  obtain ⟨x', y', hx, hy, hc⟩ := C172_value G h (xs.getD i 0) (ys.getD j 0)
  have mx : xs.getD i 0 ∈ xs := by rw [List.getD_eq_getElem?_getD, List.getElem?_eq_getElem hi]; exact List.getElem_mem _
  have my : ys.getD j 0 ∈ ys := by rw [List.getD_eq_getElem?_getD, List.getElem?_eq_getElem hj]; exact List.getElem_mem _
  have bx := (sorted_bounds ht.xInc ht.ne.1).2 _ mx
  have by' := (sorted_bounds ht.yInc ht.ne.2).2 _ my
  have ex : x' = xs.getD i 0 := by
    rcases hx with h | h | h
    · exact h.2.2
    · linarith [h.1, bx.1]
    · linarith [h.1, bx.2]
  have ey : y' = ys.getD j 0 := by
    rcases hy with h | h | h
    · exact h.2.2
    · linarith [h.1, by'.1]
    · linarith [h.1, by'.2]
  rw [hc, ex, ey, hG xs ys zs ht i j hi hj]

/-- **C172.** The extrapolation is constant. -/
theorem C172_constant (G : Gsl) {xs ys zs : List ℝ} {s : Spline} (h : build xs ys zs = .ok s) (x y : ℝ) :
    (x ≤ xs.headD 0 → call G s x y = call G s (xs.headD 0) y) ∧ (xs.getLastD 0 ≤ x → call G s x y = call G s (xs.getLastD 0) y) ∧
    (y ≤ ys.headD 0 → call G s x y = call G s x (ys.headD 0)) ∧ (ys.getLastD 0 ≤ y → call G s x y = call G s x (ys.getLastD 0)) := by
  have ht := (C172_build xs ys zs).1 ⟨s, h⟩
  have low : ∀ {lo hi z : ℝ}, lo ≤ hi → z ≤ lo → clamp lo hi z = lo := by
    intro lo hi z h1 h2
    rcases (clamp_nearest h1 z).1 with h | h | h
    · rw [h.2.2]; exact le_antisymm h2 h.1
    · exact h.2
    · linarith [h.1]
  have high : ∀ {lo hi z : ℝ}, lo ≤ hi → hi ≤ z → clamp lo hi z = hi := by
    intro lo hi z h1 h2
    rcases (clamp_nearest h1 z).1 with h | h | h
    · rw [h.2.2]; exact le_antisymm h.2.1 h2
    · linarith [h.1]
    · exact h.2
  have bx := (sorted_bounds ht.xInc ht.ne.1).1
  have by' := (sorted_bounds ht.yInc ht.ne.2).1
  rw [build_eq h]
  unfold call
  refine ⟨fun g => ?_, fun g => ?_, fun g => ?_, fun g => ?_⟩ <;> dsimp only
  · rw [low bx g, low bx (le_refl _)]
  · rw [high bx g, high bx (le_refl _)]
  · rw [low by' g, low by' (le_refl _)]
  · rw [high by' g, high by' (le_refl _)]

/-- A table that was built. -/
def Spline.Built (s : Spline) : Prop := ∃ xs ys zs, build xs ys zs = .ok s

/-- All ten tables were built. -/
structure Splines.Built (T : Splines) : Prop where
  k : T.oppK.Built ∧ T.sameK.Built ∧ T.pi0K.Built ∧ T.toZeroK.Built ∧ T.fromZeroK.Built
  t : T.oppT.Built ∧ T.sameT.Built ∧ T.pi0T.Built ∧ T.toZeroT.Built ∧ T.fromZeroT.Built

/-- Specification: the tables of a process, by the charges of the pions that come in (`a`, `b`) and of the first that goes out. -/
def tableOf (T : Splines) (a b out : Mes) : Spline × Spline :=
  if a.charge * b.charge = 1 then (T.sameK, T.sameT)
  else if a.charge * b.charge = -1 then (if out.charge = 0 then (T.toZeroK, T.toZeroT) else (T.oppK, T.oppT))
  else if a.charge + b.charge = 0 then (T.fromZeroK, T.fromZeroT)
  else (T.pi0K, T.pi0T)

theorem fix_nonneg (x : ℝ) : 0 ≤ fix x ∧ (0 ≤ x → fix x = x) := by
  unfold fix
  split_ifs with h
  · exact ⟨by norm_num, fun h' => absurd h (not_lt.2 h')⟩
  · exact ⟨not_lt.1 h, fun _ => rfl⟩

theorem built_some (G : Gsl) {s : Spline} (h : s.Built) (x y : ℝ) : ∃ v, call G s x y = some v := by
  obtain ⟨xs, ys, zs, h⟩ := h
  obtain ⟨x', y', -, -, hc⟩ := C172_value G h x y
  exact ⟨_, hc⟩

/-- **C172.** Differential cross sections: for every pair of pions and every photon, of the tables of the process, never negative, and
the interpolated values where these are not negative. -/
theorem C172_diff (G : Gsl) {T : Splines} (hT : T.Built) {a b out : Mes} (ha : a.Pion) (hb : b.Pion) (ho : out.Pion) (k theta E : ℝ) :
    ∃ x y, call G (tableOf T a b out).1 k E = some x ∧ call G (tableOf T a b out).2 theta E = some y ∧
      diffXs G T [a, b] out k theta E = some (fix x, fix y) ∧ 0 ≤ fix x ∧ 0 ≤ fix y ∧ (0 ≤ x → fix x = x) ∧ (0 ≤ y → fix y = y) := by
  obtain ⟨⟨k1, k2, k3, k4, k5⟩, ⟨t1, t2, t3, t4, t5⟩⟩ := hT
  have fin : ∀ s t : Spline, s.Built → t.Built → tableOf T a b out = (s, t) →
      (diffXs G T [a, b] out k theta E = do
        let x ← call G s k E
        let y ← call G t theta E
        return (fix x, fix y)) →
      ∃ x y, call G (tableOf T a b out).1 k E = some x ∧ call G (tableOf T a b out).2 theta E = some y ∧
      diffXs G T [a, b] out k theta E = some (fix x, fix y) ∧ 0 ≤ fix x ∧ 0 ≤ fix y ∧ (0 ≤ x → fix x = x) ∧ (0 ≤ y → fix y = y) := by
    intro s t hs ht he hd
    obtain ⟨x, hx⟩ := built_some G hs k E
    obtain ⟨y, hy⟩ := built_some G ht theta E
    rw [hx, hy] at hd
    rw [he]
    exact ⟨x, y, hx, hy, hd, (fix_nonneg x).1, (fix_nonneg y).1, (fix_nonneg x).2, (fix_nonneg y).2⟩
  cases a <;> first | exact ha.elim | skip
  all_goals cases b <;> first | exact hb.elim | skip
  all_goals cases out <;> first | exact ho.elim | skip
  all_goals first
    | (refine fin T.oppK T.oppT k1 t1 rfl ?_; simp [diffXs, bremsReaction]; done)
    | (refine fin T.sameK T.sameT k2 t2 rfl ?_; simp [diffXs, bremsReaction]; done)
    | (refine fin T.pi0K T.pi0T k3 t3 rfl ?_; simp [diffXs, bremsReaction]; done)
    | (refine fin T.toZeroK T.toZeroT k4 t4 rfl ?_; simp [diffXs, bremsReaction]; done)
    | (refine fin T.fromZeroK T.fromZeroT k5 t5 rfl ?_; simp [diffXs, bremsReaction]; done)

/-- **C172.** The weight of a photon from these cross sections is a root of a number that is not negative, not negative itself, and zero
for a photon below the cut-off. -/
theorem C172_weight (G : Gsl) {T : Splines} (hT : T.Built) {a b out : Mes} (ha : a.Pion) (hb : b.Pion) (ho : out.Pion)
    {m0 m1 E r theta sigma f1 f2 : ℝ} (hs : 0 < sigma) (hf1 : 0 ≤ f1) (hf2 : 0 ≤ f2) (n : ℕ) :
    ∃ x y, diffXs G T [a, b] out (drawK E m0 m1 r).1 theta E = some (x, y) ∧
    0 ≤ y * (Real.pi - 0) * (x * (drawK E m0 m1 r).2) ∧ 0 ≤ bremsWeight n x y (drawK E m0 m1 r).2 sigma f1 f2 ∧
    (kMax E m0 m1 < kMin → bremsWeight n x y (drawK E m0 m1 r).2 sigma f1 f2 = 0) := by
  obtain ⟨x, y, -, -, h, hx, hy, -, -⟩ := C172_diff G hT ha hb ho (drawK E m0 m1 r).1 theta E
  have hd : 0 ≤ (drawK E m0 m1 r).2 := by
    unfold drawK
    split_ifs with hk
    · exact le_refl _
    · exact not_lt.1 hk
  refine ⟨_, _, h, ?_, ?_, ?_⟩
  · rw [sub_zero]
    exact mul_nonneg (mul_nonneg hy Real.pi_pos.le) (mul_nonneg hx hd)
  · unfold bremsWeight
    exact mul_nonneg (div_nonneg (Real.sqrt_nonneg _) (mul_nonneg (Nat.cast_nonneg _) hs.le)) (mul_nonneg hf1 hf2)
  · intro hk
    have : (drawK E m0 m1 r).2 = 0 := by
      unfold drawK
      rw [if_pos (by linarith)]
    unfold bremsWeight
    rw [this]
    simp

/-- A table of four times four values. -/
theorem four : Table [0, 1, 2, 3] [0, 1, 2, 3] (List.replicate 16 (1 : ℝ)) :=
  ⟨rfl, by simp, by simp, by norm_num [List.pairwise_cons], by norm_num [List.pairwise_cons]⟩

/-- The contract of the spline can be met. -/
example : ∃ G : Gsl, Through G := by
  refine ⟨fun xs ys zs x y => zs.getD (ys.idxOf y * xs.length + xs.idxOf x) 0, ?_⟩
  intro xs ys zs h i j hi hj
  have hx : xs.Nodup := h.xInc.imp fun g => ne_of_lt g
  have hy : ys.Nodup := h.yInc.imp fun g => ne_of_lt g
  dsimp only
  rw [List.getD_eq_getElem?_getD (l := xs), List.getElem?_eq_getElem hi, List.getD_eq_getElem?_getD (l := ys), List.getElem?_eq_getElem hj,
    Option.getD_some, Option.getD_some, hx.idxOf_getElem, hy.idxOf_getElem]

/-- The hypotheses can be met. -/
example : ∃ s : Spline, s.Built ∧ (Splines.mk s s s s s s s s s s).Built := by
  obtain ⟨s, h⟩ := (C172_build _ _ _).2 four
  have hb : s.Built := ⟨_, _, _, h⟩
  exact ⟨s, hb, ⟨⟨hb, hb, hb, hb, hb⟩, ⟨hb, hb, hb, hb, hb⟩⟩⟩

end Verif.Spl
