import Verif.Box.Model
import Mathlib.Tactic.Linarith
import Mathlib.Tactic.Ring
import Mathlib.Tactic.FieldSimp
/-! C22 and C23. -/
namespace Verif.Box

/-! ### C22 -/

/-- A coordinate of the box. -/
def Inside (length x : ℚ) : Prop := 0 ≤ x ∧ x < length

theorem wrap1_spec {length x : ℚ} (h : -length ≤ x ∧ x < 2 * length) :
    Inside length (wrap1 length x).1 ∧
    ((wrap1 length x).2 = true ↔ ¬ Inside length x) ∧
    (Inside length x → (wrap1 length x).1 = x) ∧
    ∃ k : Int, (wrap1 length x).1 = x + k * length := by
  unfold wrap1 Inside
  split_ifs with h1 h2
  · exact ⟨⟨by simp only; linarith, by simp only; linarith⟩, by simp; intro h; linarith,
      fun h => by linarith [h.1], ⟨1, by push_cast; ring⟩⟩
  · exact ⟨⟨by simp only; linarith, by simp only; linarith⟩, by simp; intro h; linarith,
      fun h => by linarith [h.2], ⟨-1, by push_cast; ring⟩⟩
  · exact ⟨⟨by simp only; linarith, by simp only; linarith⟩, by simp; exact ⟨by linarith, by linarith⟩,
      fun _ => rfl, ⟨0, by push_cast; ring⟩⟩

/-- **C22**, `enforce_periodic_boundaries`: coordinates less than one length outside are
moved by a multiple of the length into `[0, length)`, those inside are unchanged, and the
returned flag tells whether one was outside. -/
theorem C22_enforce (length : ℚ) (xs : List ℚ) (h : ∀ x ∈ xs, -length ≤ x ∧ x < 2 * length) :
    List.Forall₂ (fun x y => Inside length y ∧ (Inside length x → y = x) ∧
      ∃ k : Int, y = x + k * length) xs (enforce length xs).1 ∧
    ((enforce length xs).2 = true ↔ ∃ x ∈ xs, ¬ Inside length x) := by
  induction xs with
  | nil => exact ⟨.nil, by simp [enforce]⟩
  | cons x xs ih =>
    have hx := wrap1_spec (h x (by simp))
    have ih := ih (fun y hy => h y (by simp [hy]))
    refine ⟨.cons ⟨hx.1, hx.2.2.1, hx.2.2.2⟩ ih.1, ?_⟩
    simp only [enforce, Bool.or_eq_true, hx.2.1, ih.2, List.mem_cons, exists_eq_or_imp]

/-- A particle is inside the box. -/
def InBox {α : Type} (length : ℚ) (p : Part α) : Prop := ∀ i, Inside length (p.r i)

theorem forall3 {P : Fin 3 → Prop} : (∀ i, P i) ↔ P 0 ∧ P 1 ∧ P 2 := by
  constructor
  · intro h; exact ⟨h 0, h 1, h 2⟩
  · rintro ⟨h0, h1, h2⟩ i
    match i with
    | 0 => exact h0
    | 1 => exact h1
    | 2 => exact h2

theorem wrapPos_spec {α : Type} {length : ℚ} {p : Part α}
    (h : ∀ i, -length ≤ p.r i ∧ p.r i < 2 * length) :
    InBox length (wrapPos length p).1 ∧
    ((wrapPos length p).2 = true ↔ ¬ InBox length p) ∧
    (wrapPos length p).1.t = p.t ∧ (wrapPos length p).1.v = p.v ∧
    (wrapPos length p).1.rest = p.rest ∧
    (∀ i, (Inside length (p.r i) → (wrapPos length p).1.r i = p.r i) ∧
      ∃ k : Int, (wrapPos length p).1.r i = p.r i + k * length) := by
  have w0 := wrap1_spec (h 0)
  have w1 := wrap1_spec (h 1)
  have w2 := wrap1_spec (h 2)
  have e0 : (wrapPos length p).1.r 0 = (wrap1 length (p.r 0)).1 := rfl
  have e1 : (wrapPos length p).1.r 1 = (wrap1 length (p.r 1)).1 := rfl
  have e2 : (wrapPos length p).1.r 2 = (wrap1 length (p.r 2)).1 := rfl
  have ef : (wrapPos length p).2 = ((wrap1 length (p.r 0)).2 || ((wrap1 length (p.r 1)).2 ||
      ((wrap1 length (p.r 2)).2 || false))) := rfl
  refine ⟨?_, ?_, rfl, rfl, rfl, ?_⟩
  · unfold InBox; rw [forall3, e0, e1, e2]; exact ⟨w0.1, w1.1, w2.1⟩
  · rw [ef]
    unfold InBox
    rw [forall3]
    rw [Bool.or_eq_true, Bool.or_eq_true, Bool.or_false, w0.2.1, w1.2.1, w2.2.1,
      ← not_and_or, ← not_and_or]
  · rw [forall3, e0, e1, e2]
    exact ⟨w0.2.2, w1.2.2, w2.2.2⟩

/-- **C22**, `impose_boundary_conditions`: if no particle is a whole box length outside,
then afterwards every particle is in the box, moved by multiples of the box length per
coordinate (not at all if it was inside), with time, velocity and all other data unchanged;
the returned number counts the particles that were outside, and exactly for these a wall
crossing from the old to the new state is reported. -/
theorem C22_impose {α : Type} (length : ℚ) (ps : List (Part α))
    (h : ∀ p ∈ ps, ∀ i, -length ≤ p.r i ∧ p.r i < 2 * length) :
    List.Forall₂ (fun p q => InBox length q ∧ q.t = p.t ∧ q.v = p.v ∧ q.rest = p.rest ∧
      (InBox length p → q = p) ∧ ∀ i, ∃ k : Int, q.r i = p.r i + k * length)
      ps (impose length ps).1 ∧
    (∃ out, out.Sublist ps ∧ (∀ p ∈ ps, p ∈ out ↔ ¬ InBox length p) ∧
      (impose length ps).2.1 = out.length ∧
      (impose length ps).2.2.map Prod.fst = out) ∧
    ∀ pq ∈ (impose length ps).2.2, pq.1 ∈ ps ∧ pq.2 ∈ (impose length ps).1 := by
  classical
  refine ⟨?_, ?_, ?_⟩
  · induction ps with
    | nil => exact .nil
    | cons p ps ih =>
      have w := wrapPos_spec (h p (by simp))
      have ih := ih (fun q hq => h q (by simp [hq]))
      unfold impose
      simp only
      split_ifs with hw
      · exact .cons ⟨w.1, w.2.2.1, w.2.2.2.1, w.2.2.2.2.1, fun hin => absurd hin (w.2.1.1 hw),
          fun i => (w.2.2.2.2.2 i).2⟩ ih
      · have hin : InBox length p := by
          by_contra hc; exact hw (w.2.1.2 hc)
        exact .cons ⟨hin, rfl, rfl, rfl, fun _ => rfl, fun i => ⟨0, by push_cast; ring⟩⟩ ih
  · refine ⟨ps.filter (fun p => !decide (InBox length p)), List.filter_sublist, ?_, ?_, ?_⟩
    · intro p hp; simp [hp]
    · induction ps with
      | nil => rfl
      | cons p ps ih =>
        have w := wrapPos_spec (h p (by simp))
        have ih := ih (fun q hq => h q (by simp [hq]))
        unfold impose
        simp only
        split_ifs with hw
        · have := w.2.1.1 hw
          simp [this, ih]
        · have hin : InBox length p := by
            by_contra hc; exact hw (w.2.1.2 hc)
          simp [hin, ih]
    · induction ps with
      | nil => rfl
      | cons p ps ih =>
        have w := wrapPos_spec (h p (by simp))
        have ih := ih (fun q hq => h q (by simp [hq]))
        unfold impose
        simp only
        split_ifs with hw
        · have := w.2.1.1 hw
          simp [this, ih]
        · have hin : InBox length p := by
            by_contra hc; exact hw (w.2.1.2 hc)
          simp [hin, ih]
  · induction ps with
    | nil => intro pq hpq; simp [impose] at hpq
    | cons p ps ih =>
      have ih := ih (fun q hq => h q (by simp [hq]))
      intro pq
      unfold impose
      simp only
      split_ifs with hw
      · simp only [List.mem_cons]
        rintro (rfl | hpq)
        · exact ⟨.inl rfl, .inl rfl⟩
        · exact ⟨.inr (ih pq hpq).1, .inr (ih pq hpq).2⟩
      · simp only [List.mem_cons]
        intro hpq
        exact ⟨.inr (ih pq hpq).1, .inr (ih pq hpq).2⟩

/-- More than one length outside one correction is not enough. -/
theorem C22_far_outside : ¬ Inside 10 (wrap1 10 25).1 := by
  unfold wrap1 Inside; norm_num

/-- Non-vacuity. -/
example : (enforce 10 [-3, 4, 12]) = ([7, 4, 2], true) := by decide +kernel

/-! ### C23 -/

/-- The coordinate reaches the wall it moves towards at time `t` from now. -/
def Hits (l r v t : ℚ) : Prop := (0 < v ∧ r + v * t = l) ∨ (v < 0 ∧ r + v * t = 0)

theorem axisTime_hits {l tmax r v t : ℚ} (hv : v = 0 ∨ small < |v|) (ht : t < tmax) :
    axisTime l tmax r v = t ↔ Hits l r v t := by
  have hs : (0 : ℚ) < small := by norm_num [small]
  unfold axisTime Hits
  rcases hv with hv | hv
  · subst hv
    rw [if_neg (by linarith), if_neg (by linarith)]
    constructor
    · intro h; linarith
    · rintro (⟨h, _⟩ | ⟨h, _⟩) <;> exact absurd h (lt_irrefl _)
  · by_cases h0 : 0 < v
    · rw [abs_of_pos h0] at hv
      rw [if_pos hv, div_eq_iff h0.ne']
      constructor
      · intro h; left; exact ⟨h0, by linarith⟩
      · rintro (⟨_, h⟩ | ⟨h, _⟩)
        · linarith
        · linarith
    · have h0 : v < 0 := by
        rcases lt_trichotomy v 0 with h | h | h
        · exact h
        · rw [h, abs_zero] at hv; linarith
        · exact absurd h h0
      rw [abs_of_neg h0] at hv
      rw [if_neg (by linarith), if_pos (by linarith), div_eq_iff h0.ne]
      constructor
      · intro h; right; exact ⟨h0, by linarith⟩
      · rintro (⟨h, _⟩ | ⟨_, h⟩)
        · linarith
        · linarith

theorem scan_spec {α : Type} (l tmax : ℚ) (p : Part α) :
    match scan l tmax p with
    | (none, _) => ∀ i, tmax ≤ axisTime l tmax (p.r i) (p.v i)
    | (some i, t) => t = axisTime l tmax (p.r i) (p.v i) ∧ t < tmax ∧
        ∀ j, t ≤ axisTime l tmax (p.r j) (p.v j) := by
  unfold scan scanStep
  simp only [List.foldl_cons, List.foldl_nil]
  generalize h0 : axisTime l tmax (p.r 0) (p.v 0) = t0
  generalize h1 : axisTime l tmax (p.r 1) (p.v 1) = t1
  generalize h2 : axisTime l tmax (p.r 2) (p.v 2) = t2
  by_cases c0 : t0 < tmax <;> by_cases c1 : t1 < tmax <;> by_cases c2 : t2 < tmax <;>
    by_cases c01 : t1 < t0 <;> by_cases c02 : t2 < t0 <;> by_cases c12 : t2 < t1 <;>
    simp only [c0, c1, c2, c01, c02, c12, if_true, if_false] <;>
    simp only [forall3, h0, h1, h2] <;> (try constructor) <;> (try constructor) <;>
    (try constructor) <;> (try constructor) <;> linarith

/-- **C23.** For a particle inside the box whose velocity components are zero or larger than
the threshold 1e-6: there is an action exactly if a coordinate reaches its wall before the
end of the step; it is at the earliest such time, the particle is moved along its
trajectory to that time, with one coordinate that reaches the wall set to the opposite
wall, and everything else unchanged; at that time all coordinates are still in the closed
box. Missing: velocity components between 0 and 1e-6 (`C23_slow_particle`). -/
theorem C23_wall_crossing_partial {α : Type} {l tmax : ℚ} {p : Part α}
    (hin : ∀ i, 0 ≤ p.r i ∧ p.r i ≤ l) (hv : ∀ i, p.v i = 0 ∨ small < |p.v i|) :
    (findOne l tmax p = none ↔ ∀ i t, t < tmax → ¬ Hits l (p.r i) (p.v i) t) ∧
    ∀ c, findOne l tmax p = some c →
      c.before = p ∧ 0 ≤ c.time ∧ c.time < tmax ∧
      (∀ i t, Hits l (p.r i) (p.v i) t → c.time ≤ t) ∧
      (∀ i, 0 ≤ p.r i + p.v i * c.time ∧ p.r i + p.v i * c.time ≤ l) ∧
      (∃ i, Hits l (p.r i) (p.v i) c.time ∧ c.after.r i = (if p.v i > 0 then 0 else l) ∧
        ∀ j, j ≠ i → c.after.r j = p.r j + p.v j * c.time) ∧
      c.after.t = p.t + c.time ∧ c.after.v = p.v ∧ c.after.rest = p.rest := by
  have hs := scan_spec l tmax p
  have nonneg (i : Fin 3) (t : ℚ) (h : Hits l (p.r i) (p.v i) t) : 0 ≤ t := by
    have hi := hin i
    rcases h with ⟨h1, h2⟩ | ⟨h1, h2⟩
    · by_contra ht
      nlinarith
    · by_contra ht
      nlinarith
  cases hsc : scan l tmax p with
  | mk o t =>
    rw [hsc] at hs
    cases o with
    | none =>
      simp only at hs
      have hn : findOne l tmax p = none := by unfold findOne; rw [hsc]
      refine ⟨⟨fun _ i t ht hh => ?_, fun _ => hn⟩, fun c hc => by rw [hn] at hc; cases hc⟩
      have := (axisTime_hits (hv i) ht).2 hh
      have := hs i
      linarith
    | some i =>
      simp only at hs
      obtain ⟨ht, hlt, hmin⟩ := hs
      have hf : findOne l tmax p = some ⟨p, ⟨p.t + t,
          Function.update (fun j => p.r j + p.v j * t) i (if p.v i > 0 then 0 else l),
          p.v, p.rest⟩, t⟩ := by
        unfold findOne; rw [hsc]
      have hhit : Hits l (p.r i) (p.v i) t := (axisTime_hits (hv i) hlt).1 ht.symm
      have h0 := nonneg i t hhit
      refine ⟨⟨fun h => (by rw [hf] at h; cases h), fun h => absurd hhit (h i t hlt)⟩, ?_⟩
      intro c hc
      rw [hf] at hc
      have := Option.some.inj hc
      subst this
      refine ⟨rfl, h0, hlt, ?_, ?_, ⟨i, hhit, by simp, fun j hj => by simp [hj]⟩, rfl, rfl, rfl⟩
      · intro j t' hh
        simp only
        by_cases hlt' : t' < tmax
        · have := (axisTime_hits (hv j) hlt').2 hh
          have := hmin j
          linarith
        · linarith
      · intro j
        simp only
        have hj := hin j
        have hm := hmin j
        have hss : (0 : ℚ) < small := by norm_num [small]
        rcases hv j with hv0 | hv0
        · rw [hv0]; constructor <;> linarith
        · by_cases hp : 0 < p.v j
          · rw [abs_of_pos hp] at hv0
            unfold axisTime at hm
            rw [if_pos hv0, le_div_iff₀ hp] at hm
            have := mul_nonneg hp.le h0
            constructor <;> nlinarith
          · have hneg : p.v j < 0 := by
              rcases lt_trichotomy (p.v j) 0 with h | h | h
              · exact h
              · rw [h, abs_zero] at hv0; linarith
              · exact absurd h hp
            rw [abs_of_neg hneg] at hv0
            unfold axisTime at hm
            rw [if_neg (by linarith), if_pos (by linarith), le_div_iff_of_neg hneg] at hm
            have := mul_nonneg (neg_nonneg.2 hneg.le) h0
            constructor <;> nlinarith

/-- The list version: one crossing at most per particle, in the order of the particles. -/
theorem C23_one_per_particle {α : Type} (l tmax : ℚ) (ps : List (Part α)) :
    ((find l tmax ps).map Crossing.before).Sublist ps := by
  induction ps with
  | nil => exact List.Sublist.slnil
  | cons p ps ih =>
    unfold find
    rw [List.filterMap_cons]
    cases h : findOne l tmax p with
    | none => exact ih.cons _
    | some c =>
      have hb : c.before = p := by
        unfold findOne at h
        split at h
        · cases h
        · have := Option.some.inj h; rw [← this]
      simp only [List.map_cons, hb]
      exact ih.cons₂ _

/-- A particle that is slower than 1e-6 leaves the box without an action. -/
theorem C23_slow_particle :
    ∃ p : Part Unit, (∀ i, 0 ≤ p.r i ∧ p.r i ≤ 10) ∧ findOne 10 1 p = none ∧
      10 < p.r 0 + p.v 0 * 1 := by
  refine ⟨⟨0, ![10 - 1 / 10000000, 1, 1], ![1 / 1000000, 0, 0], ()⟩, ?_, ?_, ?_⟩
  · rw [forall3]; simp only [Matrix.cons_val]; norm_num
  · have := scan_spec 10 1 (⟨0, ![10 - 1 / 10000000, 1, 1], ![1 / 1000000, 0, 0], ()⟩ : Part Unit)
    have e : scan 10 1 (⟨0, ![10 - 1 / 10000000, 1, 1], ![1 / 1000000, 0, 0], ()⟩ : Part Unit) =
        (none, 1) := by decide +kernel
    unfold findOne; rw [e]
  · norm_num

/-- Non-vacuity: a particle that reaches two walls, the `y` wall first. -/
example : ∃ p : Part Unit, (∀ i, 0 ≤ p.r i ∧ p.r i ≤ 10) ∧ (∀ i, p.v i = 0 ∨ small < |p.v i|) ∧
    scan 10 5 p = (some 1, 2) := by
  refine ⟨⟨0, ![9, 1, 1], ![1 / 4, -1 / 2, 0], ()⟩, ?_, ?_, by decide +kernel⟩
  · rw [forall3]; simp only [Matrix.cons_val]; norm_num
  · rw [forall3]; refine ⟨.inr ?_, .inr ?_, .inl rfl⟩ <;> norm_num [small, abs_lt]

end Verif.Box
