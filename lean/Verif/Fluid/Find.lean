import Verif.Fluid.Model
import Mathlib.Tactic.Linarith
import Mathlib.Tactic.NormNum
import Mathlib.Tactic.SplitIfs
import Mathlib.Tactic.Positivity
import Mathlib.Analysis.Real.Pi.Bounds
/-
C132: which particles become part of the fluid, and when.
C136: the lattice of the energy density keeps up with the light cone.
-/
namespace Verif.Fluid
open Verif.Kin Verif.Act

/-! ## Specification -/

/-- The processes whose products may become fluid, by the switch that allows them (user guide,
`Fluidizable_Processes`). -/
def AllowedBy (c : Cfg) : PType → Bool
  | .elastic => c.fromElastic
  | .decay => c.fromDecay
  | .twoToOne => c.fromInelastic
  | .twoToTwo => c.fromInelastic
  | .twoToThree => c.fromInelastic
  | .twoToFour => c.fromInelastic
  | .twoToFive => c.fromInelastic
  | .multi3MesonsToOne => c.fromInelastic
  | .multi3To2 => c.fromInelastic
  | .multi4To2 => c.fromInelastic
  | .multi5To2 => c.fromInelastic
  | .stringAX => c.fromSoft
  | .stringXB => c.fromSoft
  | .stringDD => c.fromSoft
  | .stringAnn => c.fromSoft
  | .stringND => c.fromSoft
  | .stringHard => c.fromHard
  | .none => false
  | .wall => false
  | .thermalization => false
  | .fluidization => false
  | .fluidizationNoRemoval => false
  | .bremsstrahlung => false
  | .failedString => false
  | .freeforall => false

/-- A particle is hot enough: it is on the lattice and the energy density of the others, plus the
given background, reaches the threshold. The own contribution is `own`. -/
def Hot (c : Cfg) (w : World) (own : ℝ) (p : FP) : Prop :=
  ∃ e, w.eDen p.pos.vec = some e ∧
    ∃ b, (w.background p.id = some b ∨ (w.background p.id = none ∧ b = 0)) ∧
      c.eThr ≤ e + b - own

/-- A particle becomes fluid in the time step from its own time on, `dt` long. -/
structure Becomes (c : Cfg) (w : World) (dt : ℝ) (p : FP) : Prop where
  notYet : p.core = false
  process : AllowedBy c p.ptype = true
  notFirst : ¬ (p.ptype = .elastic ∧ p.ncoll = 1 ∧ c.delay = true)
  formed : p.tBegin + c.frac * (p.tForm - p.tBegin) < p.pos.t + dt
  hot : Hot c w (p.pole * c.kernel0) p

/-! ## Theorems -/

theorem processFluidizable_iff (c : Cfg) (t : PType) (n : Int) :
    processFluidizable c t n = true ↔
      AllowedBy c t = true ∧ ¬ (t = .elastic ∧ n = 1 ∧ c.delay = true) := by
  cases t <;> simp [processFluidizable, isStringSoft, AllowedBy]
  tauto

theorem above_iff (c : Cfg) (w : World) (p : FP) :
    aboveThreshold c w p = true ↔ Hot c w (p.pole * c.kernel0) p := by
  unfold aboveThreshold Hot
  cases he : w.eDen p.pos.vec with
  | none => simp
  | some e =>
    cases hb : w.background p.id with
    | none => simp; constructor <;> intro h <;> linarith
    | some b => simp; constructor <;> intro h <;> linarith

/-- Nothing is found outside of the time window. -/
theorem C132_window (c : Cfg) (w : World) (dt : ℝ) (l : List FP) (t : ℝ)
    (ht : ∀ p ∈ l, p.pos.t = t) (h : t + dt < c.tMin ∨ c.tMax < t) : findInCell c w dt l = [] := by
  cases l with
  | nil => rfl
  | cons p ps =>
    have := ht p (by simp)
    rw [findInCell, if_pos (by rw [this]; exact h)]

/-- Within the time window, for particles of one time: exactly the particles that fulfil the
conditions get an action, in their order, one each. -/
theorem C132_found (c : Cfg) (w : World) (dt : ℝ) (l : List FP) (t : ℝ)
    (ht : ∀ p ∈ l, p.pos.t = t) (h1 : c.tMin ≤ t + dt) (h2 : t ≤ c.tMax) :
    ((findInCell c w dt l).map (·.part)).Sublist l ∧
    ∀ p, p ∈ (findInCell c w dt l).map (·.part) ↔ p ∈ l ∧ Becomes c w dt p := by
  induction l with
  | nil => simp [findInCell]
  | cons p ps ih =>
    obtain ⟨ihs, ihm⟩ := ih (fun q hq => ht q (by simp [hq]))
    have hp := ht p (by simp)
    have hw : ¬ (p.pos.t + dt < c.tMin ∨ c.tMax < p.pos.t) := by rw [hp]; push Not; exact ⟨h1, h2⟩
    have key : Becomes c w dt p ↔ p.core = false ∧ ¬ (p.pos.t + dt ≤ fluidTime c p) ∧
        processFluidizable c p.ptype p.ncoll = true ∧ aboveThreshold c w p = true := by
      rw [processFluidizable_iff, above_iff]
      unfold fluidTime
      constructor
      · rintro ⟨a, b, c', d, e⟩
        exact ⟨a, by push Not; exact d, ⟨b, c'⟩, e⟩
      · rintro ⟨a, d, ⟨b, c'⟩, e⟩
        exact ⟨a, b, c', by push Not at d; exact d, e⟩
    have neg : ¬ Becomes c w dt p → findInCell c w dt (p :: ps) = findInCell c w dt ps := by
      intro hn
      rw [findInCell, if_neg hw]
      split_ifs with a b d e <;> try rfl
      exact absurd (key.2 ⟨by simpa using a, b, by simpa using d, e⟩) hn
    by_cases hb : Becomes c w dt p
    · obtain ⟨a, b, d, e⟩ := key.1 hb
      have : findInCell c w dt (p :: ps) = ⟨p, p.pos.t + timeUntil c p⟩ :: findInCell c w dt ps := by
        rw [findInCell, if_neg hw, if_neg (by simp [a]), if_neg b, if_neg (by simp [d]), if_pos e]
      rw [this]
      refine ⟨by simpa using ihs, fun q => ?_⟩
      simp only [List.map_cons, List.mem_cons, ihm]
      constructor
      · rintro (rfl | ⟨h, h'⟩)
        · exact ⟨.inl rfl, hb⟩
        · exact ⟨.inr h, h'⟩
      · rintro ⟨rfl | h, h'⟩
        · exact .inl rfl
        · exact .inr ⟨h, h'⟩
    · rw [neg hb]
      refine ⟨ihs.trans (List.sublist_cons_self _ _), fun q => ?_⟩
      rw [ihm]
      constructor
      · rintro ⟨h, h'⟩
        exact ⟨by simp [h], h'⟩
      · rintro ⟨h, h'⟩
        rcases List.mem_cons.1 h with rfl | h
        · exact absurd h' hb
        · exact ⟨h, h'⟩

theorem found_time (c : Cfg) (w : World) (dt : ℝ) (l : List FP) (a : FAct)
    (h : a ∈ findInCell c w dt l) : a.time = a.part.pos.t + timeUntil c a.part ∧
      fluidTime c a.part < a.part.pos.t + dt := by
  induction l with
  | nil => simp [findInCell] at h
  | cons p ps ih =>
    rw [findInCell] at h
    split_ifs at h with h0 h1 h2 h3 h4
    · simp at h
    · exact ih h
    · exact ih h
    · exact ih h
    · rcases List.mem_cons.1 h with rfl | h
      · exact ⟨rfl, by push Not at h2; exact h2⟩
      · exact ih h
    · exact ih h

/-- The action happens within the time step. -/
theorem C132_time (c : Cfg) (w : World) (dt : ℝ) (hdt : 0 < dt) (l : List FP) (a : FAct)
    (h : a ∈ findInCell c w dt l) :
    a.part.pos.t ≤ a.time ∧ a.time < a.part.pos.t + dt := by
  obtain ⟨e, hf⟩ := found_time c w dt l a h
  rw [e]
  unfold timeUntil
  split_ifs
  · constructor <;> linarith
  · rcases le_total (fluidTime c a.part - a.part.pos.t) 0 with hh | hh
    · rw [max_eq_right hh]; constructor <;> linarith
    · rw [max_eq_left hh]; constructor <;> linarith

/-- A particle that is still forming does not become fluid before the chosen fraction of its
formation time; one that became so at once is either fully formed for cross sections (up to the
tolerance) or past that time. -/
theorem C132_fraction (c : Cfg) (w : World) (dt : ℝ) (l : List FP) (a : FAct)
    (h : a ∈ findInCell c w dt l)
    (hs : xsecScaling a.part.scale a.part.tBegin a.part.tForm c.power a.part.pos.t < 1 - 1 / 1000000) :
    a.part.tBegin + c.frac * (a.part.tForm - a.part.tBegin) ≤ a.time ∧
    (a.time = a.part.pos.t ∨
      a.time = a.part.tBegin + c.frac * (a.part.tForm - a.part.tBegin)) := by
  obtain ⟨e, hf⟩ := found_time c w dt l a h
  rw [e]
  unfold timeUntil
  rw [if_neg (by unfold reallySmall; push Not; linarith)]
  change fluidTime c a.part ≤ _ ∧ (_ ∨ _ = fluidTime c a.part)
  rcases le_total (fluidTime c a.part - a.part.pos.t) 0 with hh | hh
  · rw [max_eq_right hh]; exact ⟨by linarith, .inl (by ring)⟩
  · rw [max_eq_left hh]; exact ⟨by linarith, .inr (by ring)⟩

/-- Nucleons that did not interact never become fluid, whatever the switches. -/
theorem C132_initial (c : Cfg) (w : World) (dt : ℝ) (l : List FP) (a : FAct)
    (h : a ∈ findInCell c w dt l) : a.part.ptype ≠ .none ∧ a.part.core = false := by
  induction l with
  | nil => simp [findInCell] at h
  | cons p ps ih =>
    rw [findInCell] at h
    split_ifs at h with h0 h1 h2 h3 h4
    · simp at h
    · exact ih h
    · exact ih h
    · exact ih h
    · rcases List.mem_cons.1 h with rfl | h
      · refine ⟨fun hn => ?_, by simpa using h1⟩
        have : processFluidizable c p.ptype p.ncoll = true := by simpa using h3
        rw [processFluidizable_iff, hn] at this
        simp [AllowedBy] at this
      · exact ih h
    · exact ih h

/-- Configuration and particle of the examples. -/
noncomputable def exCfg : Cfg :=
  ⟨1 / 2, 5, 10, 0, 0, 0, true, true, true, true, true, true⟩

@[inherit_doc exCfg] noncomputable def exPart (t : ℝ) : FP :=
  ⟨7, 0, 1, ⟨t, 0, 0, 0⟩, ⟨1, 0, 0, 0⟩, 0, 0, 1, false, 2, .twoToTwo, 1⟩

@[inherit_doc exCfg] noncomputable def exWorld : World := ⟨fun _ => some 1, fun _ => none⟩

theorem ex_found (t dt : ℝ) (h0 : 0 ≤ t) (hd : 0 < dt) (h1 : 5 ≤ t + dt) (h2 : t ≤ 10) :
    findInCell exCfg exWorld dt [exPart t] = [⟨exPart t, t⟩] := by
  have : timeUntil exCfg (exPart t) = 0 := by
    unfold timeUntil
    rw [if_pos]
    simp [xsecScaling, exCfg, exPart, not_lt.2 h0, reallySmall]
  rw [findInCell, if_neg (by simp only [exCfg, exPart]; push Not; exact ⟨h1, h2⟩),
    if_neg (by simp [exPart]), if_neg (by simp [fluidTime, exCfg, exPart]; linarith),
    if_neg (by simp [processFluidizable, exPart, isStringSoft, exCfg]),
    if_pos (by simp [aboveThreshold, exWorld, exCfg, exPart]; norm_num), this]
  simp [findInCell, exPart]

/-- Finding: the user guide calls the keys the minimal and the maximal time for a particle to be
considered fluid. A particle becomes fluid before the minimal time if the time step contains it. -/
theorem C132_minimum_false : ∃ c w dt p a, 0 < dt ∧ findInCell c w dt [p] = [a] ∧
    a.time < c.tMin ∧ c.tMin ≤ c.tMax ∧ 0 ≤ c.tMin := by
  refine ⟨exCfg, exWorld, 1, exPart 4.5, ⟨exPart 4.5, 4.5⟩, by norm_num,
    ex_found 4.5 1 (by norm_num) (by norm_num) (by norm_num) (by norm_num), ?_, ?_, ?_⟩ <;>
  norm_num [exCfg]

/-- What does hold: no action before the minimal time minus one step, none later than the maximal
time plus one step. -/
theorem C132_limits_partial (c : Cfg) (w : World) (dt : ℝ) (hdt : 0 < dt) (l : List FP) (t : ℝ)
    (ht : ∀ p ∈ l, p.pos.t = t) (a : FAct) (h : a ∈ findInCell c w dt l) :
    c.tMin - dt ≤ a.time ∧ a.time < c.tMax + dt := by
  obtain ⟨ha, hb⟩ := C132_time c w dt hdt l a h
  by_cases hw : t + dt < c.tMin ∨ c.tMax < t
  · rw [C132_window c w dt l t ht hw] at h; simp at h
  · push Not at hw
    have hm : a.part ∈ l :=
      ((C132_found c w dt l t ht hw.1 hw.2).1.subset (List.mem_map_of_mem h))
    have := ht _ hm
    constructor <;> linarith [hw.1, hw.2]

/-- Finding: the own contribution that is subtracted is the pole mass times a kernel that is not
the smearing kernel at distance 0, `(2 π σ²)^(-3/2)`, unless the width is 1. -/
theorem C132_kernel_false : ∃ sigma : ℝ, 0 < sigma ∧
    kernelAtZero sigma ≠ Real.rpow (2 * Real.pi * sigma ^ 2) (-1.5) := by
  refine ⟨2, by norm_num, ?_⟩
  have hp := Real.pi_pos
  have : Real.rpow (2 * Real.pi * 2 ^ 2) (-1.5) < Real.rpow (2 * Real.pi * 2) (-1.5) :=
    Real.rpow_lt_rpow_of_neg (by positivity) (by nlinarith) (by norm_num)
  exact ne_of_gt this

/-- With width 1 it is. -/
theorem C132_kernel_one : kernelAtZero 1 = Real.rpow (2 * Real.pi * 1 ^ 2) (-1.5) := by
  simp [kernelAtZero]

example : Becomes exCfg exWorld 1 (exPart 6) := by
  have := (C132_found exCfg exWorld 1 [exPart 6] 6 (by simp [exPart]) (by norm_num [exCfg])
    (by norm_num [exCfg])).2 (exPart 6)
  rw [ex_found 6 1 (by norm_num) (by norm_num) (by norm_num) (by norm_num)] at this
  exact (this.1 (by simp)).2

/-! ## C136 -/

/-- At the start the lattice reaches as far as light gets until the minimal time, and at least
40 fm. -/
theorem C136_start (tMin : ℝ) : tMin ≤ startSide tMin ∧ 40 ≤ startSide tMin :=
  ⟨le_max_left _ _, le_max_right _ _⟩

/-- The half side of the lattice after building it at the times `ts`. -/
noncomputable def sides (tMin tMax : ℝ) (ts : List ℝ) : ℝ :=
  ts.foldl (resize tMin tMax) (startSide tMin)

theorem resize_inv (tMin tMax side t prev : ℝ) (hs : prev ≤ side) (hstep : t ≤ prev + 5) (hm : t ≤ tMax)
    (hn : tMin ≤ side) :
    t ≤ resize tMin tMax side t ∧ tMin ≤ resize tMin tMax side t := by
  unfold resize
  split_ifs with h1 h2
  · rcases h1 with h1 | h1
    · exact ⟨by linarith, hn⟩
    · linarith
  · constructor <;> linarith
  · exact ⟨by linarith, hn⟩

/-- In steps of at most 5 fm, the lattice built at a time not later than the maximal time contains
every point that light from the origin reaches by then; it never shrinks. -/
theorem C136_contains (tMin tMax : ℝ) (hmin : 0 ≤ tMin) (ts : List ℝ) :
    ∀ (t : ℝ), (0 :: ts ++ [t]).IsChain (fun a b => a ≤ b ∧ b ≤ a + 5) → t ≤ tMax →
    ∀ x : V3, x.abs ≤ t →
      |x.x| ≤ sides tMin tMax (ts ++ [t]) ∧ |x.y| ≤ sides tMin tMax (ts ++ [t]) ∧
      |x.z| ≤ sides tMin tMax (ts ++ [t]) := by
  have inv : ∀ (ts : List ℝ) (prev side : ℝ), prev ≤ side → tMin ≤ side → ∀ t,
      (prev :: ts ++ [t]).IsChain (fun a b => a ≤ b ∧ b ≤ a + 5) → t ≤ tMax →
      t ≤ (ts ++ [t]).foldl (resize tMin tMax) side := by
    intro ts
    induction ts with
    | nil =>
      intro prev side h1 h2 t hc hm
      simp at hc
      exact (resize_inv tMin tMax side t prev h1 hc.2 hm h2).1
    | cons a as ih =>
      intro prev side h1 h2 t hc hm
      rw [List.cons_append, List.cons_append, List.isChain_cons_cons] at hc
      have hle : a ≤ t := by
        have : ∀ (l : List ℝ) (a : ℝ), (a :: l ++ [t]).IsChain (fun a b => a ≤ b ∧ b ≤ a + 5) →
            a ≤ t := by
          intro l
          induction l with
          | nil => intro a h; simp at h; exact h.1
          | cons b bs ihb =>
            intro a h
            rw [List.cons_append, List.cons_append, List.isChain_cons_cons] at h
            exact h.1.1.trans (ihb b (by rw [List.cons_append]; exact h.2))
        exact this as a (by rw [List.cons_append]; exact hc.2)
      obtain ⟨q1, q2⟩ := resize_inv tMin tMax side a prev h1 hc.1.2 (hle.trans hm) h2
      exact ih a _ q1 q2 t (by rw [List.cons_append]; exact hc.2) hm
  intro t hc hm x hx
  have h := inv ts 0 (startSide tMin) (hmin.trans (C136_start tMin).1) (C136_start tMin).1 t hc hm
  have b : ∀ y : ℝ, y ^ 2 ≤ x.dot x → |y| ≤ sides tMin tMax (ts ++ [t]) := by
    intro y hy
    refine le_trans ?_ (hx.trans h)
    rw [← Real.sqrt_sq_eq_abs]
    exact Real.sqrt_le_sqrt hy
  refine ⟨b _ ?_, b _ ?_, b _ ?_⟩ <;> unfold V3.dot <;> nlinarith [sq_nonneg x.x, sq_nonneg x.y, sq_nonneg x.z]

/-- Finding: for longer time steps it does not keep up: growing by 5 fm per step is not enough. -/
theorem C136_long_steps_false : ∃ tMin tMax : ℝ, ∃ ts : List ℝ, ∃ t : ℝ,
    0 ≤ tMin ∧ t ≤ tMax ∧ (0 :: ts ++ [t]).IsChain (fun a b => a ≤ b ∧ b ≤ a + 6) ∧
    sides tMin tMax (ts ++ [t]) < t := by
  refine ⟨0, 100, (List.range 10).map fun i => 6 * ((i : ℝ) + 1), 66, le_rfl, by norm_num, ?_, ?_⟩
  · norm_num [List.range_succ]
  · norm_num [sides, List.range_succ, resize, startSide]

example : (0 :: [1, 2, (5 : ℝ)] ++ [6]).IsChain (fun a b => a ≤ b ∧ b ≤ a + 5) := by norm_num

end Verif.Fluid
