import Verif.Stream.Model
import Mathlib.Analysis.SpecialFunctions.Pow.Deriv
import Mathlib.Analysis.SpecialFunctions.ExpDeriv
import Mathlib.Tactic.Ring
import Mathlib.Tactic.Linarith
import Mathlib.Tactic.NormNum
import Mathlib.Tactic.FieldSimp
import Mathlib.Tactic.Positivity
/-! C58 and C79. -/
namespace Verif.Stream
open Verif.Kin Verif.Scat

/-! ### Specification -/

/-- The momentum a particle moves with: the beam momentum for nucleons of the initial nuclei (those
with an entry in the table of beam momenta) until their first interaction, their own otherwise. -/
def MovesWith (beam : List V4) (p : SP) (m : V4) : Prop :=
  (p.ncoll = 0 ∧ 0 ≤ p.id ∧ beam[p.id.toNat]? = some m) ∨
  ((p.ncoll ≠ 0 ∨ (beam.length : Int) ≤ p.id) ∧ m = p.mom)

/-- The point of the straight line through `x` with velocity `m / E` at the time `t`. -/
noncomputable def straight (x m : V4) (t : ℝ) : V4 :=
  ⟨t, x.x + m.x / m.t * (t - x.t), x.y + m.y / m.t * (t - x.t), x.z + m.z / m.t * (t - x.t)⟩

theorem moveVel_eq {beam : List V4} {p : SP} {m : V4} (h : MovesWith beam p m) :
    moveVel beam p = m.velocity := by
  unfold moveVel
  rcases h with ⟨h0, -, hm⟩ | ⟨h, rfl⟩
  · have hlt : p.id.toNat < beam.length := by
      by_contra hc
      rw [List.getElem?_eq_none (by omega)] at hm
      cases hm
    rw [if_pos ⟨hlt, h0⟩, List.getD_eq_getElem?_getD, hm]
    rfl
  · rw [if_neg]
    rintro ⟨h1, h2⟩
    rcases h with h | h
    · exact h h2
    · omega

theorem moveOne_pos {beam : List V4} {p : SP} {m : V4} (h : MovesWith beam p m) (T : ℝ) :
    moveOne beam T p = { p with pos := straight p.pos m T } := by
  unfold moveOne
  rw [moveVel_eq h]
  have : ({ p.pos.add (V4.mk' 0 (m.velocity.smul (T - p.pos.t))) with t := T } : V4) =
      straight p.pos m T := by
    unfold straight V4.add V4.mk' V4.velocity V4.vec V3.div V3.smul
    ext <;> simp only <;> ring
  simp only [this]

/-- **C58**, every particle is moved along its straight line to the target time, nothing else is
changed, and no particle is lost. -/
theorem C58_straight (beam : List V4) (T : ℝ) (ps : List SP) (i : Nat) (p : SP) (m : V4)
    (hp : ps[i]? = some p) (hm : MovesWith beam p m) :
    (propagate beam T ps).1.length = ps.length ∧
    (propagate beam T ps).1[i]? = some { p with pos := straight p.pos m T } := by
  refine ⟨by simp [propagate], ?_⟩
  simp only [propagate, List.getElem?_map, hp, Option.map_some]
  rw [moveOne_pos hm]

/-- Every particle with a valid id moves with exactly one momentum. -/
theorem movesWith_unique (beam : List V4) (p : SP) (h : 0 ≤ p.id) : ∃! m, MovesWith beam p m := by
  by_cases h0 : p.ncoll = 0
  · cases hb : beam[p.id.toNat]? with
    | some m =>
      refine ⟨m, .inl ⟨h0, h, hb⟩, ?_⟩
      intro m' hm'
      rcases hm' with ⟨-, -, hb'⟩ | ⟨hc, -⟩
      · rw [hb] at hb'; exact (Option.some.inj hb').symm
      · rcases hc with hc | hc
        · exact absurd h0 hc
        · have : beam.length ≤ p.id.toNat := by omega
          rw [List.getElem?_eq_none this] at hb
          cases hb
    | none =>
      have hl := List.getElem?_eq_none_iff.1 hb
      refine ⟨p.mom, .inr ⟨.inr (by omega), rfl⟩, ?_⟩
      intro m' hm'
      rcases hm' with ⟨-, -, hb'⟩ | ⟨-, rfl⟩
      · rw [hb] at hb'; cases hb'
      · rfl
  · refine ⟨p.mom, .inr ⟨.inl h0, rfl⟩, ?_⟩
    intro m' hm'
    rcases hm' with ⟨h0', -⟩ | ⟨-, rfl⟩
    · exact absurd h0' h0
    · rfl

/-- **C58**, propagating through any sequence of times is propagating to the last one. -/
theorem C58_steps (beam : List V4) (ts : List ℝ) (T : ℝ) (ps : List SP) :
    (ts ++ [T]).foldl (fun ps t => (propagate beam t ps).1) ps = (propagate beam T ps).1 := by
  induction ts generalizing ps with
  | nil => rfl
  | cons t ts ih =>
    rw [List.cons_append, List.foldl_cons, ih]
    simp only [propagate, List.map_map]
    congr 1
    funext p
    simp only [Function.comp]
    have hv : moveVel beam (moveOne beam t p) = moveVel beam p := rfl
    have hp : ∀ v : V3, ({ (({ p.pos.add (V4.mk' 0 (v.smul (t - p.pos.t))) with t := t } : V4).add
        (V4.mk' 0 (v.smul (T - t)))) with t := T } : V4) =
        { p.pos.add (V4.mk' 0 (v.smul (T - p.pos.t))) with t := T } := by
      intro v
      simp only [V4.add, V4.mk', V3.smul]
      ext <;> simp only <;> ring
    have := hp (moveVel beam p)
    rw [moveOne, hv]
    simp only [moveOne]
    rw [this]

/-- **C58**, backpropagation undoes propagation: particles propagated to any time and
backpropagated to their own time have their old positions, with the same momenta. This holds for
particles that are propagated with their own momenta. -/
theorem C58_back (beam : List V4) (a b : ℝ) (ps : List SP) (ht : ∀ p ∈ ps, p.pos.t = a)
    (hm : ∀ p ∈ ps, MovesWith beam p p.mom) :
    (backpropagate a (propagate beam b ps).1).map (fun p => (p.id, p.pos, p.mom)) =
      ps.map (fun p => (p.id, p.pos, p.mom)) := by
  unfold backpropagate propagate
  simp only [List.map_map]
  refine List.map_congr_left fun p hp => ?_
  simp only [Function.comp, moveOne_pos (hm p hp), backOne, setFormation]
  have h : V4.mk' a ((straight p.pos p.mom b).vec.add
      (p.mom.velocity.smul (a - (straight p.pos p.mom b).t))) = p.pos := by
    have := ht p hp
    unfold straight V4.mk' V4.vec V3.add V4.velocity V3.div V3.smul
    ext <;> simp only [V4.vec] <;> rw [← this] <;> ring
  rw [h]

/-- **C58**, and propagation undoes backpropagation for particles that were at the target time;
meanwhile they count as unformed until the time they started from. -/
theorem C58_back_forward (beam : List V4) (a : ℝ) (p : SP) (hm : MovesWith beam p p.mom) :
    ((moveOne beam p.pos.t (backOne a p)).pos = p.pos) ∧
    (backOne a p).pos.t = a ∧ (backOne a p).mom = p.mom ∧
    (backOne a p).formation = some p.pos.t ∧ (backOne a p).beginFormation = some p.pos.t ∧
    (backOne a p).initialScaling = 0 := by
  refine ⟨?_, rfl, rfl, rfl, rfl, rfl⟩
  have hm' : MovesWith beam (backOne a p) p.mom := hm
  rw [moveOne_pos hm']
  unfold backOne setFormation straight V4.mk' V4.vec V3.add V4.velocity V3.div V3.smul
  ext <;> simp only [V4.vec] <;> ring

/-- With frozen Fermi motion backpropagation does not undo propagation: it uses the particle's own
momentum and not the beam momentum. -/
theorem C58_back_frozen_false : ∃ (beam : List V4) (a b : ℝ) (p : SP),
    p.pos.t = a ∧ (backOne a (moveOne beam b p)).pos ≠ p.pos := by
  refine ⟨[⟨2, 1, 0, 0⟩], 0, 1, ⟨⟨0, ⟨0, 0, 0, 0⟩, ⟨2, 0, 1, 0⟩, .nothing, 0, 0, false, some 0, some 0,
    1⟩, 1, false, none⟩, rfl, ?_⟩
  intro h
  have := congrArg V4.x h
  norm_num [backOne, moveOne, moveVel, setFormation, V4.mk', V4.vec, V3.add, V4.velocity, V3.div,
    V3.smul, V4.add] at this

/-- **C58**, the returned time is the elapsed time if all particles had the same time. -/
theorem C58_returned (beam : List V4) (T t0 : ℝ) (ps : List SP) (hne : ps ≠ [])
    (h : ∀ p ∈ ps, p.pos.t = t0) : (propagate beam T ps).2 = T - t0 := by
  simp only [propagate]
  rw [List.getLast?_eq_getLast_of_ne_nil hne]
  simp only [Option.map_some, Option.getD_some]
  rw [h _ (List.getLast_mem hne)]

/-- Two nucleons, one frozen and one that has interacted. -/
example : MovesWith [⟨2, 1, 0, 0⟩] ⟨⟨0, ⟨0, 0, 0, 0⟩, ⟨2, 0, 1, 0⟩, .projectile, 0, 0, false, some 0,
      some 0, 1⟩, 1, false, none⟩ ⟨2, 1, 0, 0⟩ ∧
    MovesWith [⟨2, 1, 0, 0⟩] ⟨⟨0, ⟨0, 0, 0, 0⟩, ⟨2, 0, 1, 0⟩, .projectile, 1, 0, false, some 0,
      some 0, 1⟩, 1, false, none⟩ ⟨2, 0, 1, 0⟩ :=
  ⟨.inl ⟨rfl, by decide, rfl⟩, .inr ⟨.inl (by decide), rfl⟩⟩

/-! ### Expansion of space -/

/-- The scale factors of the user guide (input_keys.h:1334-1336 and 1407-1410), with `b` the
expansion rate: `(b t + 1)^(1/2)`, `(b t + 1)^(2/3)` and `e^(b t / 2)`. -/
noncomputable def scaleFactor (mode : Expansion) (b t : ℝ) : ℝ :=
  match mode with
  | .none => 1
  | .masslessFRW => (b * t + 1) ^ (1 / 2 : ℝ)
  | .massiveFRW => (b * t + 1) ^ (2 / 3 : ℝ)
  | .exponential => Real.exp (b * t / 2)

theorem hasDerivAt_lin (b t : ℝ) : HasDerivAt (fun s => b * s + 1) b t := by
  have := ((hasDerivAt_id t).const_mul b).add_const 1
  simpa using this

theorem hasDerivAt_pow (b t r : ℝ) (h : 0 < b * t + 1) :
    HasDerivAt (fun s => (b * s + 1) ^ r) (r * b / (b * t + 1) * (b * t + 1) ^ r) t := by
  have h1 := (hasDerivAt_lin b t).rpow_const (p := r) (.inl h.ne')
  convert h1 using 1
  rw [Real.rpow_sub h, Real.rpow_one]
  ring

/-- **C79**, the Hubble parameter used is the logarithmic derivative of the documented scale factor,
except for the exponential metric. -/
theorem C79_hubble_partial (mode : Expansion) (b t : ℝ) (hm : mode ≠ .exponential)
    (h : 0 < b * t + 1) :
    HasDerivAt (scaleFactor mode b) (calcHubble mode b t * scaleFactor mode b t) t := by
  cases mode with
  | none =>
    have h1 : HasDerivAt (fun _ : ℝ => (1 : ℝ)) 0 t := hasDerivAt_const t 1
    have e : calcHubble .none b t * scaleFactor .none b t = 0 := by simp [calcHubble]
    rw [e]
    exact h1
  | masslessFRW =>
    have h1 := hasDerivAt_pow b t (1 / 2) h
    have e : calcHubble .masslessFRW b t * scaleFactor .masslessFRW b t =
        1 / 2 * b / (b * t + 1) * (b * t + 1) ^ (1 / 2 : ℝ) := by
      simp only [calcHubble, scaleFactor]
      congr 1
      field_simp
    rw [e]
    exact h1
  | massiveFRW =>
    have h1 := hasDerivAt_pow b t (2 / 3) h
    have e : calcHubble .massiveFRW b t * scaleFactor .massiveFRW b t =
        2 / 3 * b / (b * t + 1) * (b * t + 1) ^ (2 / 3 : ℝ) := by
      simp only [calcHubble, scaleFactor]
      congr 1
      field_simp
    rw [e]
    exact h1
  | exponential => exact absurd rfl hm

/-- **C79** is false for the exponential metric: the code takes `b t` where the documented scale
factor `e^(b t / 2)` has the Hubble parameter `b / 2`, at every time except `t = 1/2`. -/
theorem C79_exponential_false (b t : ℝ) (hb : b ≠ 0) (ht : t ≠ 1 / 2) :
    ¬ HasDerivAt (scaleFactor .exponential b)
      (calcHubble .exponential b t * scaleFactor .exponential b t) t := by
  intro h
  have h1 : HasDerivAt (fun s : ℝ => b * s / 2) (b / 2) t := by
    have := ((hasDerivAt_id t).const_mul b).div_const 2
    simpa using this
  have h2 := h1.exp
  have := h.unique h2
  simp only [calcHubble, scaleFactor] at this
  rw [mul_comm] at this
  have h3 := mul_left_cancel₀ (Real.exp_pos _).ne' this
  apply ht
  have : b * (t - 1 / 2) = 0 := by linarith
  rcases mul_eq_zero.1 this with h' | h'
  · exact absurd h' hb
  · linarith

/-- **C79**, one expansion step stretches all positions by `1 + H dt`, shrinks all momenta by
`1 - H dt` and leaves every particle on its mass shell at its time; no particle is lost. -/
theorem C79_step (mode : Expansion) (b time dt : ℝ) (ps : List SP) (i : Nat) (p : SP)
    (hp : ps[i]? = some p) :
    (expand mode b time dt ps).length = ps.length ∧
    ∃ q, (expand mode b time dt ps)[i]? = some q ∧ q.id = p.id ∧ q.poleMass = p.poleMass ∧
      q.pos = ⟨p.pos.t, p.pos.x * (1 + calcHubble mode b time * dt),
        p.pos.y * (1 + calcHubble mode b time * dt), p.pos.z * (1 + calcHubble mode b time * dt)⟩ ∧
      (q.mom.x = p.mom.x * (1 - calcHubble mode b time * dt) ∧
       q.mom.y = p.mom.y * (1 - calcHubble mode b time * dt) ∧
       q.mom.z = p.mom.z * (1 - calcHubble mode b time * dt)) ∧
      0 ≤ q.mom.t ∧
      q.mom.t ^ 2 - q.mom.x ^ 2 - q.mom.y ^ 2 - q.mom.z ^ 2 = p.poleMass ^ 2 := by
  refine ⟨by simp [expand], expandOne (calcHubble mode b time) dt p, by simp [expand, hp], rfl, rfl, ?_, ?_, ?_, ?_⟩
  · unfold expandOne V4.add V4.mk' V3.smul V4.vec
    ext <;> simp only <;> ring
  · unfold expandOne V4.sub V4.mk' V3.smul V4.vec
    refine ⟨?_, ?_, ?_⟩ <;> simp only <;> ring
  · exact Real.sqrt_nonneg _
  · unfold expandOne V4.mk'
    simp only
    rw [Real.sq_sqrt]
    · unfold V3.dot; ring
    · unfold V3.dot
      nlinarith [mul_self_nonneg p.poleMass, mul_self_nonneg (p.mom.sub (V4.mk' 0 ((p.mom.vec.smul
        (calcHubble mode b time)).smul dt))).vec.x, mul_self_nonneg (p.mom.sub (V4.mk' 0
        ((p.mom.vec.smul (calcHubble mode b time)).smul dt))).vec.y, mul_self_nonneg (p.mom.sub
        (V4.mk' 0 ((p.mom.vec.smul (calcHubble mode b time)).smul dt))).vec.z]

end Verif.Stream
