import Verif.Frag.Mom
import Mathlib.Analysis.SpecialFunctions.Trigonometric.DerivHyp
import Mathlib.Analysis.SpecialFunctions.Log.Basic
/-
Model of the correction of the kinematics of the hadrons of a string: `remake_kinematics_fragments`, stringprocess.cc:2885-3180,
and `shift_rapidity_event`, stringprocess.h:1060-1094.  Doubles are exact real numbers; log messages are dropped.  The event
record of PYTHIA is reduced to its first entry (the whole system) and the entries of final particles: all loops skip the others.
-/
namespace Verif.Rem
open Verif.Kin Real

/-- The event record: momentum of entry 0, momenta of the final particles in their order. -/
structure Event where
  sys : V4
  had : List V4

/-- Sum of four-momenta, for instance stringprocess.cc:2935-2945. -/
def total : List V4 → V4
  | [] => ⟨0, 0, 0, 0⟩
  | p :: l => p.add (total l)

/-- p^+ and p^-, stringprocess.h:1076-1079. -/
noncomputable def plus (b : V3 × V3 × V3) (p : V4) : ℝ := (p.t + p.vec.dot b.1) * √(1 / 2)
@[inherit_doc plus] noncomputable def minus (b : V3 × V3 × V3) (p : V4) : ℝ := (p.t - p.vec.dot b.1) * √(1 / 2)
/-- The transverse mass, stringprocess.h:1080. -/
noncomputable def mTr (b : V3 × V3 × V3) (p : V4) : ℝ := √(2 * plus b p * minus b p)
/-- The rapidity, stringprocess.h:1082; for the string stringprocess.cc:2950-2951. -/
noncomputable def rap (b : V3 × V3 × V3) (p : V4) : ℝ := 1 / 2 * log (plus b p / minus b p)

/-- One particle in `shift_rapidity_event`, stringprocess.h:1085-1091. -/
noncomputable def shiftOne (b : V3 × V3 × V3) (f d : ℝ) (p : V4) : V4 :=
  let y := f * rap b p + d
  V4.mk' (mTr b p * cosh y) (p.vec.add (b.1.smul (mTr b p * sinh y - p.vec.dot b.1)))

/-- `shift_rapidity_event`, stringprocess.h:1060-1094. -/
noncomputable def shift (b : V3 × V3 × V3) (f d : ℝ) (ev : Event) : Event :=
  ⟨total (ev.had.map (shiftOne b f d)), ev.had.map (shiftOne b f d)⟩

/-- `Vec4::mCalc` of PYTHIA: the invariant mass, negative for space-like vectors. -/
noncomputable def mCalc (p : V4) : ℝ := if 0 ≤ p.sqr then √p.sqr else -√(-p.sqr)

/-- The most forward particle, stringprocess.cc:2955-2983: its place in the record and its rapidity; 0: none found. -/
noncomputable def forward : List ℝ → ℕ → ℕ × ℝ → ℕ × ℝ
  | [], _, s => s
  | y :: l, i, s => forward l (i + 1) (if y > s.2 then (i, y) else s)

/-- The most backward particle, stringprocess.cc:2955-2983. -/
noncomputable def backward : List ℝ → ℕ → ℕ × ℝ → ℕ × ℝ
  | [], _, s => s
  | y :: l, i, s => backward l (i + 1) (if y < s.2 then (i, y) else s)

/-- `event[i].p()` and `event[i].p(v)`. -/
def Event.get (ev : Event) (i : ℕ) : V4 := if i = 0 then ev.sys else ev.had.getD (i - 1) ⟨0, 0, 0, 0⟩
@[inherit_doc Event.get] def Event.put (ev : Event) (i : ℕ) (p : V4) : Event :=
  if i = 0 then { ev with sys := p } else { ev with had := ev.had.set (i - 1) p }

/-- A particle with additional transverse momentum, stringprocess.cc:3015-3027 and 3035-3047. -/
noncomputable def kick (b : V3 × V3 × V3) (qx qy : ℝ) (p : V4) : V4 :=
  let v := (p.vec.add (b.2.1.smul qx)).add (b.2.2.smul qy)
  V4.mk' (√(v.sqr + mCalc p * mCalc p)) v

/-- Momentum added to the particles at the places `i` and `j`, stringprocess.cc:3005-3055; `pt`: momentum of the string. -/
noncomputable def addEnds (b : V3 × V3 × V3) (i j : ℕ) (ax ay cx cy : ℝ) (pt : V4) (ev : Event) : Event :=
  let ev1 := ev.put i (kick b ax ay (ev.get i))
  let ev2 := ev1.put j (kick b cx cy (ev1.get j))
  { ev2 with sys := (((pt.sub (ev.get i)).add (kick b ax ay (ev.get i))).sub (ev1.get j)).add (kick b cx cy (ev1.get j)) }

/-- The derivative of the squared mass of the string, stringprocess.cc:3115-3137. -/
noncomputable def slope (b : V3 × V3 × V3) (ev : Event) : ℝ :=
  let y0 := rap b ev.sys
  2 * (ev.sys.t * (ev.had.map fun p => mTr b p * (rap b p - y0) * sinh (rap b p)).sum -
    ev.sys.vec.dot b.1 * (ev.had.map fun p => mTr b p * (rap b p - y0) * cosh (rap b p)).sum)

/-- `fac_yrapid`, stringprocess.cc:3138; without slope the argument of the hyperbolic tangent is infinite. -/
noncomputable def factor (d s : ℝ) : ℝ := if s = 0 then (if d > 0 then 2 else 0) else 1 + tanh (d / s)

/-- The iteration, stringprocess.cc:3103-3160. -/
noncomputable def rescale (b : V3 × V3 × V3) (mass : ℝ) : ℕ → Event → Option Event
  | 0, _ => none
  | n + 1, ev =>
    if |mCalc ev.sys - mass| < 1 / 1000000 * mass then some ev
    else
      let f := factor (mass ^ 2 - mCalc ev.sys * mCalc ev.sys) (slope b ev)
      rescale b mass n (shift b f ((1 - f) * rap b ev.sys) ev)

/-- The string and the transverse momenta to be added, the arguments of `remake_kinematics_fragments`. -/
structure Goal where
  (pp pn qx qy ax ay cx cy : ℝ)

/-- The mass of the string, stringprocess.cc:2903-2919. -/
noncomputable def Goal.mass (g : Goal) : ℝ :=
  √(√(2 * g.pp * g.pn) * √(2 * g.pp * g.pn) - √(g.qx * g.qx + g.qy * g.qy) * √(g.qx * g.qx + g.qy * g.qy))

/-- `remake_kinematics_fragments`, stringprocess.cc:2885-3180, from the boost into the rest frame on (2927). -/
noncomputable def remakeEnds (b : V3 × V3 × V3) (g : Goal) (ev : Event) : Option (List V4) :=
  let ev1 := shift b 1 (-rap b (total ev.had)) ev
  let i := (forward (ev1.had.map (rap b)) 1 (0, 0)).1
  let j := (backward (ev1.had.map (rap b)) 1 (0, 0)).1
  let pt := total ev1.had
  if ¬|pt.vec.dot b.2.1 + g.ax + g.cx - g.qx| < 1 / 10000 * g.mass then none
  else if ¬|pt.vec.dot b.2.2 + g.ay + g.cy - g.qy| < 1 / 10000 * g.mass then none
  else
    let ev2 := addEnds b i j g.ax g.ay g.cx g.cy pt ev1
    if √(2 * g.pp * g.pn) < (ev2.had.map (mTr b)).sum then none
    else match rescale b g.mass 10000 ev2 with
    | none => none
    | some ev3 => some (shift b 1 (1 / 2 * log (g.pp / g.pn) - rap b ev3.sys) ev3).had

/-- `remake_kinematics_fragments`, stringprocess.cc:2885-3180: the momenta of the final particles; `none`: false. -/
noncomputable def remake (b : V3 × V3 × V3) (g : Goal) (ev : Event) : Option (List V4) :=
  if g.pp < 0 ∨ g.pn < 0 then none
  else if √(2 * g.pp * g.pn) < √(g.qx * g.qx + g.qy * g.qy) then none
  else if |g.ax| < 1 / 10000 * g.mass ∧ |g.ay| < 1 / 10000 * g.mass ∧ |g.cx| < 1 / 10000 * g.mass ∧ |g.cy| < 1 / 10000 * g.mass then
    some ev.had
  else remakeEnds b g ev

end Verif.Rem
