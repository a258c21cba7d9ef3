import Verif.Act.Model
/-
Model of the spin vectors in scatterings, scatteraction.cc:74-104, 630-667 and 783-897, and in decays, decayaction.cc:99-137.
-/
namespace Verif.Pol
open Verif Kin Act

/-- What is needed of a particle: four-momentum, spin vector and kind. `spinless`: no spin or no mass, particledata.cc:94. -/
structure Part where
  p : V4
  S : V4
  isLambda : Bool
  isPion : Bool
  isSigmaStar : Bool
  spinless : Bool

/-- The process types with a final state, scatteraction.cc:74-104. -/
inductive Proc where
  | elastic | twoToOne | twoToTwo | twoToMany | stringAX | stringXB | stringOther
  deriving DecidableEq

/-- `set_unpolarized_spin_vector`, particledata.cc:88-123; `s`: the three numbers drawn. -/
noncomputable def unpolarize (o : Part) (s : V3) : Part :=
  { o with S := if o.spinless then ⟨0, 0, 0, 0⟩ else unpolarizedSpin o.p s }

/-- `assign_unpolarized_spin_vector_to_outgoing_particles`, action.cc:478-482; `draw n`: numbers for the n-th particle. -/
noncomputable def unpolarizeAll (draw : ℕ → V3) : List Part → List Part
  | [] => []
  | o :: os => unpolarize o (draw 0) :: unpolarizeAll (fun n => draw (n + 1)) os

/-- A spin flip, scatteraction.cc:843-852: the spatial components are reversed in the frame with velocity `v`. -/
noncomputable def flip (S : V4) (v : V3) : V4 :=
  let r := boost S v
  boost ⟨r.t, -r.x, -r.y, -r.z⟩ v.neg

/-- `spin_interaction`, scatteraction.cc:795-862; `k`: random number from 1 to 9; `none`: not enough outgoing particles. -/
noncomputable def spinInteraction (on : Bool) (pr : Proc) (k : ℕ) (i1 i2 : Part) (out : List Part) : Option (List Part) :=
  if !on then some out
  else if pr = .elastic then
    match out with
    | a :: b :: os => some ({ a with S := boost a.S a.p.velocity } :: { b with S := boost b.S b.p.velocity } :: os)
    | _ => none
  else if pr = .twoToOne then
    match out with
    | o :: os =>
      if o.isSigmaStar && (i1.isLambda || i2.isLambda) && (i1.isPion || i2.isPion) then
        let l := if i1.isLambda then i1 else i2
        let S := if k ≤ 7 then l.S else flip l.S l.p.velocity
        some ({ o with S := boost S o.p.velocity } :: os)
      else some out
    | [] => none
  else some out

/-- `string_spin_interaction`, scatteraction.cc:864-897; `none`: no outgoing particle. -/
noncomputable def stringSpin (on : Bool) (pr : Proc) (draw : ℕ → V3) (i1 i2 : Part) (out : List Part) : Option (List Part) :=
  if !on then some out
  else if pr = .stringAX ∨ pr = .stringXB then
    match out.getLast? with
    | none => none
    | some h =>
      let i := if pr = .stringAX then i1 else i2
      some (unpolarizeAll draw out.dropLast ++ [{ h with S := boost i.S h.p.velocity }])
  else some (unpolarizeAll draw out)

/-- The spins of the final state, scatteraction.cc:74-104 with 619-667: `out` holds the outgoing particles with their momenta in the centre-of-mass frame
and the spin vectors they had before (for elastic scattering copies of the incoming particles, scatteraction.cc:621-622). -/
noncomputable def final (on : Bool) (pr : Proc) (k : ℕ) (draw : ℕ → V3) (i1 i2 : Part) (out : List Part) : Option (List Part) :=
  match pr with
  | .elastic =>
    match out with
    | [a, b] => spinInteraction on pr k i1 i2 [{ a with S := i1.S }, { b with S := i2.S }]
    | _ => none
  | .twoToOne => some (if on then unpolarizeAll draw out else out)
  | .twoToTwo => spinInteraction on pr k i1 i2 (if on then unpolarizeAll draw out else out)
  | .twoToMany => some (if on then unpolarizeAll draw out else out)
  | _ => stringSpin on pr draw i1 i2 out

/-- The spins of the products of a decay, decayaction.cc:99-137 with decayaction.h:138-162. -/
noncomputable def decaySpin (on : Bool) (draw : ℕ → V3) (parent : Part) (out : List Part) : List Part :=
  if !on then out
  else match out with
    | [a, b] =>
      if parent.isSigmaStar && a.isLambda && b.isPion && !b.isLambda && !a.isPion then
        [{ a with S := boost parent.S a.p.velocity }, { b with S := ⟨0, 0, 0, 0⟩ }]
      else if parent.isSigmaStar && b.isLambda && a.isPion && !a.isLambda && !b.isPion then
        [{ a with S := ⟨0, 0, 0, 0⟩ }, { b with S := boost parent.S b.p.velocity }]
      else unpolarizeAll draw out
    | _ => unpolarizeAll draw out

end Verif.Pol
