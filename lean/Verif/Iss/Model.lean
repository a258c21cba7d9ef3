import Mathlib.Data.Rat.Defs
import Mathlib.Algebra.Order.Ring.Rat
/-
Model of the particle list in the format of iSS (`smash --dump-iSS`), smash.cc:537-579.  The lines are modelled by the values printed;
rounding and padding by `printf` are not.  `std::sort` is modelled by its contract: `sorted` in `Props` is any arrangement by mass.
-/
namespace Verif.Iss

/-- A decay mode: weight and the decimal PDG numbers of the products. -/
structure Decay where
  weight : ℚ
  products : List Int

/-- What is printed of a `ParticleType`, and what decides if it is printed. -/
structure PType where
  pdg : Int
  name : String
  mass : ℚ
  width : ℚ
  spinDeg : Int
  baryon : Int
  strange : Int
  charm : Int
  bottom : Int
  isospin : Int
  charge : Int
  lepton : Bool
  stable : Bool
  modes : List Decay

/-- The line of a particle. -/
structure Head where
  pdg : Int
  name : String
  mass : ℚ
  width : ℚ
  spinDeg : Int
  baryon : Int
  strange : Int
  charm : Int
  bottom : Int
  isoDeg : Int
  charge : Int
  ndecays : Nat

/-- The line of a decay: PDG number of the particle, number of products, weight, five products. -/
structure DecayLine where
  pdg : Int
  n : Nat
  weight : ℚ
  products : List Int

/-- A line of the output. -/
inductive Line
  | head (h : Head)
  | decay (d : DecayLine)

/-- The line of a particle, smash.cc:553-563; `isospin()` is twice the isospin. -/
def headLine (t : PType) : Head :=
  ⟨t.pdg, t.name, t.mass, t.width, t.spinDeg, t.baryon, t.strange, t.charm, t.bottom, t.isospin + 1, t.charge,
    if t.stable then 1 else t.modes.length⟩

/-- The line of a decay, smash.cc:566-571; `none`: fewer than two products (undefined behaviour). -/
def decayLine (t : PType) (d : Decay) : Option DecayLine :=
  match d.products with
  | a :: b :: _ => some ⟨t.pdg, 2, d.weight, [a, b, 0, 0, 0]⟩
  | _ => none

/-- All lines of the decays, smash.cc:564-577. -/
def decayLines (t : PType) : Option (List DecayLine) :=
  if t.stable then some [⟨t.pdg, 1, 1, [t.pdg, 0, 0, 0, 0]⟩]
  else t.modes.mapM (decayLine t)

/-- The loop over the sorted list, smash.cc:548-578. -/
def dump : List PType → Option (List Line)
  | [] => some []
  | t :: ts =>
    if t.lepton || decide (t.baryon < 0) then dump ts
    else
      match decayLines t, dump ts with
      | some ds, some ls => some (.head (headLine t) :: ds.map .decay ++ ls)
      | _, _ => none

end Verif.Iss
