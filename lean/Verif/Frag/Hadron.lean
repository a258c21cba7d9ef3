import Verif.Frag.Model
import Mathlib.Algebra.Order.Ring.Rat
/-
Model of the choice of hadrons and of scaling factors in stringprocess.cc.  Masses and weights are
rational numbers.
-/
namespace Verif.Frag

/-- What is asked of a particle type. `code` is the representation of the PDG code. -/
structure PType where
  code : Nat
  stable : Bool
  mass : Rat
  minMass : Rat
  /-- known to PYTHIA -/
  known : Bool
deriving DecidableEq

/-- `frag_net_q`/`net_qnumber`: the net quark number of the two ends, stringprocess.cc:2597-2606
and 2703-2722. -/
def endsNet (idq1 idq2 : Int) (j : Fin 5) : Int :=
  (if idq1 > 0 then nQuarksInCode idq1 j else -nQuarksInCode idq1 j) +
  (if idq2 > 0 then nQuarksInCode idq2 j else -nQuarksInCode idq2 j)

/-- PYTHIA's `baryonNumberType`: three times the baryon number. -/
def baryonType (id : Int) : Int :=
  if isQuark id then (if id > 0 then 1 else -1)
  else if isDiquark id then (if id > 0 then 2 else -2) else 0

/-- The baryon number of a valid string, stringprocess.cc:2670-2701; `none` for `return 0`. -/
def stringBaryon (idq1 idq2 : Int) : Option Int :=
  if idq1 > 0 ∧ isQuark idq1 then
    if idq2 < 0 ∧ isQuark idq2 then some 0
    else if idq2 > 0 ∧ isDiquark idq2 then some 1
    else none
  else if idq1 < 0 ∧ isDiquark idq1 then
    if idq2 < 0 ∧ isQuark idq2 then some (-1) else none
  else none

/-- The conserved charges compared in stringprocess.cc:2735-2750, 2624-2629. -/
def sameFlavour (q : Fin 5 → Int) (d : Nat) : Bool :=
  Pdg.isospin3 d == q 1 - q 0 && Pdg.strangeness d == -q 2 && Pdg.charmness d == q 3 &&
    Pdg.bottomness d == -q 4

/-- The candidates of `get_resonance_from_quark`, stringprocess.cc:2728-2757. -/
def candidates (types : List PType) (baryon : Int) (q : Fin 5 → Int) (mass : Rat) : List PType :=
  types.filter fun t => Pdg.isHadron t.code && !t.stable && Pdg.baryonNumber t.code == baryon &&
    !decide (mass < t.minMass) && sameFlavour q t.code

/-- The search for the closest pole mass, stringprocess.cc:2766-2775. -/
def closest (mass : Rat) : PType → Rat → List PType → PType
  | best, _, [] => best
  | best, diff, t :: l =>
    if |mass - t.mass| < diff then closest mass t (mass - t.mass) l else closest mass best diff l

/-- `get_resonance_from_quark`, stringprocess.cc:2662-2781; `none` for `return 0`. -/
def resonance (pionMass : Rat) (types : List PType) (idq1 idq2 : Int) (mass : Rat) : Option PType :=
  if mass < pionMass then none
  else (stringBaryon idq1 idq2).bind fun b =>
    match candidates types b (endsNet idq1 idq2) mass with
    | [] => none
    | t :: l => some (closest mass t |mass - t.mass| l)

/-- The candidates of `get_hadrontype_from_quark`, stringprocess.cc:2617-2638. -/
def possible (types : List PType) (idq1 idq2 : Int) : List PType :=
  types.filter fun t => Pdg.isHadron t.code && t.known &&
    baryonType idq1 + baryonType idq2 == 3 * Pdg.baryonNumber t.code &&
    sameFlavour (endsNet idq1 idq2) t.code

/-- The selection by weight, stringprocess.cc:2641-2656: `sum` is `weight_summed[i]`. -/
def selectByWeight (w : PType → Rat) (u : Rat) : Rat → List PType → Option PType
  | _, [] => none
  | sum, t :: l => if sum ≤ u ∧ u < sum + w t then some t else selectByWeight w u (sum + w t) l

/-- `get_hadrontype_from_quark`, stringprocess.cc:2574-2660, after PYTHIA has failed: the weight is
the spin degeneracy over the mass, `u` the random number. -/
def hadronType (deg : PType → Rat) (types : List PType) (idq1 idq2 : Int) (u : Rat) : Option PType :=
  selectByWeight (fun t => deg t / t.mass) u 0 (possible types idq1 idq2)

/-! ### Scaling factors -/

inductive Kind | meson | baryon | antibaryon
deriving DecidableEq

/-- `baryon_number`. -/
def Kind.number : Kind → Int
  | .meson => 0
  | .baryon => 1
  | .antibaryon => -1

/-- `contains_enough_valence_quarks`, pdgcode.cc:92-106. -/
def enough (k : Kind) (n : Int) : Bool :=
  match k with
  | .meson => n == 1 || n == -1
  | .baryon => n == 1 || n == 2
  | .antibaryon => n == -1 || n == -2

/-- `assign_scaling_factor`, stringprocess.cc:3182-3195. -/
def scaling (nquark : Int) (k : Kind) (suppression : Rat) : Rat :=
  if k.number = 0 then 1 / 2 * suppression else suppression * nquark / (3 * k.number)

/-- The first loop of `find_leading`, stringprocess.cc:3202-3205. -/
def firstIndex (n : Int) : List Kind → Nat
  | [] => 0
  | k :: l => if enough k n then 0 else firstIndex n l + 1

/-- `find_leading`, stringprocess.cc:3197-3212; the second loop runs from the end and stops at -1. -/
def findLeading (nq1 nq2 : Int) (l : List Kind) : Int × Int :=
  (firstIndex nq1 l, (l.length : Int) - 1 - firstIndex nq2 l.reverse)

/-- Assignment to an element of the list; `none` if the index is out of range. -/
def assign (nquark : Int) (supp : Rat) (kinds : List Kind) (i : Int) (f : List Rat) : Option (List Rat) :=
  if 0 ≤ i then
    (kinds[i.toNat]?).map fun k => f.set i.toNat (scaling nquark k supp)
  else none

/-- `assign_all_scaling_factors`, stringprocess.cc:3214-3259, for the sorted list of fragments;
outer `none`: exception, inner `none`: access outside of the list. -/
def assignAll (baryonString : Int) (kinds : List Kind) (supp : Rat) : Option (Option (List Rat)) :=
  let f := List.replicate kinds.length (0 : Rat)
  let n : Option (Int × Int) :=
    if baryonString = 0 then some (-1, 1) else if baryonString = 1 then some (2, 1)
    else if baryonString = -1 then some (-2, -1) else none
  n.map fun n =>
    let i := findLeading n.1 n.2 kinds
    let j := findLeading n.2 n.1 kinds
    if baryonString = 0 ∧ i.2 - i.1 < j.2 - j.1 then
      (assign n.2 supp kinds j.1 f).bind (assign n.1 supp kinds j.2)
    else (assign n.1 supp kinds i.1 f).bind (assign n.2 supp kinds i.2)

/-- `pdg_map_for_pythia`, stringprocess.cc:3261-3281: the representation of the mapped code. -/
def mapForPythia (d : Nat) : Option Nat :=
  if Pdg.baryonNumber d = 1 then some (if Pdg.charge d > 0 then 0x2212 else 0x2112)
  else if Pdg.baryonNumber d = -1 then some (if Pdg.charge d < 0 then 0x80002212 else 0x80002112)
  else if Pdg.isHadron d then some (if Pdg.charge d ≥ 0 then 0x211 else 0x80000211)
  else if Pdg.isLepton d then some (if Pdg.charge d < 0 then 0x11 else 0x80000011)
  else none

end Verif.Frag
