import Verif.Resc.Model
import Mathlib.Logic.Function.Basic
/-
Model of `StringProcess::find_total_number_constituent` and `splitting_gluon_qqbar`, stringprocess.cc:897-1057, and of the energy that
`restore_constituent` (1116-1272) hands to the rescaling of the momenta.  All entries of the event record are final (only such partons are
copied to it, 621-635).  `nQuarksInCode` of PYTHIA, the masses, the rapidity and the transverse momenta drawn are functions; the
draws are numbered with the number of entries, which grows with each splitting.
-/
namespace Verif.Glue
open Verif.Resc

/-- A parton: PDG number, colour, anticolour (0: none), mass, momentum and energy. -/
structure Parton where
  id : Int
  col : Nat
  acol : Nat
  kin : Part

/-- What is taken from PYTHIA and from the random numbers. -/
structure Env where
  /-- `nQuarksInCode` -/
  nq : Int → Nat → Int
  /-- `particleData.m0` -/
  m0 : Int → ℝ
  /-- rapidity -/
  y : Parton → ℝ
  /-- `qx` and `qy` -/
  draw : Nat → ℝ × ℝ

/-- An access beyond the event record. -/
inductive Err
  | outOfRange

/-- `nquark_total`, stringprocess.cc:897-923. -/
def quarks (E : Env) (l : List Parton) (f : Nat) : Int := (l.map fun q => if q.id > 0 then E.nq q.id f else 0).sum

/-- `nantiq_total`, stringprocess.cc:897-923. -/
def antiquarks (E : Env) (l : List Parton) (f : Nat) : Int := (l.map fun q => if q.id > 0 then 0 else E.nq |q.id| f).sum

open Classical in
/-- The loop over the gluons, stringprocess.cc:971-983; `fwd`: `ih_mod == 0`. -/
noncomputable def chooseLoop (E : Env) (fwd : Bool) (best : Nat) (yb : ℝ) (i : Nat) : List Parton → Nat
  | [] => best
  | q :: qs =>
    if q.id = 21 ∧ ((fwd = true ∧ E.y q > yb) ∨ (fwd = false ∧ E.y q < yb)) then chooseLoop E fwd i (E.y q) (i + 1) qs
    else chooseLoop E fwd best yb (i + 1) qs

/-- The most forward or backward gluon, stringprocess.cc:970-983. -/
noncomputable def choose (E : Env) (fwd : Bool) : List Parton → Nat
  | [] => 0
  | q :: qs => chooseLoop E fwd 0 (E.y q) 1 qs

/-- Quark (`s = 1`) and antiquark (`s = -1`) of a gluon, stringprocess.cc:993-1028. -/
noncomputable def half (E : Env) (f : Nat) (q : ℝ × ℝ) (g : Part) (s : ℝ) : Part :=
  let m := E.m0 f
  let px := 1 / 2 * g.px + s * q.1
  let py := 1 / 2 * g.py + s * q.2
  let pz := 1 / 2 * g.pz
  ⟨m, px, py, pz, Real.sqrt (m * m + px * px + py * py + pz * pz)⟩

/-- One splitting, stringprocess.cc:967-1037: `none` if there is no gluon. -/
noncomputable def splitOne (E : Env) (fwd : Bool) (f : Nat) (l : List Parton) : Except Err (Option (List Parton)) :=
  let i := choose E fwd l
  match l[i]? with
  | none => .error .outOfRange
  | some g =>
    if g.id ≠ 21 then .ok none
    else
      let q := E.draw l.length
      .ok (some (l.eraseIdx i ++ [⟨f, g.col, 0, half E f q g.kin 1⟩, ⟨-f, 0, g.acol, half E f q g.kin (-1)⟩]))

/-- The event record, `nquark_total` and `nantiq_total`. -/
structure State where
  l : List Parton
  nq : Nat → Int
  na : Nat → Int

/-- The loop over `ic`, stringprocess.cc:958-1047. -/
noncomputable def splitTimes (E : Env) (fwd : Bool) (f : Nat) : Nat → State → Except Err (Bool × State)
  | 0, s => .ok (true, s)
  | n + 1, s =>
    match splitOne E fwd f s.l with
    | .error e => .error e
    | .ok none => .ok (false, s)
    | .ok (some l) => splitTimes E fwd f n ⟨l, Function.update s.nq f (s.nq f + 1), Function.update s.na f (s.na f + 1)⟩

/-- The loop over the flavours, stringprocess.cc:936-1049; `ex0`, `ex1`: the excesses of the two hadrons. -/
noncomputable def splitFlavours (E : Env) (sign : Bool) (ex0 ex1 : Nat → Int) : List Nat → State → Except Err (Bool × State)
  | [], s => .ok (true, s)
  | f :: fs, s =>
    let final := ex0 f + ex1 f + if sign then s.nq f else s.na f
    if final ≥ 0 then splitFlavours E sign ex0 ex1 fs s
    else
      match splitTimes E (decide (ex0 f < 0)) f final.natAbs s with
      | .error e => .error e
      | .ok (false, s') => .ok (false, s')
      | .ok (true, s') => splitFlavours E sign ex0 ex1 fs s'

/-- `splitting_gluon_qqbar`, stringprocess.cc:926-1057. -/
noncomputable def split (E : Env) (sign : Bool) (ex0 ex1 : Nat → Int) (l : List Parton) : Except Err (Bool × State) :=
  splitFlavours E sign ex0 ex1 [1, 2, 3, 4, 5] ⟨l, quarks E l, antiquarks E l⟩

/-- The total energy of partons. -/
def energyOf (l : List Parton) : ℝ := energy (l.map Parton.kin)

/-- The rescaling in `restore_constituent`: `pSum` is read before the gluons are split (stringprocess.cc:1120-1121) and then only follows
the replacement of the constituents (1187, 1211), before the loop of 1234.  `l`: event of PYTHIA, `l1`: after the splitting, `l2`:
after the replacement. -/
noncomputable def rescaleAll (fuel : Nat) (l l1 l2 : List Parton) : Option (List Part) :=
  loop fuel (energyOf l) (energyOf l + (energyOf l2 - energyOf l1)) (l2.map Parton.kin)

end Verif.Glue
