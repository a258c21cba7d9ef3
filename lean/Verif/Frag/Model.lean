import Verif.Pdg.Model
import Mathlib.Algebra.BigOperators.Fin
import Mathlib.Data.Fintype.Pi
import Mathlib.Data.List.FinRange
/-
Model of the flavour bookkeeping of stringprocess.cc.  Random numbers and the choice of the most
forward parton are arguments.  Partons are given by their PDG numbers.
-/
namespace Verif.Frag

/-! ### Diquarks and string ends -/

/-- `quarks_from_diquark`, stringprocess.cc:1694-1708: the two quarks and the spin degeneracy. -/
def quarksFromDiquark (diquark : Int) : Int × Int × Int :=
  let a : Int := diquark.natAbs
  let deg := a % 10
  let sign : Int := if diquark > 0 then 1 else -1
  ((sign * (a - a % 1000)).tdiv 1000, (sign * (a % 1000 - deg)).tdiv 100, deg)

/-- `diquark_from_quarks`, stringprocess.cc:1710-1721; `r` is the random number from 0 to 3. -/
def diquarkFromQuarks (q1 q2 r : Int) : Int :=
  let p : Int × Int := if q1.natAbs < q2.natAbs then (q2, q1) else (q1, q2)
  let d : Int := (p.1 * 1000 + p.2 * 100).natAbs + (if p.1 ≠ p.2 ∧ r = 0 then 1 else 3)
  if p.1 < 0 then -d else d

/-- The random choices of `make_string_ends`. -/
structure Choice where
  /-- `random::uniform(0., 1.) < xi` -/
  below : Bool
  /-- `random::uniform_int(0, 2)` -/
  pick : Fin 3
  /-- `random::uniform_int(0, 1) == 0` -/
  mix : Bool
  /-- the number drawn in `diquark_from_quarks` -/
  r : Int

/-- The choice of the ends in `make_string_ends`, stringprocess.cc:1725-1763, from the properties of
the hadron that are asked for. -/
def chooseEnds (nucleon neutral meson : Bool) (q : Int × Int × Int) (c : Choice) : Int × Int :=
  if nucleon then
    if neutral then
      if c.below then (q.1, diquarkFromQuarks q.2.1 q.2.2 c.r)
      else (q.2.1, diquarkFromQuarks q.1 q.2.2 c.r)
    else
      if c.below then (q.2.2, diquarkFromQuarks q.1 q.2.1 c.r)
      else (q.1, diquarkFromQuarks q.2.1 q.2.2 c.r)
  else if meson then
    if q.2.1 = 1 ∧ q.2.2 = -1 ∧ c.mix then (2, -2) else (q.2.1, q.2.2)
  else
    match c.pick with
    | 0 => (q.1, diquarkFromQuarks q.2.1 q.2.2 c.r)
    | 1 => (q.2.1, diquarkFromQuarks q.1 q.2.2 c.r)
    | 2 => (q.2.2, diquarkFromQuarks q.2.1 q.1 c.r)

/-- The last step of `make_string_ends`, stringprocess.cc:1765-1768. -/
def order (e : Int × Int) : Int × Int := if e.1 < 0 then (e.2, e.1) else e

/-- `is_nucleon`, pdgcode.h:404-407. -/
def isNucleon (d : Nat) : Bool := (Pdg.code d).natAbs == 0x2212 || (Pdg.code d).natAbs == 0x2112

/-- `make_string_ends`, stringprocess.cc:1723-1769. -/
def makeStringEnds (d : Nat) (c : Choice) : Int × Int :=
  order (chooseEnds (isNucleon d) (Pdg.charge d == 0) (Pdg.isMeson d) (Pdg.quarkContent d) c)

/-! ### Excess of constituents -/

/-- Numbers per flavour d, u, s, c, b. -/
abbrev Flav := Fin 5 → Int

/-- The increments in `find_excess_constituent` for one constituent, stringprocess.cc:789-811; `none`
if the index is outside of the array. -/
def count1 (q : Int) (positive : Bool) (amount : Int) (e : Flav) : Option Flav :=
  if (if positive then q > 0 else q < 0) then
    if h : q.natAbs - 1 < 5 then
      some (Function.update e ⟨q.natAbs - 1, h⟩ (e ⟨q.natAbs - 1, h⟩ + amount))
    else none
  else some e

/-- `find_excess_constituent`, stringprocess.cc:778-811, for the quark contents of the two hadrons:
the excess of quarks and of antiquarks. -/
def findExcess (actual mapped : Int × Int × Int) : Option (Flav × Flav) := do
  let q ← count1 actual.1 true 1 0
  let q ← count1 mapped.1 true (-1) q
  let a ← count1 actual.1 false 1 0
  let a ← count1 mapped.1 false (-1) a
  let q ← count1 actual.2.1 true 1 q
  let q ← count1 mapped.2.1 true (-1) q
  let a ← count1 actual.2.1 false 1 a
  let a ← count1 mapped.2.1 false (-1) a
  let q ← count1 actual.2.2 true 1 q
  let q ← count1 mapped.2.2 true (-1) q
  let a ← count1 actual.2.2 false 1 a
  let a ← count1 mapped.2.2 false (-1) a
  pure (q, a)

/-- PYTHIA's `isQuark`. -/
def isQuark (id : Int) : Bool := id != 0 && decide (id.natAbs < 9)

/-- PYTHIA's `isDiquark`. -/
def isDiquark (id : Int) : Bool :=
  decide (1000 < id.natAbs) && decide (id.natAbs < 10000) && id.natAbs / 10 % 10 == 0

/-- The flavours a constituent of flavour `j` can be converted into, stringprocess.cc:841-848. -/
def targets (e : Flav) (j : Fin 5) : List (Fin 5) :=
  if e j < 0 then (List.finRange 5).filter fun k => k ≠ j ∧ e k > 0 else []

/-- One iteration of the loop in `replace_constituent`, stringprocess.cc:835-862; `n` is the random
number; `none` if the flavour is outside of the array. -/
def convert (n : Nat) (q : Int) (e : Flav) : Option (Int × Flav) :=
  if h : 1 ≤ q.natAbs ∧ q.natAbs ≤ 5 then
    let j : Fin 5 := ⟨q.natAbs - 1, by omega⟩
    match (targets e j)[n % (targets e j).length]? with
    | none => some (q, e)
    | some k =>
      let e := Function.update e j (e j + 1)
      some (if q > 0 then (k : Int) + 1 else -((k : Int) + 1), Function.update e k (e k - 1))
  else none

/-- The PDG number of the converted diquark, stringprocess.cc:868-881. -/
def composeDiquark (id q1 q2 deg : Int) : Int :=
  let p : Int × Int := if q1.natAbs < q2.natAbs then (q2, q1) else (q1, q2)
  let n : Int := p.1.natAbs * 1000 + p.2.natAbs * 100 +
    (if p.1.natAbs = p.2.natAbs then 3 else deg)
  if id < 0 then -n else n

/-- `replace_constituent`, stringprocess.cc:813-895, without masses and energies. -/
def replace (n1 n2 : Nat) (id : Int) (e : Flav) : Option (Int × Flav) :=
  if isQuark id = false ∧ isDiquark id = false then some (id, e)
  else if e = 0 then some (id, e)
  else if isQuark id then convert n1 id e
  else
    (convert n1 (quarksFromDiquark id).1 e).bind fun r1 =>
      (convert n2 (quarksFromDiquark id).2.1 r1.2).map fun r2 =>
        (composeDiquark id r1.1 r2.1 (quarksFromDiquark id).2.2, r2.2)

/-- The excesses of one incoming hadron. -/
structure Excess where
  quark : Flav
  antiq : Flav

/-- The random choices: the position of the next parton among those not yet visited and the two
numbers used to convert it. -/
structure Oracle where
  forward : List Int → Nat
  n1 : Nat → Nat
  n2 : Nat → Nat

/-- The body of the loop over the constituents in `restore_constituent`, stringprocess.cc:1181-1213. -/
def touch (n1 n2 : Nat) (id : Int) (x : Excess) : Option (Int × Excess) :=
  if id > 0 then (replace n1 n2 id x.quark).map fun r => (r.1, { x with quark := r.2 })
  else (replace n1 n2 id x.antiq).map fun r => (r.1, { x with antiq := r.2 })

/-- The loop over the constituents for one incoming hadron, stringprocess.cc:1176-1218: `k` partons
of `rest` are left; the visited ones are appended to `done`. -/
def visit (o : Oracle) : Nat → List Int → List Int → Excess → Option (List Int × Excess)
  | 0, rest, done, x => some (rest ++ done, x)
  | k + 1, rest, done, x =>
    match rest[o.forward rest % rest.length]? with
    | none => some (rest ++ done, x)
    | some id =>
      (touch (o.n1 k) (o.n2 k) id x).bind fun r =>
        visit o k (rest.eraseIdx (o.forward rest % rest.length)) (done ++ [r.1]) r.2

/-- The sum computed at the end of each pass, stringprocess.cc:1220-1223. -/
def netExcess (x0 x1 : Excess) : Flav :=
  fun j => (x0.quark j - x0.antiq j) + (x1.quark j - x1.antiq j)

/-- The loop `while (!recovered_quarks)`, stringprocess.cc:1167-1229; `none` inside: the bound `fuel`
was reached; `none` outside: access outside of an array. -/
def restoreLoop (o : Nat → Oracle × Oracle) : Nat → List Int → Excess → Excess →
    Option (Option (List Int × Excess × Excess))
  | 0, _, _, _ => some none
  | fuel + 1, ps, x0, x1 =>
    (visit (o fuel).1 ps.length ps [] x0).bind fun r0 =>
      (visit (o fuel).2 r0.1.length r0.1 [] x1).bind fun r1 =>
        if netExcess r0.2 r1.2 = 0 then some (some (r1.1, r0.2, r1.2))
        else restoreLoop o fuel r1.1 r0.2 r1.2

/-- The loop over other flavours in `rearrange_excess`, stringprocess.cc:1099-1111: the first other
flavour with a positive excess. -/
def otherFlavour (e : Flav) (i : Fin 5) : Option (Fin 5) :=
  (List.finRange 5).find? fun j => j ≠ i ∧ e j > 0

/-- One iteration of the loop over `ic` for one hadron, stringprocess.cc:1089-1111. -/
def shiftOne (i : Fin 5) (x : Excess) : Excess :=
  let q := Function.update x.quark i (x.quark i + 1)
  let a := Function.update x.antiq i (x.antiq i + 1)
  match otherFlavour q i with
  | none => ⟨q, a⟩
  | some j => ⟨Function.update q j (q j - 1), Function.update a j (a j - 1)⟩

/-- The loop over `ic`, stringprocess.cc:1077-1112. -/
def shiftMany (i : Fin 5) : Nat → Excess × Excess → Excess × Excess
  | 0, x => x
  | n + 1, (x0, x1) =>
    if x0.quark i < 0 then shiftMany i n (shiftOne i x0, x1)
    else shiftMany i n (x0, shiftOne i x1)

/-- The body of the loop over flavours in `rearrange_excess`, stringprocess.cc:1063-1113. -/
def rearrange1 (total : Flav) (x : Excess × Excess) (i : Fin 5) : Excess × Excess :=
  let final := total i + x.1.quark i + x.2.quark i
  if final ≥ 0 then x else shiftMany i final.natAbs x

/-- `rearrange_excess`, stringprocess.cc:1059-1114. -/
def rearrange (total : Flav) (x : Excess × Excess) : Excess × Excess :=
  (List.finRange 5).foldl (rearrange1 total) x

/-- PYTHIA's `nQuarksInCode` for quarks, diquarks and gluons. -/
def nQuarksInCode (id : Int) (j : Fin 5) : Int :=
  if isQuark id then (if id.natAbs = j + 1 then 1 else 0)
  else if isDiquark id then
    (if id.natAbs / 1000 % 10 = j + 1 then 1 else 0) + (if id.natAbs / 100 % 10 = j + 1 then 1 else 0)
  else 0

/-- `find_total_number_constituent`, stringprocess.cc:897-924: quarks and antiquarks. -/
def findTotal : List Int → Flav × Flav
  | [] => (0, 0)
  | id :: l =>
    if id > 0 then ((findTotal l).1 + nQuarksInCode id, (findTotal l).2)
    else ((findTotal l).1, (findTotal l).2 + nQuarksInCode id)

/-- `restore_constituent`, stringprocess.cc:1116-1229, after the splitting of gluons, without
momenta.  `split`: both attempts to split gluons succeeded.  The result `none` in the middle means
`return false`, i.e. not enough constituents; `none` inside: the bound `fuel` was reached. -/
def restore (o : Nat → Oracle × Oracle) (fuel : Nat) (split : Bool) (ps : List Int)
    (x : Excess × Excess) : Option (Option (Option (List Int))) :=
  let t := findTotal ps
  let x := if split then x else
    let y := rearrange t.1 x
    let z := rearrange t.2 (⟨y.1.antiq, y.1.quark⟩, ⟨y.2.antiq, y.2.quark⟩)
    (⟨z.1.antiq, z.1.quark⟩, ⟨z.2.antiq, z.2.quark⟩)
  if ∃ j, t.1 j + x.1.quark j + x.2.quark j < 0 ∨ t.2 j + x.1.antiq j + x.2.antiq j < 0 then
    some none
  else
    (restoreLoop o fuel ps x.1 x.2).map fun r => some (r.map fun r => r.1)

/-- An entry of the event record: is it a gluon, and its rapidity. -/
structure Entry where
  gluon : Bool
  y : Rat

/-- The search for the most forward gluon in `splitting_gluon_qqbar`, stringprocess.cc:975-996, for
the first incoming hadron: `first` is entry 1, `best` the current candidate. -/
def searchGluon (best : Entry) : List Entry → Entry
  | [] => best
  | e :: l => searchGluon (if e.gluon ∧ e.y > best.y then e else best) l

/-- The gluon to be split, if one is found. -/
def gluonToSplit (first : Entry) (others : List Entry) : Option Entry :=
  let g := searchGluon first others
  if g.gluon then some g else none

end Verif.Frag
