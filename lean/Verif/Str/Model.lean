import Verif.Frag.Mom
/-
Model of the fragmentation of baryonic strings with a separate function for the leading baryon: `fragment_off_hadron`,
stringprocess.cc:2243-2572, and the part of `fragment_string` that calls it, stringprocess.cc:1840-2055.  Doubles are exact
real numbers; log messages are dropped.  The choices that are left to PYTHIA (flavours, species, masses) and the random
numbers are given from outside.
-/
namespace Verif.Str
open Verif.Kin Verif.Frag Real

/-- Where the code throws, or where the numbers that are given from outside are used up. -/
inductive Err
  | negative
  | numbers
  deriving DecidableEq

/-- What is asked from PYTHIA's particle data and settings: `m0`, `isDiquark`, `isBaryon`, `FlavContainer::anti`, `stopMass`,
`stopSmear`, and the parameters of the Lund function for leading and other hadrons. -/
structure Pythia where
  m0 : Int → ℝ
  (isDiquark isBaryon : Int → Bool)
  anti : Int → Int
  (stopMass stopSmear aLead bLead aProd bProd : ℝ)

/-- The string: light-cone momenta, transverse momenta and flavours of its two ends, the reference arguments of
`fragment_off_hadron`, stringprocess.cc:2245-2249. -/
structure Str where
  (pp pn qxPos qxNeg qyPos qyNeg : ℝ)
  (fPos fNeg : Int)

/-- The random choices of one call: transverse momentum of the new pair (2300-2303, the width only enters the distribution),
for each try the flavour picked by PYTHIA and the way in which it combines two flavours into a hadron (2340-2354; hadron 0:
none), selected masses, the number of the smearing (2373), the same for the second hadron, the sign of the last two
(2834-2838), and the numbers of `sample_zLund`. -/
structure Rnd where
  (qx qy : ℝ)
  picks : List (Int × (Int → Int → Int))
  (mass1 smear : ℝ)
  second : List (Int → Int → Int)
  mass2 : ℝ
  flip : Bool
  z : List (ℝ × ℝ)

/-- A hadron: `pdgid_frag` and `momentum_frag`; the selected mass is kept for the statements only. -/
structure Had where
  id : Int
  mom : V4
  mass : ℝ

/-- What a call returns: 0, 1 or 2 hadrons.  With two hadrons the string is used up; it is not looked at again. -/
inductive Out
  | fail
  | one (h : Had) (s : Str)
  | two (h1 h2 : Had)

/-- The loops over at most `n_try = 10` offers, stringprocess.cc:2338-2355. -/
def firstHadron (old : Int) (l : List (Int × (Int → Int → Int))) : Option (Int × Int) :=
  (l.take 10).findSome? fun p => if p.2 old p.1 ≠ 0 then some (p.1, p.2 old p.1) else none

/-- The loop for the second hadron, stringprocess.cc:2422-2433. -/
def secondHadron (other new2 : Int) (l : List (Int → Int → Int)) : Option Int :=
  (l.take 10).findSome? fun c => if c other new2 ≠ 0 then some (c other new2) else none

/-- `sample_zLund`, stringprocess.cc:2853-2883: the first number that is accepted. -/
noncomputable def fraction (a b m : ℝ) : List (ℝ × ℝ) → Option ℝ
  | [] => none
  | (u, w) :: rest => match zLund a b m u w with
    | some x => some x
    | none => fraction a b m rest

/-- The transverse mass, stringprocess.cc:2365-2366 and 2449-2452. -/
noncomputable def mT (m qx qy : ℝ) : ℝ := √(m * m + √(qx * qx + qy * qy) * √(qx * qx + qy * qy))

/-- The mass below which the string breaks into two hadrons, stringprocess.cc:2372-2376. -/
noncomputable def stopAt (P : Pythia) (s : Str) (new : Int) (u : ℝ) : ℝ :=
  (P.stopMass + P.m0 new + P.m0 s.fPos + P.m0 s.fNeg) * (1 + (2 * u - 1) * P.stopSmear)

/-- The last two hadrons, stringprocess.cc:2400-2498. -/
noncomputable def offTwo (P : Pythia) (b : V3 × V3 × V3) (fwd : Bool) (s : Str) (r : Rnd) (new had1 : Int) (q1x q1y : ℝ) : Out :=
  let new2 := P.anti new
  if P.isDiquark s.fNeg && P.isDiquark new2 && fwd then .fail
  else if P.isDiquark s.fPos && P.isDiquark new2 && !fwd then .fail
  else match secondHadron (if fwd then s.fNeg else s.fPos) new2 r.second with
  | none => .fail
  | some had2 =>
    let q2x := if fwd then s.qxNeg - r.qx else s.qxPos - r.qx
    let q2y := if fwd then s.qyNeg - r.qy else s.qyPos - r.qy
    let m1 := mT r.mass1 q1x q1y
    let m2 := mT r.mass2 q2x q2y
    match (if fwd then finalTwo s.pp s.pn m1 m2 r.flip else finalTwo s.pp s.pn m2 m1 r.flip) with
    | none => .fail
    | some (pf, pb, nf, nb) =>
      if fwd then .two ⟨had1, stringMomentum b pf nf q1x q1y, r.mass1⟩ ⟨had2, stringMomentum b pb nb q2x q2y, r.mass2⟩
      else .two ⟨had1, stringMomentum b pb nb q1x q1y, r.mass1⟩ ⟨had2, stringMomentum b pf nf q2x q2y, r.mass2⟩

/-- One hadron, stringprocess.cc:2499-2568.  A hadron without p^+ (p^-) would have infinite p^- (p^+), which fails the check. -/
noncomputable def offOne (P : Pythia) (b : V3 × V3 × V3) (fwd sep : Bool) (s : Str) (r : Rnd) (new had1 : Int) (q1x q1y : ℝ) :
    Except Err Out :=
  let m1 := mT r.mass1 q1x q1y
  let lead := sep && (if fwd then P.isDiquark s.fPos else P.isDiquark s.fNeg) && P.isBaryon had1
  match fraction (if lead then P.aLead else P.aProd) (if lead then P.bLead else P.bProd) m1 r.z with
  | none => .error .numbers
  | some x =>
    if fwd then
      let p := x * s.pp
      let n := 1 / 2 * m1 * m1 / p
      if p = 0 ∨ n > s.pn then .ok .fail
      else .ok (.one ⟨had1, stringMomentum b p n q1x q1y, r.mass1⟩
        { s with pp := s.pp - p, pn := s.pn - n, fPos := P.anti new, qxPos := -r.qx, qyPos := -r.qy })
    else
      let n := x * s.pn
      let p := 1 / 2 * m1 * m1 / n
      if n = 0 ∨ p > s.pp then .ok .fail
      else .ok (.one ⟨had1, stringMomentum b p n q1x q1y, r.mass1⟩
        { s with pp := s.pp - p, pn := s.pn - n, fNeg := P.anti new, qxNeg := -r.qx, qyNeg := -r.qy })

/-- `fragment_off_hadron`, stringprocess.cc:2243-2572. -/
noncomputable def off (P : Pythia) (b : V3 × V3 × V3) (fwd sep : Bool) (s : Str) (r : Rnd) : Except Err Out :=
  if s.pp < 0 ∨ s.pn < 0 then .error .negative
  else
    let mt2 := 2 * s.pp * s.pn
    let qx := s.qxPos + s.qxNeg
    let qy := s.qyPos + s.qyNeg
    let qt2 := |qx * qx| + |qy * qy|
    if √mt2 < √qt2 then .ok .fail
    else
      let mass := √(mt2 - qt2)
      let q1x := if fwd then s.qxPos + r.qx else s.qxNeg + r.qx
      let q1y := if fwd then s.qyPos + r.qy else s.qyNeg + r.qy
      match firstHadron (if fwd then s.fPos else s.fNeg) r.picks with
      | none => .ok .fail
      | some (new, had1) =>
        if mass < stopAt P s new r.smear then .ok (offTwo P b fwd s r new had1 q1x q1y)
        else offOne P b fwd sep s r new had1 q1x q1y

/-- What the fragmentation before PYTHIA leaves: hadrons, and the remaining string if there is one. -/
structure Prior where
  hads : List Had
  rest : Option Str

/-- The check of the remaining string, stringprocess.cc:1993-2022. -/
noncomputable def restOk (P : Pythia) (s : Str) : Bool :=
  let mt2 := 2 * s.pp * s.pn
  let qx := s.qxPos + s.qxNeg
  let qy := s.qyPos + s.qyNeg
  let qt := √(qx * qx + qy * qy)
  if √mt2 < qt then false else decide (√(mt2 - qt * qt) > P.m0 s.fPos + P.m0 s.fNeg)

/-- One attempt, the body of the loop over `iiter`, stringprocess.cc:1884-2035, from the loop `while (!found_forward_baryon &&
!energy_used_up)` on; the list contains the end that is chosen and the numbers of each call.  `none`: start over. -/
noncomputable def attempt (P : Pythia) (b : V3 × V3 × V3) (sep : Bool) :
    Bool → List Had → Str → List (Bool × Rnd) → Except Err (Option Prior)
  | _, _, _, [] => .error .numbers
  | doneFwd, hads, s, (fwd, r) :: more =>
    match off P b fwd (sep && fwd && !doneFwd) s r with
    | .error e => .error e
    | .ok .fail => .ok none
    | .ok (.two h1 h2) => .ok (some ⟨hads ++ [h1, h2], none⟩)
    | .ok (.one h s') =>
      if fwd && P.isBaryon h.id then
        if restOk P s' then .ok (some ⟨hads ++ [h], some s'⟩) else .ok none
      else attempt P b sep (doneFwd || fwd) (hads ++ [h]) s' more

/-- The string at the beginning of an attempt, stringprocess.cc:1891-1909; `bpos`: `bstring > 0`. -/
noncomputable def start (mString : ℝ) (bpos : Bool) (idq1 idq2 : Int) : Str :=
  ⟨mString * √(1 / 2), mString * √(1 / 2), 0, 0, 0, 0, if bpos then idq2 else idq1, if bpos then idq1 else idq2⟩

/-- The loop over at most `niter_max = 10000` attempts, stringprocess.cc:1879-2040. `none`: no hadron. -/
noncomputable def attempts (P : Pythia) (b : V3 × V3 × V3) (sep : Bool) (s : Str) : List (List (Bool × Rnd)) → Except Err (Option Prior)
  | [] => .ok none
  | l :: ls => match attempt P b sep false [] s l with
    | .error e => .error e
    | .ok (some p) => .ok (some p)
    | .ok none => attempts P b sep s ls

/-- stringprocess.cc:1840-2055: the hadrons of a baryonic string before PYTHIA is called. -/
noncomputable def leading (P : Pythia) (b : V3 × V3 × V3) (sep : Bool) (mString : ℝ) (bpos : Bool) (idq1 idq2 : Int)
    (tries : List (List (Bool × Rnd))) : Except Err (Option Prior) :=
  attempts P b sep (start mString bpos idq1 idq2) (tries.take 10000)

/-- The light-cone momenta of the ends of the remaining string, stringprocess.cc:2059-2086: p^+ of both ends, p^- of both ends;
`mt0`, `mt1`: their transverse masses (1938-1963).  `none`: root of a negative number. -/
noncomputable def ends (bpos : Bool) (pp pn mt0 mt1 : ℝ) : Option (ℝ × ℝ × ℝ × ℝ) :=
  let mt := √(2 * pp * pn)
  let pb := (mt * mt + mt0 * mt0 - mt1 * mt1) / (4 * pn)
  let pc := 1 / 2 * mt0 * mt0 * pp / pn
  if pb * pb - pc < 0 then none
  else
    let p0 := pb + (if bpos then -1 else 1) * √(pb * pb - pc)
    let p1 := pp - p0
    some (p0, p1, 1 / 2 * mt0 * mt0 / p0, 1 / 2 * mt1 * mt1 / p1)

end Verif.Str
