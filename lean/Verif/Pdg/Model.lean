/-
Model of `PdgCode`, /repo/src/include/smash/pdgcode.h and /repo/src/pdgcode.cc.

The union (pdgcode.h:914-996) is one 32-bit word, here a natural number; the members of
its bit-field structs are bit ranges of that word (little-endian layout).  Strings are
lists of characters.  Messages carried by exceptions are dropped.
-/
namespace Verif.Pdg

/-- Outcomes other than a value: `InvalidPdgCode` (pdgcode.h:112), the
`std::runtime_error`/`std::invalid_argument` of some accessors, undefined behaviour. -/
inductive Err where
  | invalidPdgCode | runtimeError | invalidArgument | ub
  deriving DecidableEq, Repr

/-- Reading the bit-field of `w` bits that starts at bit `lo`. -/
def bits (d lo w : Nat) : Nat := d / 2 ^ lo % 2 ^ w

/-- Assigning to that bit-field: the value is truncated to `w` bits. -/
def setBits (d lo w v : Nat) : Nat := d - bits d lo w * 2 ^ lo + v % 2 ^ w * 2 ^ lo

/-! Members of `digits_`, pdgcode.h:919-939. -/
def nJ (d : Nat) : Nat := bits d 0 4
def nq3 (d : Nat) : Nat := bits d 4 4
def nq2 (d : Nat) : Nat := bits d 8 4
def nq1 (d : Nat) : Nat := bits d 12 4
def nL (d : Nat) : Nat := bits d 16 4
def nR (d : Nat) : Nat := bits d 20 4
def n (d : Nat) : Nat := bits d 24 4
def anti (d : Nat) : Bool := bits d 31 1 == 1

/-! Members of `nucleus_`, pdgcode.h:977-984. -/
def nLambda (d : Nat) : Nat := bits d 0 6
def Z (d : Nat) : Nat := bits d 6 10
def A (d : Nat) : Nat := bits d 16 10
def I (d : Nat) : Nat := bits d 26 4

/-- `is_nucleus`, pdgcode.h:361-364. -/
def isNucleus (d : Nat) : Bool := bits d 30 1 == 1

/-- `is_hadron`, pdgcode.h:367-369. -/
def isHadron (d : Nat) : Bool := nq3 d != 0 && nq2 d != 0 && !isNucleus d

/-- `antiparticle_sign`, pdgcode.h:719-721. -/
def antiparticleSign (d : Nat) : Int := if anti d then -1 else 1

/-- `baryon_number`, pdgcode.h:388-396. -/
def baryonNumber (d : Nat) : Int :=
  if isNucleus d then (A d : Int) * antiparticleSign d
  else if !isHadron d || nq1 d == 0 then 0
  else antiparticleSign d

/-- `is_baryon`, pdgcode.h:398. -/
def isBaryon (d : Nat) : Bool := isHadron d && nq1 d != 0
/-- `is_meson`, pdgcode.h:401. -/
def isMeson (d : Nat) : Bool := isHadron d && nq1 d == 0
/-- `is_lepton`, pdgcode.h:372-375. -/
def isLepton (d : Nat) : Bool := nq1 d == 0 && nq2 d == 0 && nq3 d == 1 && !isNucleus d
/-- `is_hyperon`, pdgcode.h:435. -/
def isHyperon (d : Nat) : Bool := isHadron d && nq1 d == 3
/-- `is_Omega`, pdgcode.h:438-440. -/
def isOmega (d : Nat) : Bool := isHyperon d && nq2 d == 3 && nq3 d == 3
/-- `is_Xi`, pdgcode.h:443-445. -/
def isXi (d : Nat) : Bool := isHyperon d && nq2 d == 3 && nq3 d != 3
/-- `is_Lambda`, pdgcode.h:448-450. -/
def isLambda (d : Nat) : Bool := isHyperon d && nq2 d == 1 && nq3 d == 2
/-- `is_Sigma`, pdgcode.h:453-455. -/
def isSigma (d : Nat) : Bool := isHyperon d && nq2 d != 3 && !isLambda d

/-- `has_antiparticle`, pdgcode.h:504-513. -/
def hasAntiparticle (d : Nat) : Bool :=
  if isNucleus d then true
  else if isHadron d then baryonNumber d != 0 || nq2 d != nq3 d
  else nq3 d == 1

/-- `get_antiparticle`, pdgcode.h:329-333. -/
def getAntiparticle (d : Nat) : Nat := setBits d 31 1 (if anti d then 0 else 1)

/-- `dump`, pdgcode.h:313-316: the mask 0x8fffffff. -/
def dump (d : Nat) : Nat := bits d 31 1 * 2 ^ 31 + bits d 0 28

/-- `ucode`, pdgcode.h:1002: the mask 0x0fffffff. -/
def ucode (d : Nat) : Nat := bits d 0 28

/-- `code`, pdgcode.h:319. -/
def code (d : Nat) : Int := antiparticleSign d * ucode d

/-- `is_antiparticle_of`, pdgcode.h:814-816. -/
def isAntiparticleOf (d e : Nat) : Bool := code d == -code e

/-- `check`, pdgcode.h:284-310. -/
def check (d : Nat) : Except Err Unit :=
  if (if isHadron d then
        if baryonNumber d = 0 then nJ d % 2 = 0 ∧ dump d ≠ 0x130 ∧ dump d ≠ 0x310
        else nJ d % 2 ≠ 0 ∨ nJ d = 0
      else nJ d = 0 ∧ dump d ≠ 0) then .error .invalidPdgCode
  else if anti d && !hasAntiparticle d then .error .invalidPdgCode
  else .ok ()

/-- `test_code`, pdgcode.h:250-274, as "some digit is out of range" (the bit mask itself
only appears in the message). -/
def testCode (d : Nat) : Bool :=
  decide (9 < n d) || decide (9 < nR d) || decide (9 < nL d) || decide (6 < nq1 d) ||
  decide (6 < nq2 d) || decide (6 < nq3 d) || decide (15 < nJ d)

/-- `set_fields`, pdgcode.h:1153-1165, with the antiparticle flag set before. -/
def setFields (ap : Bool) (abscode : Nat) : Except Err Nat :=
  let d := setBits (bits abscode 0 28) 31 1 (if ap then 1 else 0)
  if testCode d then .error .invalidPdgCode
  else do check d; return d

/-- `PdgCode(std::int32_t)`, pdgcode.h:143-150; negating the smallest `int32_t` is
undefined. -/
def ofInt (c : Int) : Except Err Nat :=
  if c < 0 then
    if c = -2 ^ 31 then .error .ub else setFields true (-c).toNat
  else setFields false c.toNat

/-- `PdgCode(std::uint32_t)`, pdgcode.h:155-159. -/
def ofUInt (c : Nat) : Except Err Nat := setFields (bits c 31 1 == 1) c

/-- `get_digit_from_char`, pdgcode.h:1010-1025. -/
def digit (c : Char) : Except Err Nat :=
  if 48 ≤ c.toNat ∧ c.toNat ≤ 57 then .ok (c.toNat - 48)
  else if 65 ≤ c.toNat ∧ c.toNat ≤ 70 then .ok (c.toNat - 65 + 10)
  else if 97 ≤ c.toNat ∧ c.toNat ≤ 102 then .ok (c.toNat - 97 + 10)
  else .error .invalidPdgCode

/-- `codestring[c++]`: the next character (a `std::string` yields NUL at its end). -/
def next (s : List Char) : Except Err Nat := digit (s.headD '\x00')

/-- `digits_.<f> = get_digit_from_char(codestring[c++])` for the digit at bit `lo`, done
only if the string is long enough (`b`); `lim` is the largest value allowed
(pdgcode.h:1100-1132). State: word and rest of the string. -/
def field (b : Bool) (lo lim : Nat) (st : Nat × List Char) : Except Err (Nat × List Char) :=
  if b then do
    let v ← next st.2
    let d := setBits st.1 lo 4 v
    if lim < bits d lo 4 then .error .invalidPdgCode else return (d, st.2.tail)
  else return st

/-- `digits_.n_J_ += get_digit_from_char(codestring[c++])`, pdgcode.h:1096-1098 and
:1134-1136. -/
def addJ (st : Nat × List Char) : Except Err (Nat × List Char) := do
  let v ← next st.2
  return (setBits st.1 0 4 (nJ st.1 + v), st.2.tail)

/-- `addJ` if the string is long enough. -/
def addJIf (b : Bool) (st : Nat × List Char) : Except Err (Nat × List Char) :=
  if b then addJ st else return st

/-- The nucleus branch, pdgcode.h:1070-1088; `d` carries the sign, `s` the ten characters
after it. -/
def nucleusFromString (d : Nat) (s : List Char) : Except Err Nat :=
  let d := setBits d 30 1 1
  if s.head? ≠ some '1' ∨ s.tail.head? ≠ some '0' then .error .invalidPdgCode
  else do
    let g ← (s.drop 2).mapM digit
    let d := setBits d 0 6 (g.getD 0 0)
    let d := setBits d 6 10 (100 * g.getD 1 0 + 10 * g.getD 2 0 + g.getD 3 0)
    let d := setBits d 16 10 (100 * g.getD 4 0 + 10 * g.getD 5 0 + g.getD 6 0)
    return setBits d 26 4 (g.getD 7 0)

/-- The hadron/lepton branch, pdgcode.h:1090-1142; `len` is the number of characters after
the sign. -/
def digitsFromString (d : Nat) (s : List Char) : Except Err Nat := do
  let len := s.length
  if len > 8 then .error .invalidPdgCode
  else
    let st ← addJIf (len > 7) (d, s)
    let st ← field (len > 6) 24 15 st
    let st ← field (len > 5) 20 15 st
    let st ← field (len > 4) 16 15 st
    let st ← field (len > 3) 12 6 st
    let st ← field (len > 2) 8 6 st
    let st ← field (len > 1) 4 6 st
    if len > 0 then
      let st ← addJ st
      check st.1
      return st.1
    else .error .invalidPdgCode

/-- Dispatch on the length after the sign, pdgcode.h:1071. -/
def afterSign (d : Nat) (s : List Char) : Except Err Nat :=
  if s.length = 10 then nucleusFromString d s else digitsFromString d s

/-- `set_from_string`, pdgcode.h:1048-1142: the sign, then the rest. -/
def ofString : List Char → Except Err Nat
  | [] => .error .invalidPdgCode
  | '-' :: s => afterSign (2 ^ 31) s
  | '+' :: s => afterSign 0 s
  | s => afterSign 0 s

/-- `get_decimal`, pdgcode.h:837-856. -/
def getDecimal (d : Nat) : Int :=
  if isNucleus d then
    antiparticleSign d *
      (I d + 10 * A d + 10000 * Z d + 10000000 * nLambda d + 1000000000 : Nat)
  else
    let j1 := if 9 < nJ d then nJ d - 9 else 0
    let j2 := if 9 < nJ d then 9 else nJ d
    antiparticleSign d *
      (j2 + nq3 d * 10 + nq2 d * 100 + nq1 d * 1000 + nL d * 10000 + nR d * 100000 +
        n d * 1000000 + j1 * 10000000 : Nat)

/-- `std::to_string(int)` / `ostream << int`. -/
def toStr (x : Int) : List Char :=
  if x < 0 then '-' :: Nat.toDigits 10 (-x).toNat else Nat.toDigits 10 x.toNat

/-- `string`, pdgcode.h:322-326. -/
def string (d : Nat) : List Char := toStr (getDecimal d)

/-- The loop of `from_decimal`, pdgcode.h:344-350, on the absolute value (C++ `%` and `/`
truncate, so the sign factors out). Structural in the number of digits `k`. -/
def toHex : Nat → Nat → Nat
  | 0, _ => 0
  | k + 1, a => a % 10 + 16 * toHex k (a / 10)

/-- `from_decimal`, pdgcode.h:339-352. The smallest `int` makes `std::abs` undefined. -/
def fromDecimal (x : Int) : Except Err Nat :=
  if x = -2 ^ 31 then .error .ub
  else if 10000000 < x.natAbs then ofString (toStr x)
  else ofInt (x.sign * (toHex 10 x.natAbs : Nat))

/-- `net_quark_number`, pdgcode.cc:31-84. -/
def netQuarkNumber (d : Nat) (quark : Int) : Except Err Int :=
  if quark < 1 ∨ 6 < quark then .error .invalidArgument
  else if isNucleus d then
    let np : Int := Z d
    let nn : Int := (A d : Int) - Z d - nLambda d
    let nl : Int := nLambda d
    if quark = 1 then .ok ((2 * nn + np + nl) * antiparticleSign d)
    else if quark = 2 then .ok ((nn + 2 * np + nl) * antiparticleSign d)
    else if quark = 3 then .ok (nl * antiparticleSign d)
    else .ok 0
  else if isHadron d = false ∨
      ((nq1 d : Int) ≠ quark ∧ (nq2 d : Int) ≠ quark ∧ (nq3 d : Int) ≠ quark) then .ok 0
  else if baryonNumber d ≠ 0 then
    .ok (antiparticleSign d * ((if (nq1 d : Int) = quark then 1 else 0) +
      (if (nq2 d : Int) = quark then 1 else 0) + (if (nq3 d : Int) = quark then 1 else 0)))
  else if (nq3 d : Int) = quark ∧ (nq2 d : Int) = quark then .ok 0
  else
    let other : Int := if (nq2 d : Int) = quark then nq3 d else nq2 d
    if quark > other then .ok ((if quark % 2 = 0 then 1 else -1) * antiparticleSign d)
    else .ok ((if other % 2 = 0 then -1 else 1) * antiparticleSign d)

/-- The value for the six allowed flavours. -/
def netQuark (d : Nat) (quark : Int) : Int := (netQuarkNumber d quark).toOption.getD 0

/-- `isospin3`, pdgcode.h:520-524 (twice the projection). -/
def isospin3 (d : Nat) : Int := netQuark d 2 - netQuark d 1
/-- `strangeness`, pdgcode.h:611. -/
def strangeness (d : Nat) : Int := -netQuark d 3
/-- `charmness`, pdgcode.h:618. -/
def charmness (d : Nat) : Int := netQuark d 4
/-- `bottomness`, pdgcode.h:625. -/
def bottomness (d : Nat) : Int := -netQuark d 5

/-- `charge`, pdgcode.h:635-665. The final division is C++ integer division. -/
def charge (d : Nat) : Int :=
  if isHadron d || isNucleus d then
    Int.tdiv (-netQuark d 1 + 2 * netQuark d 2 - netQuark d 3 + 2 * netQuark d 4
      - netQuark d 5 + 2 * netQuark d 6) 3
  else if nq3 d = 1 then -1 * ((nJ d % 2 : Nat) : Int) * antiparticleSign d
  else if bits d 0 16 = 0x24 then antiparticleSign d
  else 0

/-- `spin` (twice the spin), pdgcode.h:676-710. -/
def spin (d : Nat) : Except Err Nat :=
  if isNucleus d then
    if A d = 2 then .ok 2 else if A d = 3 then .ok 1 else if A d = 4 then .ok 0
    else .error .runtimeError
  else if isHadron d then .ok (if nJ d = 0 then 0 else nJ d - 1)
  else .ok (nq3 d)

/-- `spin_degeneracy`, pdgcode.h:712-717. -/
def spinDegeneracy (d : Nat) : Except Err Nat :=
  if isHadron d && decide (0 < nJ d) then .ok (nJ d)
  else do let s ← spin d; return s + 1

/-- `quark_content`, pdgcode.h:739-775. -/
def quarkContent (d : Nat) : Int × Int × Int :=
  if isHadron d then
    let q1 : Int := nq1 d
    let q2 : Int := nq2 d
    let q3 : Int := nq3 d
    if nq1 d ≠ 0 then
      if anti d then (-q1, -q2, -q3) else (q1, q2, q3)
    else if nq2 d = nq3 d then (q1, q2, -q3)
    else
      let r : Int × Int := if anti d then (-q2, q3) else (q2, -q3)
      if nq2 d % 2 = 1 then (q1, -r.1, -r.2) else (q1, r.1, r.2)
  else (0, 0, 0)

end Verif.Pdg
