import Mathlib.Algebra.Order.Field.Basic
import Mathlib.Algebra.Order.Floor.Ring
import Mathlib.Data.List.Basic

/-!
Model of the tabulated equation of state of the hadron gas (`EosTable`, hadgas_eos.cc and hadgas_eos.h).

Simplifications: floating point numbers are elements of a linear ordered field. The equation of state itself, that is the
functions `energy_density`, `pressure`, ... and the solver, is a parameter. A file is the list of its words.
-/

namespace Verif.Eos

/-- `EosTable::table_element`, hadgas_eos.h:58-69. -/
structure Elem (K : Type) where
  p : K
  T : K
  mub : K
  mus : K
  muq : K

/-- `EosTable`, hadgas_eos.h:96-109; `t` gives the elements of the vector `table_`, which has `ne * nnb * nq` of them. -/
structure Tab (K : Type) where
  de : K
  dnb : K
  dq : K
  ne : ℕ
  nnb : ℕ
  nq : ℕ
  t : ℕ → Elem K

/-- Outcomes which the language does not define: conversion of a number out of range, access out of bounds, use of an indeterminate
value. -/
inductive Err where
  | cast
  | bounds
  | indeterminate
  deriving DecidableEq

variable {K : Type}

/-- `EosTable::index`, hadgas_eos.h:93-95. -/
def index (nnb nq ie inb iq : ℕ) : ℕ := nq * (ie * nnb + inb) + iq

/-- Access to an element of `table_`. -/
def read (tab : Tab K) (ie inb iq : ℕ) : Except Err (Elem K) :=
  if index tab.nnb tab.nq ie inb iq < tab.ne * tab.nnb * tab.nq then .ok (tab.t (index tab.nnb tab.nq ie inb iq))
  else .error .bounds

/-- `static_cast<size_t>(std::floor(x))`, hadgas_eos.cc:164-166; undefined for negative and for too large numbers. -/
def toSize [Field K] [LinearOrder K] [IsStrictOrderedRing K] [FloorRing K] (x : K) : Except Err ℕ :=
  if ⌊x⌋ < 0 ∨ (2 : ℤ) ^ 64 ≤ ⌊x⌋ then .error .cast else .ok ⌊x⌋.toNat

/-- `n - 1` for the type `size_t`, hadgas_eos.cc:168. -/
def pred64 (n : ℕ) : ℕ := if n = 0 then 2 ^ 64 - 1 else n - 1

/-- `interpolate_trilinear`, interpolation.h:126-133. -/
def trilinear [Field K] (ax ay az f1 f2 f3 f4 f5 f6 f7 f8 : K) : K :=
  az * (ax * (ay * f8 + (1 - ay) * f6) + (1 - ax) * (ay * f7 + (1 - ay) * f5)) +
    (1 - az) * (ax * (ay * f4 + (1 - ay) * f2) + (1 - ax) * (ay * f3 + (1 - ay) * f1))

/-- `EosTable::get`, hadgas_eos.cc:162-197. -/
def get [Field K] [LinearOrder K] [IsStrictOrderedRing K] [FloorRing K] (tab : Tab K) (e nb q : K) : Except Err (Elem K) := do
  let ie ← toSize (e / tab.de)
  let inb ← toSize (nb / tab.dnb)
  let iq ← toSize (q / tab.dq)
  if pred64 tab.ne ≤ ie ∨ pred64 tab.nnb ≤ inb ∨ pred64 tab.nq ≤ iq then .ok ⟨-1, -1, -1, -1, -1⟩
  else do
    let ae := e / tab.de - ie
    let an := nb / tab.dnb - inb
    let aq := q / tab.dq - iq
    let s1 ← read tab ie inb iq
    let s2 ← read tab (ie + 1) inb iq
    let s3 ← read tab ie (inb + 1) iq
    let s4 ← read tab (ie + 1) (inb + 1) iq
    let s5 ← read tab ie inb (iq + 1)
    let s6 ← read tab (ie + 1) inb (iq + 1)
    let s7 ← read tab ie (inb + 1) (iq + 1)
    let s8 ← read tab (ie + 1) (inb + 1) (iq + 1)
    .ok ⟨trilinear ae an aq s1.p s2.p s3.p s4.p s5.p s6.p s7.p s8.p,
      trilinear ae an aq s1.T s2.T s3.T s4.T s5.T s6.T s7.T s8.T,
      trilinear ae an aq s1.mub s2.mub s3.mub s4.mub s5.mub s6.mub s7.mub s8.mub,
      trilinear ae an aq s1.mus s2.mus s3.mus s4.mus s5.mus s6.mus s7.mus s8.mus,
      trilinear ae an aq s1.muq s2.muq s3.muq s4.muq s5.muq s6.muq s7.muq s8.muq⟩

/-- Temperature and chemical potentials, `std::array<double, 4>`. -/
structure Pot (K : Type) where
  T : K
  mub : K
  mus : K
  muq : K

/-- The equation of state: `energy_density`, `net_baryon_density`, `net_strange_density`, `net_charge_density`, `pressure`,
`solve_eos_initial_approximation` and `solve_eos`. -/
structure Gas (K : Type) where
  e : Pot K → K
  nb : Pot K → K
  ns : Pot K → K
  nq : Pot K → K
  p : Pot K → K
  guess : K → K → K → Pot K
  solve : K → K → K → K → Pot K → Pot K

/-- Extrapolation from two elements, hadgas_eos.cc:117-126. -/
def extra [Field K] (y x : Elem K) : Pot K :=
  ⟨2 * x.T - y.T, 2 * x.mub - y.mub, 2 * x.mus - y.mus, 2 * x.muq - y.muq⟩

/-- Computation of one element, hadgas_eos.cc:103-137. -/
def entry [Field K] [LinearOrder K] (g : Gas K) (tab : Tab K) (ie inb iq : ℕ) (t : ℕ → Elem K) : Elem K :=
  let e := tab.de * ie
  let nb := tab.dnb * inb
  let q := tab.dq * iq
  if e ≤ nb ∨ e ≤ q then ⟨0, 0, 0, 0, 0⟩
  else
    let init :=
      if 2 ≤ inb then extra (t (index tab.nnb tab.nq ie (inb - 2) iq)) (t (index tab.nnb tab.nq ie (inb - 1) iq))
      else if 2 ≤ iq then extra (t (index tab.nnb tab.nq ie inb (iq - 2))) (t (index tab.nnb tab.nq ie inb (iq - 1)))
      else g.guess e nb q
    let r := g.solve e nb 0 q init
    ⟨g.p r, r.T, r.mub, r.mus, r.muq⟩

/-- The order of the three nested loops, hadgas_eos.cc:102-107. -/
def nodes (ne nnb nq : ℕ) : List (ℕ × ℕ × ℕ) :=
  (List.range ne).flatMap fun ie => (List.range nnb).flatMap fun inb => (List.range nq).map fun iq => (ie, inb, iq)

/-- The body of the loops: one element is computed and stored. -/
def put [Field K] [LinearOrder K] (g : Gas K) (tab : Tab K) (t : ℕ → Elem K) (x : ℕ × ℕ × ℕ) : ℕ → Elem K :=
  Function.update t (index tab.nnb tab.nq x.1 x.2.1 x.2.2) (entry g tab x.1 x.2.1 x.2.2 t)

/-- Compilation of the table, hadgas_eos.cc:99-141. -/
def fill [Field K] [LinearOrder K] (g : Gas K) (tab : Tab K) : Tab K :=
  { tab with t := (nodes tab.ne tab.nnb tab.nq).foldl (put g tab) tab.t }

/-- One word of the file: a number without decimal point or sign, another number, or something else. -/
inductive Word (K : Type) where
  | nat (n : ℕ)
  | num (v : K)
  | bad

/-- `file >> x` for a floating point number: after a failure, and at the end of the file, the variable keeps its value; at a
malformed word it becomes zero. The state of the file is `none` after a failure. -/
def getNum [Field K] (f : Option (List (Word K))) (old : Option K) : Option (List (Word K)) × Option K :=
  match f with
  | none => (none, old)
  | some [] => (none, old)
  | some (.nat n :: r) => (some r, some (n : K))
  | some (.num v :: r) => (some r, some v)
  | some (.bad :: _) => (none, some 0)

/-- `file >> n` for a variable of type `size_t`. A number with a decimal point counts as malformed here: its integer part would be
read and the rest remains. -/
def getNat (f : Option (List (Word K))) (old : ℕ) : Option (List (Word K)) × ℕ :=
  match f with
  | none => (none, old)
  | some [] => (none, old)
  | some (.nat n :: r) => (some r, n)
  | some (.num _ :: _) => (none, 0)
  | some (.bad :: _) => (none, 0)

/-- One element, hadgas_eos.cc:47-49. -/
def getElem [Field K] (f : Option (List (Word K))) : Option (List (Word K)) × Option (Elem K) :=
  let p := getNum f none
  let T := getNum p.1 none
  let b := getNum T.1 none
  let s := getNum b.1 none
  let q := getNum s.1 none
  (q.1, match p.2, T.2, b.2, s.2, q.2 with
    | some p, some T, some b, some s, some q => some ⟨p, T, b, s, q⟩
    | _, _, _, _, _ => none)

/-- The elements in the order of the loops, hadgas_eos.cc:44-53: index by index. -/
def getElems [Field K] : ℕ → Option (List (Word K)) → Except Err (List (Elem K))
  | 0, _ => .ok []
  | n + 1, f =>
    match getElem f with
    | (_, none) => .error .indeterminate
    | (f', some x) =>
      match getElems n f' with
      | .error e => .error e
      | .ok xs => .ok (x :: xs)

/-- Reading of the table from a file, hadgas_eos.cc:37-56. -/
def load [Field K] (tab : Tab K) (file : List (Word K)) : Except Err (Tab K) :=
  let de := getNum (some file) (some tab.de)
  let dnb := getNum de.1 (some tab.dnb)
  let dq := getNum dnb.1 (some tab.dq)
  let ne := getNat dq.1 tab.ne
  let nnb := getNat ne.1 tab.nnb
  let nq := getNat nnb.1 tab.nq
  match getElems (ne.2 * nnb.2 * nq.2) nq.1 with
  | .error e => .error e
  | .ok l => .ok ⟨de.2.getD 0, dnb.2.getD 0, dq.2.getD 0, ne.2, nnb.2, nq.2, fun k => l.getD k ⟨0, 0, 0, 0, 0⟩⟩

/-- The test of one element, hadgas_eos.cc:67-91. -/
def agrees [Field K] [LinearOrder K] (g : Gas K) (tab : Tab K) (ie inb iq : ℕ) : Bool :=
  let x := tab.t (index tab.nnb tab.nq ie inb iq)
  let r : Pot K := ⟨x.T, x.mub, x.mus, x.muq⟩
  let eps : K := 1 / 1000
  !(decide ((eps < |tab.de * ie - g.e r| ∨ eps < |tab.dnb * inb - g.nb r| ∨ eps < |g.ns r| ∨ eps < |x.p - g.p r| ∨
    eps < |tab.dq * iq - g.nq r|) ∧ 0 < x.T))

/-- The values `0, s, 2 s, ...` below `n` of a loop variable, hadgas_eos.cc:60-66. -/
def strided (n : ℕ) : List ℕ := (List.range n).filter fun i => i % (1 + n / 50) = 0

/-- The consistency check, hadgas_eos.cc:57-97. -/
def consistent [Field K] [LinearOrder K] (g : Gas K) (tab : Tab K) : Bool :=
  (strided tab.ne).all fun ie => (strided tab.nnb).all fun inb => (strided tab.nq).all fun iq => agrees g tab ie inb iq

/-- Writing of the table, hadgas_eos.cc:142-158: six digits for the steps (`rs`) and seven decimals for the elements (`re`). -/
def save (rs re : K → K) (tab : Tab K) : List (Word K) :=
  [.num (rs tab.de), .num (rs tab.dnb), .num (rs tab.dq), .nat tab.ne, .nat tab.nnb, .nat tab.nq] ++
    (List.range (tab.ne * tab.nnb * tab.nq)).flatMap fun k =>
      [.num (re (tab.t k).p), .num (re (tab.t k).T), .num (re (tab.t k).mub), .num (re (tab.t k).mus), .num (re (tab.t k).muq)]

/-- `EosTable::compile_table`, hadgas_eos.cc:34-160: the table and, if it is written, the new contents of the file. -/
def compile [Field K] [LinearOrder K] (rs re : K → K) (g : Gas K) (tab : Tab K) (file : Option (List (Word K))) :
    Except Err (Tab K × Option (List (Word K))) :=
  match file with
  | none => .ok (fill g tab, some (save rs re (fill g tab)))
  | some f =>
    match load tab f with
    | .error e => .error e
    | .ok tab' =>
      if consistent g tab' then .ok (tab', none)
      else .ok (fill g tab', some (save rs re (fill g tab')))

end Verif.Eos
