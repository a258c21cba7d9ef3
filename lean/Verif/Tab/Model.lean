/-
Model of tabulation.cc / tabulation.h, of the caching of tabulations in isoparticletype.cc, of
average.h and of interpolation.h / interpolation.cc.  Real numbers stand for `double` where
values are computed (exact rationals, no NaN, no infinities); where a `double` is only stored
in a file it is its 64 bit pattern.
-/
import Mathlib.Data.Rat.Floor
import Mathlib.Algebra.Order.Floor.Ring
import Mathlib.Algebra.Order.Field.Rat

namespace Verif.Tab

inductive Err
  | tooFew        -- runtime_error of a constructor: too few values
  | sizes         -- runtime_error: vectors of different sizes
  | duplicate     -- runtime_error of check_duplicates
  | length        -- std::length_error of vector::reserve
  | ub            -- undefined behaviour: a read outside a vector, or a conversion of a
                  -- floating point number that does not fit into the integer type
deriving DecidableEq, Repr

/-- `Tabulation`, tabulation.h:35-120. -/
structure Table where
  values : List ℚ
  xMin : ℚ
  xMax : ℚ
  invDx : ℚ
deriving DecidableEq, Repr

/-- `Extrapolation`, tabulation.h:26-30. -/
inductive Extrapolation | zero | const | linear
deriving DecidableEq, Repr

/-- `Tabulation::Tabulation()`, tabulation.h:40. -/
def Table.empty : Table := ⟨[], 0, 0, 0⟩

/-- `Tabulation::is_empty`, tabulation.h:59. -/
def Table.isEmpty (t : Table) : Bool := t.values.isEmpty

/-- `Tabulation::Tabulation(x_min, range, num, f)`, tabulation.cc:14-25.  Division by a zero
`range` gives 0 here and an infinity or NaN in C++. -/
def tabulate (xMin range : ℚ) (num : Nat) (f : ℚ → ℚ) : Except Err Table :=
  if num < 2 then .error .tooFew
  else .ok
    { values := (List.range (num + 1)).map fun (i : Nat) => f (xMin + (i : ℚ) * (range / (num : ℚ)))
      xMin := xMin
      xMax := xMin + range
      invDx := (num : ℚ) / range }

/-- `values_[i]`. -/
def Table.at (t : Table) (i : Nat) : Except Err ℚ :=
  match t.values[i]? with
  | some v => .ok v
  | none => .error .ub

/-- `values_.back()`. -/
def Table.back (t : Table) : Except Err ℚ :=
  match t.values.getLast? with
  | some v => .ok v
  | none => .error .ub

/-- `numeric_cast<unsigned int>(std::floor(x))` for `x ≥ 0`: a number that does not fit is
undefined behaviour already in the `static_cast` (numeric_cast.h:73-77). -/
def floorU32 (x : ℚ) : Except Err Nat :=
  if ⌊x⌋ < 2 ^ 32 then .ok ⌊x⌋.toNat else .error .ub

/-- `static_cast<size_t>(x)` for `x ≥ 0`. -/
def truncSize (x : ℚ) : Except Err Nat :=
  if ⌊x⌋ < 2 ^ 64 then .ok ⌊x⌋.toNat else .error .ub

/-- `Tabulation::get_value_step`, tabulation.cc:27-38. -/
def Table.getStep (t : Table) (x : ℚ) : Except Err ℚ :=
  if x < t.xMin then .ok 0
  else match floorU32 ((x - t.xMin) * t.invDx + 1 / 2) with
    | .error e => .error e
    | .ok n => if t.values.length ≤ n then t.back else t.at n

/-- `values_.size() - 2` in `size_t`. -/
def sizeMinusTwo (n : Nat) : Nat := (n + 2 ^ 64 - 2) % 2 ^ 64

/-- `Tabulation::get_value_linear`, tabulation.cc:40-56. -/
def Table.getLinear (t : Table) (x : ℚ) (e : Extrapolation) : Except Err ℚ :=
  if x < t.xMin then .ok 0
  else if e = .zero ∧ t.xMax < x then .ok 0
  else if e = .const ∧ t.xMax < x then t.back
  else match truncSize ((x - t.xMin) * t.invDx) with
    | .error er => .error er
    | .ok k =>
      let n := min k (sizeMinusTwo t.values.length)
      match t.at n, t.at (n + 1) with
      | .ok a, .ok b => .ok (a + (b - a) * ((x - t.xMin) * t.invDx - (n : ℚ)))
      | _, _ => .error .ub

/-! ### The file with a tabulation -/

abbrev Byte := UInt8
/-- The bit pattern of a `double`, or a `uint64_t`. -/
abbrev Word := BitVec 64

/-- The object representation of a 64 bit number on a little-endian machine. -/
def bytesOf (w : Word) : List Byte :=
  (List.range 8).map fun (i : Nat) => UInt8.ofNat (w.toNat / 256 ^ i % 256)

/-- The inverse of `bytesOf`. -/
def wordOf (bs : List Byte) : Word :=
  BitVec.ofNat 64 (bs.foldr (fun b n => n * 256 + b.toNat) 0)

/-- A `Tabulation` as it is stored: bit patterns instead of values. -/
structure Stored where
  values : List Word
  xMin : Word
  xMax : Word
  invDx : Word
deriving DecidableEq, Repr

/-- The bit pattern of `0.0` is 0. -/
def Stored.empty : Stored := ⟨[], 0, 0, 0⟩

/-- `Tabulation::write`, tabulation.cc:161-167 with the `swrite` overloads (65-67, 87-92,
113-119, 142-146).  The stream is assumed to accept every byte. -/
def Stored.write (t : Stored) (hash : List Byte) : List Byte :=
  hash ++ bytesOf t.xMin ++ bytesOf t.xMax ++ bytesOf t.invDx ++
    bytesOf (BitVec.ofNat 64 t.values.length) ++ t.values.flatMap bytesOf

/-- An `std::ifstream`: what is left to read and the fail bit. -/
structure Stream where
  rest : List Byte
  failed : Bool
deriving DecidableEq, Repr

/-- `stream.read(p, n)`: the bytes stored at `p`.  A failed stream stores nothing; a short one
stores what there is and fails. -/
def Stream.read (s : Stream) (n : Nat) : List Byte × Stream :=
  if s.failed then ([], s)
  else if s.rest.length < n then (s.rest, ⟨[], true⟩)
  else (s.rest.take n, ⟨s.rest.drop n, false⟩)

/-- `sread_double` and `sread_size`, tabulation.cc:75-79 and 100-107; `none` is an
indeterminate value, because the variable is not initialised. -/
def readWord (s : Stream) : Option Word × Stream :=
  let r := s.read 8
  (if r.1.length = 8 then some (wordOf r.1) else none, r.2)

/-- `n` doubles out of consecutive bytes; the memory is zero where nothing was read. -/
def wordsOf : Nat → List Byte → List Word
  | 0, _ => []
  | n + 1, bs => wordOf (bs.take 8) :: wordsOf n (bs.drop 8)

/-- `sread_vector`, tabulation.cc:127-133: `resize` fills with zeros.  An indeterminate size is
undefined behaviour. -/
def readVector (s : Stream) : Except Err (List Word) × Stream :=
  match readWord s with
  | (none, s1) => (.error .ub, s1)
  | (some n, s1) =>
    let r := s1.read (8 * n.toNat)
    (.ok (wordsOf n.toNat (r.1 ++ List.replicate (8 * n.toNat - r.1.length) 0)), r.2)

/-- `Tabulation::from_file`, tabulation.cc:169-180, with `sread_hash` (154-158) for a hash of
`h.length` bytes.  The `double`s of the result are indeterminate (`ub` once they are used) if
the stream is too short for them; comparing an indeterminate hash is undefined. -/
def fromFile (s : Stream) (hash : List Byte) : Except Err Stored :=
  let r := s.read hash.length
  if r.1.length ≠ hash.length then .error .ub
  else if hash ≠ r.1 then .ok .empty
  else
    let a := readWord r.2
    let b := readWord a.2
    let c := readWord b.2
    match a.1, b.1, c.1, (readVector c.2).1 with
    | some xMin, some xMax, some invDx, .ok v => .ok ⟨v, xMin, xMax, invDx⟩
    | _, _, _, _ => .error .ub

/-! ### The cache directory -/

abbrev Path := List Byte

/-- The files in the directory for tabulations. -/
abbrev Dir := Path → Option (List Byte)

/-- `cache_integral` up to the final insertions, isoparticletype.cc:226-262: the tabulation
used and the directory afterwards.  `usable` is `!dir.empty()`, that is, the lock was acquired;
`fresh` is what `spectral_integral_...` computes. -/
def cacheIntegral (d : Dir) (usable : Bool) (hash : List Byte) (path : Path)
    (fresh : Stored) : Except Err (Stored × Dir) :=
  let loaded : Except Err Stored :=
    if usable then
      match d path with
      | some bytes => fromFile ⟨bytes, false⟩ hash
      | none => .ok .empty
    else .ok .empty
  match loaded with
  | .error e => .error e
  | .ok t =>
    if t.values.isEmpty then
      .ok (fresh, if usable then fun p => if p = path then some (fresh.write hash) else d p
                  else d)
    else .ok (t, d)

/-! ### Averages -/

/-- `Average<T>`, average.h:25-53, with `T` exact and a 64 bit counter. -/
structure Average where
  avg : ℚ
  n : BitVec 64
deriving DecidableEq, Repr

/-- `Average()`, average.h:28. -/
def Average.new : Average := ⟨0, 0⟩
/-- `Average::add`, average.h:31-34. -/
def Average.add (a : Average) (x : ℚ) : Average :=
  ⟨(a.avg * (a.n.toNat : ℚ) + x) / ((a.n + 1).toNat : ℚ), a.n + 1⟩
/-- `Average::clear`, average.h:43-46. -/
def Average.clear (_ : Average) : Average := ⟨0, 0⟩
/-- `Average::average`, average.h:37. -/
def Average.average (a : Average) : ℚ := a.avg
/-- `Average::number_of_values`, average.h:40. -/
def Average.numberOfValues (a : Average) : Nat := a.n.toNat

/-- The loop of `dedup_avg`, average.h:81-92, over the values from index `i` on.  `last` is
`x[i - 1]` (for `i = 0` it is not used), and the result is what is pushed in the loop and after
it (93-94). -/
def dedupLoop : List (ℚ × ℚ) → Average → ℚ → ℚ → List (ℚ × ℚ)
  | [], avg, _, last => [(last, avg.average)]
  | (x, y) :: r, avg, prev, last =>
    if x = prev then dedupLoop r (avg.add y) prev x
    else (last, avg.average) :: dedupLoop r (avg.clear.add y) x x

/-- `dedup_avg`, average.h:65-96; the two result vectors have equal length and are zipped. -/
def dedupAvg (x y : List ℚ) : Except Err (List (ℚ × ℚ)) :=
  if x.length ≠ y.length then .error .sizes
  else match x with
    | [] => .error .tooFew
    | x0 :: _ => .ok (dedupLoop (x.zip y) .new x0 x0)

/-! ### Piecewise linear interpolation -/

/-- `InterpolateLinear<T>`, interpolation.h:34-54. -/
structure Line where
  slope : ℚ
  yintercept : ℚ
deriving DecidableEq, Repr

/-- `InterpolateLinear::InterpolateLinear`, interpolation.h:92-96.  The `assert` on `x0 != x1`
is not modelled; it holds after `check_duplicates`. -/
def Line.new (x0 y0 x1 y1 : ℚ) : Line :=
  let slope := (y1 - y0) / (x1 - x0)
  ⟨slope, y0 - slope * x0⟩

/-- `InterpolateLinear::operator()`, interpolation.h:99-101. -/
def Line.eval (l : Line) (x : ℚ) : ℚ := l.slope * x + l.yintercept

/-- `generate_sort_permutation`, interpolation.h:147-153: `std::sort` of the indices by the
contract of the standard, any permutation that sorts. -/
structure Sorter where
  perm : List ℚ → List Nat
  isPerm : ∀ v, (perm v).Perm (List.range v.length)
  sorted : ∀ v, ((perm v).map fun i => v.getD i 0).Pairwise (· ≤ ·)

/-- `apply_permutation`, interpolation.h:164-170: reads `v[i]` for every `i` and writes into a
copy of `v`; both are undefined outside the vector. -/
def applyPermutation (v : List ℚ) (p : List Nat) : Except Err (List ℚ) :=
  if p.length ≤ v.length ∧ ∀ i ∈ p, i < v.length then
    .ok ((p.map fun i => v.getD i 0) ++ v.drop p.length)
  else .error .ub

/-- `std::adjacent_find(...) != end`, interpolation.h:185-186. -/
def adjacentEqual : List ℚ → Bool
  | a :: b :: r => a == b || adjacentEqual (b :: r)
  | _ => false

/-- `InterpolateDataLinear<T>`, interpolation.h:62-89. -/
structure Piecewise where
  x : List ℚ
  f : List Line
deriving DecidableEq, Repr

/-- The loop of the constructor, interpolation.h:205-208; both vectors have equal length. -/
def lines : List ℚ → List ℚ → List Line
  | x0 :: x1 :: xs, y0 :: y1 :: ys => Line.new x0 y0 x1 y1 :: lines (x1 :: xs) (y1 :: ys)
  | _, _ => []

/-- `InterpolateDataLinear::InterpolateDataLinear`, interpolation.h:195-209, compiled without
assertions.  For `n = 0`, `f_.reserve(n - 1)` throws; for a longer `y` only its first `n`
permuted values are used. -/
def interpolate (s : Sorter) (x y : List ℚ) : Except Err Piecewise :=
  let p := s.perm x
  match applyPermutation x p with
  | .error e => .error e
  | .ok xs =>
    if adjacentEqual xs then .error .duplicate
    else match applyPermutation y p with
      | .error e => .error e
      | .ok ys => if x.length = 0 then .error .length else .ok ⟨xs, lines xs ys⟩

/-- `std::lower_bound` on a sorted vector: the number of elements less than `x`, by its
contract. -/
def lowerBound (v : List ℚ) (x : ℚ) : Nat := (v.takeWhile fun a => decide (a < x)).length

/-- `find_index`, interpolation.h:230-237. -/
def findIndex (v : List ℚ) (x : ℚ) : Nat := if lowerBound v x = 0 then 0 else lowerBound v x - 1

/-- `InterpolateDataLinear::operator()`, interpolation.h:240-249; for an empty `f_` the index
wraps and the read is undefined. -/
def Piecewise.eval (g : Piecewise) (x0 : ℚ) : Except Err ℚ :=
  let i := findIndex g.x x0
  let i := if g.f.length ≤ i then (g.f.length + 2 ^ 64 - 1) % 2 ^ 64 else i
  match g.f[i]? with
  | some l => .ok (l.eval x0)
  | none => .error .ub

/-- `interpolate_trilinear`, interpolation.h:126-133. -/
def trilinear (ax ay az f1 f2 f3 f4 f5 f6 f7 f8 : ℚ) : ℚ :=
  az * (ax * (ay * f8 + (1 - ay) * f6) + (1 - ax) * (ay * f7 + (1 - ay) * f5)) +
  (1 - az) * (ax * (ay * f4 + (1 - ay) * f2) + (1 - ax) * (ay * f3 + (1 - ay) * f1))

/-- `InterpolateDataSpline`, interpolation.h:252-292; `spline` stands for the GSL object, as
the function `gsl_spline_eval` of the sorted data. -/
structure Spline where
  firstX : ℚ
  lastX : ℚ
  firstY : ℚ
  lastY : ℚ
  spline : ℚ → ℚ

/-- `InterpolateDataSpline::InterpolateDataSpline`, interpolation.cc:14-37; `gsl` makes the
function from the sorted data. -/
def makeSpline (s : Sorter) (gsl : List ℚ → List ℚ → ℚ → ℚ) (x y : List ℚ) :
    Except Err Spline :=
  if y.length ≠ x.length then .error .sizes
  else if x.length < 3 then .error .tooFew
  else
    let p := s.perm x
    match applyPermutation x p, applyPermutation y p with
    | .ok xs, .ok ys =>
      if adjacentEqual xs then .error .duplicate
      else match xs.head?, xs.getLast?, ys.head?, ys.getLast? with
        | some a, some b, some c, some d => .ok ⟨a, b, c, d, gsl xs ys⟩
        | _, _, _, _ => .error .ub
    | _, _ => .error .ub

/-- `InterpolateDataSpline::operator()`, interpolation.cc:44-54. -/
def Spline.eval (g : Spline) (x : ℚ) : ℚ :=
  if x < g.firstX then g.firstY
  else if g.lastX < x then g.lastY
  else g.spline x

end Verif.Tab
