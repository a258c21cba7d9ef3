import Mathlib.Data.Nat.Log
/-
Model of the counter of processor cycles, tsc.h and tsc.cc.
-/
namespace Verif.Tsc

/-- `cycles`, tsc.h:82: difference of unsigned 64-bit numbers. -/
def cycles (start stop : ℕ) : ℕ := (2 ^ 64 + stop - start) % 2 ^ 64

/-- The loop over the digits, tsc.cc:22-25: the blocks, the last one stored first in the list (it is printed first). -/
def blocks (digits c : ℕ) (acc : List ℕ) : List ℕ :=
  if digits = 0 then acc else blocks (digits - 3) (c / 1000) (c % 1000 :: acc)
termination_by digits

/-- A digit as it is printed. -/
def digit (d : ℕ) : Char := Char.ofNat (48 + d)

/-- A number below 1000 with three digits, `std::setw(3)` with `fill('0')`, tsc.cc:32. -/
def pad3 (b : ℕ) : List Char := [digit (b / 100), digit (b / 10 % 10), digit (b % 10)]

/-- A number below 1000 as it is printed without a width, tsc.cc:30. -/
def plain (b : ℕ) : List Char :=
  if 100 ≤ b then pad3 b else if 10 ≤ b then [digit (b / 10), digit (b % 10)] else [digit b]

/-- The text of the blocks, tsc.cc:26-34; nothing if there are none. -/
def text : List ℕ → List Char
  | [] => []
  | b :: bs => plain b ++ (bs.flatMap fun x => '\'' :: pad3 x) ++ " Cycles".toList

/-- `operator<<`, tsc.cc:18-36; `none`: undefined (the logarithm of zero converted to an integer). Simplification: the logarithm is exact. -/
def print (c : ℕ) : Option (List Char) := if c = 0 then none else some (text (blocks (Nat.log 10 c) c []))

end Verif.Tsc
