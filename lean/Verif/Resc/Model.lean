import Mathlib.Data.Real.Sqrt
/-
Model of the last part of `StringProcess::restore_constituent`, stringprocess.cc:1231-1264: after the flavours of the partons of a hard
scattering are changed, all momenta are scaled by common factors until the total energy is the initial one again.  Doubles are real
numbers.  Debug messages, and the masses and momentum of entry 0 of the event record (1266-1270), are not modelled.
-/
namespace Verif.Resc

/-- A parton of the event record: mass, momentum, energy. -/
structure Part where
  m : ℝ
  px : ℝ
  py : ℝ
  pz : ℝ
  e : ℝ

/-- `really_small`, constants.h:41. -/
noncomputable def reallySmall : ℝ := 1 / 10 ^ 6

/-- `pAbs2()` of PYTHIA. -/
def Part.pAbs2 (q : Part) : ℝ := q.px * q.px + q.py * q.py + q.pz * q.pz

/-- `pAbs()` of PYTHIA. -/
noncomputable def Part.pAbs (q : Part) : ℝ := Real.sqrt q.pAbs2

/-- `slope`, stringprocess.cc:1241-1244. -/
noncomputable def slope (l : List Part) : ℝ := (l.map fun q => q.pAbs2 / q.e).sum

/-- The new parton, stringprocess.cc:1249-1258. -/
noncomputable def rescale (f : ℝ) (q : Part) : Part :=
  let pabs := f * q.pAbs
  ⟨q.m, f * q.px, f * q.py, f * q.pz, Real.sqrt (q.m * q.m + pabs * pabs)⟩

/-- `pSum.e()` after the loop over the partons, stringprocess.cc:1247, 1259. -/
def energy (l : List Part) : ℝ := (l.map Part.e).sum

open Classical in
/-- The loop `while (true)`, stringprocess.cc:1234-1264, with `energy_init` and `pSum.e()`; `none`: not ended after `fuel` rounds.
After a division by zero the momenta are not numbers, and the comparison in 1235 is false for ever. -/
noncomputable def loop : (fuel : Nat) → ℝ → ℝ → List Part → Option (List Part)
  | 0, _, _, _ => none
  | n + 1, e0, e, l =>
    if |e - e0| ≤ |reallySmall * e0| then some l
    else if slope l = 0 ∨ ∃ q ∈ l, q.e = 0 then none
    else
      let f := 1 + (e0 - e) / slope l
      let l' := l.map (rescale f)
      loop n e0 (energy l') l'

end Verif.Resc
