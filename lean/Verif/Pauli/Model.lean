import Verif.Kin.Model
import Mathlib.Analysis.SpecialFunctions.Pow.Real
import Mathlib.Analysis.Real.Pi.Bounds
import Mathlib.MeasureTheory.Integral.IntervalIntegral.FundThmCalculus
import Mathlib.Analysis.SpecialFunctions.ExpDeriv

/-
Model of pauliblocking.cc/.h and of `Action::is_pauli_blocked`, action.cc:35-56.
Doubles are exact real numbers.
-/
namespace Verif.Pauli
open Verif.Kin

/-- `std::erf` by its contract. -/
noncomputable def erf (x : ℝ) : ℝ := 2 / Real.sqrt Real.pi * ∫ t in (0 : ℝ)..x, Real.exp (-t ^ 2)

/-- What the density looks at of a particle: its identity number (unique in its ensemble only),
species, whether it is a baryon, position and momentum. -/
structure P where
  id : ℤ
  pdg : ℕ
  baryon : Bool
  pos : V3
  mom : V3

/-- The members of `PauliBlocker`, pauliblocking.h:78-97; `hbarc` from constants.h. -/
structure Cfg where
  sig : ℝ
  rc : ℝ
  rr : ℝ
  rp : ℝ
  ntest : ℕ
  nens : ℕ
  hbarc : ℝ

/-- The number of entries of the table, pauliblocking.h:97. -/
def tableSize : ℕ := 30

/-! ### The table -/

/-- `phase_volume`, pauliblocking.cc:98-100. -/
noncomputable def phaseVolume (c : Cfg) : ℝ :=
  2 * (4 / 3 * Real.pi * c.rr * c.rr * c.rr) * (4 / 3 * Real.pi * c.rp * c.rp * c.rp) /
    ((2 * Real.pi * c.hbarc) * (2 * Real.pi * c.hbarc) * (2 * Real.pi * c.hbarc))

/-- `norm`, pauliblocking.cc:102-104. -/
noncomputable def norm (c : Cfg) : ℝ :=
  erf (c.rc / Real.sqrt 2 / c.sig) -
    c.rc * 2 / Real.sqrt (2 * Real.pi) / c.sig * Real.exp (-(1 / 2) * c.rc * c.rc / c.sig / c.sig)

/-- The three branches of the integral, pauliblocking.cc:114-132. -/
noncomputable def integralOf (c : Cfg) (rj : ℝ) : ℝ :=
  if rj < 1 / 1000000 then
    let A := c.rr / Real.sqrt 2 / c.sig
    (Real.sqrt (2 * Real.pi) * c.sig * erf A - 2 * c.rr * Real.exp (-A * A)) * (c.sig * c.sig)
  else if c.rc > rj + c.rr then
    let A := (rj + c.rr) / Real.sqrt 2 / c.sig
    let B := (rj - c.rr) / Real.sqrt 2 / c.sig
    (c.sig / rj * (Real.exp (-A * A) - Real.exp (-B * B)) +
      1 / 2 * Real.sqrt (2 * Real.pi) * (erf A - erf B)) * (c.sig * c.sig * c.sig)
  else
    let A := c.rc / Real.sqrt 2 / c.sig
    let B := (rj - c.rr) / Real.sqrt 2 / c.sig
    let C := (c.rc - rj) * (c.rc - rj) - c.rr * c.rr + 2 * c.sig * c.sig
    ((1 / 2 * Real.exp (-A * A) * C - c.sig * c.sig * Real.exp (-B * B)) / rj +
      1 / 2 * Real.sqrt (2 * Real.pi) * c.sig * (erf A - erf B)) * (c.sig * c.sig)

/-- `weights_[k]`, pauliblocking.cc:107-137. -/
noncomputable def weight (c : Cfg) (k : ℕ) : ℝ :=
  let rj := (c.rr + c.rc) / tableSize * k
  integralOf c rj * (2 * Real.pi / (2 * Real.pi * c.sig * c.sig) ^ (3 / 2 : ℝ)) / norm c /
    phaseVolume c

/-! ### The density -/

/-- The contribution of one particle with the table `w`, pauliblocking.cc:55-88. -/
noncomputable def contrib (c : Cfg) (w : ℕ → ℝ) (r p : V3) (pdg : ℕ) (disregard : List P) (q : P) : ℝ :=
  if q.pdg ≠ pdg then 0
  else if (q.mom.sub p).sqr > c.rp * c.rp then 0
  else
    let rd := (q.pos.sub r).sqr
    if rd ≥ (c.rr + c.rc) * (c.rr + c.rc) then 0
    else if disregard.any (fun d => decide (q.id = d.id)) then 0
    else
      let iReal := Real.sqrt rd / (c.rr + c.rc) * tableSize
      let i := ⌊iReal⌋₊
      let rest := iReal - i
      if i + 1 < tableSize then w i * rest + w (i + 1) * (1 - rest) else 0

/-- `phasespace_dens`, pauliblocking.cc:45-92. -/
noncomputable def dens (c : Cfg) (w : ℕ → ℝ) (r p : V3) (ensembles : List (List P)) (pdg : ℕ)
    (disregard : List P) : ℝ :=
  (ensembles.map fun ps => (ps.map (contrib c w r p pdg disregard)).sum).sum / c.ntest / c.nens

/-- The loop of `is_pauli_blocked` over the outgoing particles, action.cc:43-54; `u` are the random
numbers still to be drawn. -/
noncomputable def blockedLoop (c : Cfg) (w : ℕ → ℝ) (ensembles : List (List P)) (incoming : List P) :
    List P → (ℕ → ℝ) → Bool
  | [], _ => false
  | q :: qs, u =>
    if q.baryon then
      if dens c w q.pos q.mom ensembles q.pdg incoming > u 0 then true
      else blockedLoop c w ensembles incoming qs fun n => u (n + 1)
    else blockedLoop c w ensembles incoming qs u

/-- `is_pauli_blocked`, action.cc:35-56. -/
noncomputable def isBlocked (c : Cfg) (w : ℕ → ℝ) (wall : Bool) (ensembles : List (List P))
    (incoming outgoing : List P) (u : ℕ → ℝ) : Bool :=
  if wall then false else blockedLoop c w ensembles incoming outgoing u

end Verif.Pauli
