import Verif.Wid.Model
import Verif.Rand.Model
/-
Model of `HadronGasEos::sample_mass_thermal`, hadgas_eos.cc:385-454.  Doubles are exact real numbers; the Bessel function,
the spectral function and the smallest mass of a resonance are parameters; log messages and floating point traps are
dropped.
-/
namespace Verif.ThMass

/-- What the function uses of a particle type: `is_stable`, `mass`, `width_at_pole`, `min_mass_spectral` and
`spectral_function`. -/
structure Res where
  stable : Bool
  (mass width mth : ℝ)
  sf : ℝ → ℝ

/-- `thermal_factor`, hadgas_eos.cc:416-417 and 434-435 (and the product in :407): `K2` is `gsl_sf_bessel_Kn_scaled(2, _)`. -/
noncomputable def thermal (K2 : ℝ → ℝ) (beta m : ℝ) : ℝ := m * m * Real.exp (-beta * m) * K2 (m * beta)

/-- The ratio `q`, hadgas_eos.cc:418-419 and 436-437 (and :406-408); `spectral_function_simple` is particletype.cc:610-612. -/
noncomputable def ratio (K2 : ℝ → ℝ) (beta : ℝ) (R : Res) (m : ℝ) : ℝ :=
  R.sf m * thermal K2 beta m / Wid.breitWignerNonrel m R.mass R.width

/-- The inner loop of the search for the maximum, hadgas_eos.cc:414-424, from point `i` on with `n` points left; the pair is
`max_ratio` and `m_where_max`. -/
noncomputable def scan (q : ℝ → ℝ) (lower dm : ℝ) : ℕ → ℕ → ℝ × ℝ → ℝ × ℝ
  | 0, _, b => b
  | n + 1, i, b =>
    let m := lower + dm * i
    scan q lower dm n (i + 1) (if q m > b.1 then (q m, m) else b)

/-- The state of the search: window and best point. -/
structure Search where
  (lower upper : ℝ) (best : ℝ × ℝ)

/-- One pass of the outer loop of the search, hadgas_eos.cc:412-427. -/
noncomputable def pass (q : ℝ → ℝ) (s : Search) : Search :=
  let b := scan q s.lower ((s.upper - s.lower) / 31) 30 1 s.best
  ⟨b.2 - (b.2 - s.lower) * (1 / 10), b.2 + (s.upper - b.2) * (1 / 10), b⟩

/-- `max_mass`, hadgas_eos.cc:398. -/
def maxMass : ℝ := 5

/-- `max_ratio` before the sampling, hadgas_eos.cc:405-430. -/
noncomputable def envelope (q : ℝ → ℝ) (m0 mth : ℝ) : ℝ :=
  (pass q (pass q ⟨mth, maxMass, (q m0, m0)⟩)).best.1 * (3 / 2)

open Classical in
/-- The two nested loops, hadgas_eos.cc:432-450, for a list of pairs of random numbers; `none` when the numbers are used up (or
for a resonance without width). -/
noncomputable def draw (q : ℝ → ℝ) (R : Res) : ℝ → List (ℝ × ℝ) → Option ℝ
  | _, [] => none
  | top, (u, v) :: rest => do
    let m ← Rand.cauchy R.mass (1 / 2 * R.width) R.mth maxMass u
    if q m < Rand.uniform 0 top v then draw q R top rest
    else if q m > top then draw q R (q m) rest
    else some m

/-- `sample_mass_thermal`, hadgas_eos.cc:385-454. -/
noncomputable def sample (K2 : ℝ → ℝ) (beta : ℝ) (R : Res) (draws : List (ℝ × ℝ)) : Option ℝ :=
  if R.stable then some R.mass
  else draw (ratio K2 beta R) R (envelope (ratio K2 beta R) R.mass R.mth) draws

end Verif.ThMass
