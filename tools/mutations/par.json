[
 {
  "file": "Par/Model.lean",
  "def": "xsHigh",
  "old": "if opposite then xs + R2 * x ^ (-0.5486 : ℝ) else xs - R2 * x ^ (-0.5486 : ℝ)",
  "new": "if opposite then xs - R2 * x ^ (-0.5486 : ℝ) else xs + R2 * x ^ (-0.5486 : ℝ)",
  "edit": "sign of the crossing-odd term exchanged",
  "claim": "C144 antiparticles"
 },
 {
  "file": "Par/Model.lean",
  "def": "xsHigh",
  "old": "P + R1 * x",
  "new": "P - 10 * R1 * x",
  "edit": "sign of the Regge term",
  "claim": "C143 high energies"
 },
 {
  "file": "Par/Model.lean",
  "def": "xsHigh",
  "old": "R2 * x ^ (-0.5486 : ℝ) else",
  "new": "R2 * x ^ (0.5486 : ℝ) else",
  "edit": "exponent without sign",
  "claim": "C144 Pomeranchuk"
 },
 {
  "file": "Par/Model.lean",
  "def": "npHigh",
  "old": "34.41 12.52 6.66\n/-- `npbar",
  "new": "34.41 6.52 66.6\n/-- `npbar",
  "edit": "constants exchanged",
  "claim": "C143 high energies"
 },
 {
  "file": "Par/Model.lean",
  "def": "piminusHigh",
  "old": "def piminusHigh (s : ℝ) : ℝ := xsHigh s true",
  "new": "def piminusHigh (s : ℝ) : ℝ := xsHigh s false",
  "edit": "same charge for both pions",
  "claim": "C144"
 },
 {
  "file": "Par/Model.lean",
  "def": "annihilation",
  "old": "+ 0.6",
  "new": "- 0.6",
  "edit": "sign of the constant",
  "claim": "C143 annihilation"
 },
 {
  "file": "Par/Model.lean",
  "def": "stringHard",
  "old": "if Real.sqrt s < e0 then 0 else",
  "new": "if Real.sqrt s > e0 then 0 else",
  "edit": "cutoff in the wrong direction",
  "claim": "C143 strings"
 },
 {
  "file": "Par/Model.lean",
  "def": "stringHard",
  "old": "Real.log (Real.sqrt s / e0)",
  "new": "Real.log (e0 / Real.sqrt s)",
  "edit": "quotient inverted",
  "claim": "C143 strings"
 },
 {
  "file": "Par/Model.lean",
  "def": "subtract",
  "old": "if sigma - res < 0 then reallySmall",
  "new": "if sigma - res < 0 then sigma - res",
  "edit": "no lower limit",
  "claim": "C143 pions"
 },
 {
  "file": "Par/Model.lean",
  "def": "piplusElasticAQM",
  "old": "< 3.05 then 7.5",
  "new": "< 3.05 then -7.5",
  "edit": "sign",
  "claim": "C143 pions"
 },
 {
  "file": "Par/Model.lean",
  "def": "piplusElasticHigh",
  "old": "11.4 * p ^ (-0.4 : ℝ) + 0.079 * Real.log p * Real.log p\n\nopen",
  "new": "11.4 * p ^ (-0.4 : ℝ) - 0.079 * Real.log p * Real.log p\n\nopen",
  "edit": "sign of the logarithm",
  "claim": "C143 pions"
 },
 {
  "file": "Par/Model.lean",
  "def": "elasticHigh",
  "old": "- 1.85 * Real.log p",
  "new": "- 18.5 * Real.log p",
  "edit": "coefficient ten times larger",
  "claim": "C143 nucleons"
 },
 {
  "file": "Par/Model.lean",
  "def": "ppElastic",
  "old": "1250 / (p + 50) - 4 *",
  "new": "1250 / (p + 50) - 80 *",
  "edit": "coefficient",
  "claim": "C143 nucleons"
 },
 {
  "file": "Par/Model.lean",
  "def": "ppElastic",
  "old": "+ 1.67",
  "new": "- 16.7",
  "edit": "constant",
  "claim": "C143 nucleons"
 },
 {
  "file": "Par/Model.lean",
  "def": "ppElastic",
  "old": "77 / (p + 1.5)\n  else elasticHigh p\n\nopen Classical in\n/-- `pp_total`",
  "new": "770 / (p + 1.5)\n  else elasticHigh p\n\nopen Classical in\n/-- `pp_total`",
  "edit": "elastic ten times larger",
  "claim": "C144 elastic below total"
 },
 {
  "file": "Par/Model.lean",
  "def": "ppTotal",
  "old": "48 + 0.522 * Real.log p * Real.log p - 4.51 * Real.log p\n\nopen Classical in\n/-- `np_elastic`",
  "new": "4.8 + 0.522 * Real.log p * Real.log p - 4.51 * Real.log p\n\nopen Classical in\n/-- `np_elastic`",
  "edit": "constant",
  "claim": "C143 nucleons"
 },
 {
  "file": "Par/Model.lean",
  "def": "npElastic",
  "old": "- 6.83",
  "new": "- 68.3",
  "edit": "constant",
  "claim": "C143 nucleons"
 },
 {
  "file": "Par/Model.lean",
  "def": "npElastic",
  "old": "31 / Real.sqrt p",
  "new": "131 / Real.sqrt p",
  "edit": "constant",
  "claim": "C144 elastic below total"
 },
 {
  "file": "Par/Model.lean",
  "def": "npTotal",
  "old": "24.2 + 8.9 * p",
  "new": "24.2 - 18.9 * p",
  "edit": "sign",
  "claim": "C143 nucleons"
 },
 {
  "file": "Par/Model.lean",
  "def": "ppbarElastic",
  "old": "- 3.8 * p",
  "new": "- 38 * p",
  "edit": "coefficient",
  "claim": "C143 antinucleons"
 },
 {
  "file": "Par/Model.lean",
  "def": "ppbarElastic",
  "old": "else 10.2 +",
  "new": "else 100.2 +",
  "edit": "constant",
  "claim": "C144 antinucleons"
 },
 {
  "file": "Par/Model.lean",
  "def": "ppbarTotal",
  "old": "- 3.9 * p",
  "new": "- 39 * p",
  "edit": "coefficient",
  "claim": "C143 antinucleons"
 },
 {
  "file": "Par/Model.lean",
  "def": "ppbarTotal",
  "old": "271.6 *",
  "new": "71.6 *",
  "edit": "constant",
  "claim": "C144 antinucleons"
 },
 {
  "file": "Par/Model.lean",
  "def": "ppbarTotal",
  "old": "- 1.2 * Real.log p",
  "new": "- 12 * Real.log p",
  "edit": "coefficient",
  "claim": "C143 antinucleons"
 },
 {
  "file": "Par/Model.lean",
  "def": "deuteronPion",
  "old": "4 + 0.27",
  "new": "0.27",
  "edit": "background omitted",
  "claim": "C143 deuterons: at least the background"
 },
 {
  "file": "Par/Model.lean",
  "def": "deuteronNucleon",
  "old": "2500 * Real.exp (-(e * e) / 0.003)",
  "new": "-2500 * Real.exp (-(e * e) / 0.003)",
  "edit": "sign",
  "claim": "C143 deuterons"
 },
 {
  "file": "Par/Model.lean",
  "def": "kplusElastic",
  "old": "-0.764 * p + 0.508",
  "new": "-7.64 * p + 0.508",
  "edit": "coefficient",
  "claim": "C143 kaons"
 },
 {
  "file": "Par/Model.lean",
  "def": "kplusnK0p",
  "old": "def kplusnK0p (s : ℝ) : ℝ := 0.25 *",
  "new": "def kplusnK0p (s : ℝ) : ℝ := 0.5 *",
  "edit": "isospin factor",
  "claim": "C144 isospin"
 },
 {
  "file": "Par/Model.lean",
  "def": "kminusKbar0n",
  "old": "100 * p / (p * s)",
  "new": "-100 * p / (p * s)",
  "edit": "sign",
  "claim": "C143 kaons"
 },
 {
  "file": "Par/Model.lean",
  "def": "knPimS0",
  "old": "kpPimSp w + kpPipSm w - 2 * kpPi0S0 w",
  "new": "kpPimSp w + kpPipSm w - kpPi0S0 w",
  "edit": "isospin factor",
  "claim": "C144 isospin"
 },
 {
  "file": "Par/Model.lean",
  "def": "knPimL",
  "old": "2 * kpPi0L w",
  "new": "kpPi0L w",
  "edit": "isospin factor",
  "claim": "C144 isospin"
 },
 {
  "file": "Par/Model.lean",
  "def": "lambdaLambda",
  "old": "37.15 / 2 * pN / pL",
  "new": "-37.15 / 2 * pN / pL",
  "edit": "sign",
  "claim": "C143 hyperons"
 },
 {
  "file": "Par/Model.lean",
  "def": "sigmaSigmaCharged",
  "old": "4 * sigma0Sigma0 d",
  "new": "(sigma0Sigma0 d - 4)",
  "edit": "difference instead of product",
  "claim": "C143 hyperons"
 },
 {
  "file": "Par/Model.lean",
  "def": "lambdaSigma0",
  "old": "else 14.5054 *",
  "new": "else -14.5054 *",
  "edit": "sign",
  "claim": "C143 hyperons"
 }
]