[
 {
  "file": "Pdg/Model.lean",
  "def": "getAntiparticle",
  "old": "if anti d then 0 else 1)",
  "new": "if anti d then 1 else 1)",
  "edit": "get_antiparticle always sets the flag",
  "claim": "C15 involution"
 },
 {
  "file": "Pdg/Model.lean",
  "def": "baryonNumber",
  "old": "else if !isHadron d || nq1 d == 0 then 0\n  else antiparticleSign d",
  "new": "else if !isHadron d || nq1 d == 0 then 0\n  else 1",
  "edit": "baryon number ignores the sign",
  "claim": "C15 opposite baryon number"
 },
 {
  "file": "Pdg/Model.lean",
  "def": "charge",
  "old": "- netQuark d 5 + 2 * netQuark d 6) 3",
  "new": "- netQuark d 5 - netQuark d 6) 3",
  "edit": "top quark charge -1/3",
  "claim": "C16 charge"
 },
 {
  "file": "Pdg/Model.lean",
  "def": "netQuarkNumber",
  "old": "else .ok ((if other % 2 = 0 then -1 else 1) * antiparticleSign d)",
  "new": "else .ok ((if other % 2 = 0 then 1 else -1) * antiparticleSign d)",
  "edit": "lighter quark in a meson gets the sign of the heavier",
  "claim": "C16"
 },
 {
  "file": "Pdg/Model.lean",
  "def": "netQuarkNumber",
  "old": "if quark = 1 then .ok ((2 * nn + np + nl) * antiparticleSign d)",
  "new": "if quark = 1 then .ok ((nn + 2 * np + nl) * antiparticleSign d)",
  "edit": "swapped u and d in nuclei",
  "claim": "C16 nuclei"
 },
 {
  "file": "Pdg/Model.lean",
  "def": "strangeness",
  "old": "-netQuark d 3",
  "new": "netQuark d 3",
  "edit": "strangeness sign",
  "claim": "C16 Gell-Mann-Nishijima"
 },
 {
  "file": "Pdg/Model.lean",
  "def": "hasAntiparticle",
  "old": "baryonNumber d != 0 || nq2 d != nq3 d",
  "new": "nq2 d != nq3 d",
  "edit": "baryons with equal last quarks claim to be their own antiparticle",
  "claim": "C15 neutral"
 },
 {
  "file": "Pdg/Model.lean",
  "def": "isSigma",
  "old": "isHyperon d && nq2 d != 3 && !isLambda d",
  "new": "isHyperon d && nq2 d != 3",
  "edit": "Lambda also counted as Sigma",
  "claim": "C63"
 },
 {
  "file": "Pdg/Model.lean",
  "def": "quarkContent",
  "old": "if nq2 d % 2 = 1 then (q1, -r.1, -r.2) else (q1, r.1, r.2)",
  "new": "(q1, r.1, r.2)",
  "edit": "quark_content without the down-type sign flip",
  "claim": "C62"
 },
 {
  "file": "Pdg/Model.lean",
  "def": "isAntiparticleOf",
  "old": "code d == -code e",
  "new": "code d == code e",
  "edit": "sign lost",
  "claim": "C64"
 },
 {
  "file": "Pdg/Model.lean",
  "def": "digit",
  "old": "c.toNat - 97 + 10",
  "new": "c.toNat - 97",
  "edit": "lower case hex digits off by ten",
  "claim": "C17/C14 digits"
 },
 {
  "file": "Pdg/Model.lean",
  "def": "digit",
  "old": "if 48 ≤ c.toNat ∧ c.toNat ≤ 57 then",
  "new": "if 48 ≤ c.toNat ∧ c.toNat ≤ 58 then",
  "edit": "colon accepted as digit",
  "claim": "C17 only numbers accepted"
 },
 {
  "file": "Pdg/Model.lean",
  "def": "getDecimal",
  "old": "n d * 1000000 + j1 * 10000000 : Nat)",
  "new": "n d * 1000000 : Nat)",
  "edit": "eighth digit not printed",
  "claim": "C14 round trip"
 },
 {
  "file": "Pdg/Model.lean",
  "def": "getDecimal",
  "old": "(I d + 10 * A d + 10000 * Z d + 10000000 * nLambda d + 1000000000 : Nat)",
  "new": "(I d + 10 * A d + 1000 * Z d + 10000000 * nLambda d + 1000000000 : Nat)",
  "edit": "nucleus Z printed at the wrong decimal place",
  "claim": "C14 round trip"
 },
 {
  "file": "Pdg/Model.lean",
  "def": "ofString",
  "old": "| '-' :: s => afterSign (2 ^ 31) s",
  "new": "| '-' :: s => afterSign 0 s",
  "edit": "minus sign ignored",
  "claim": "C14/C17"
 },
 {
  "file": "Pdg/Model.lean",
  "def": "check",
  "old": "else if anti d && !hasAntiparticle d then .error .invalidPdgCode\n  else .ok ()",
  "new": "else .ok ()",
  "edit": "negative codes of self-conjugate particles accepted",
  "claim": "C15"
 },
 {
  "file": "Pdg/Model.lean",
  "def": "testCode",
  "old": "decide (9 < n d) || ",
  "new": "",
  "edit": "n digit not checked",
  "claim": "C14 round trip"
 },
 {
  "file": "Pdg/Model.lean",
  "def": "digitsFromString",
  "old": "let st ← field (len > 3) 12 6 st",
  "new": "let st ← field (len > 3) 12 15 st",
  "edit": "quark digit above 6 accepted",
  "claim": "C17"
 },
 {
  "file": "Pdg/Model.lean",
  "def": "toHex",
  "old": "a % 10 + 16 * toHex k (a / 10)",
  "new": "a % 10 + 10 * toHex k (a / 10)",
  "edit": "from_decimal keeps the decimal value",
  "claim": "C14"
 },
 {
  "file": "Pdg/Model.lean",
  "def": "spin",
  "old": "else if isHadron d then .ok (if nJ d = 0 then 0 else nJ d - 1)",
  "new": "else if isHadron d then .ok (if nJ d = 0 then 0 else if anti d then nJ d else nJ d - 1)",
  "edit": "spin of antiparticles off by one",
  "claim": "C15 same spin"
 }
]