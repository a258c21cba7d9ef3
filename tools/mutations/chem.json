[
 {
  "file": "Chem/Model.lean",
  "def": "densityOne",
  "old": "g / (2 * π * π) *",
  "new": "g / (2 * π) *",
  "edit": "factor π dropped",
  "claim": "C164"
 },
 {
  "file": "Chem/Model.lean",
  "def": "densityOne",
  "old": "((1 - x) * (1 - x) / (x * x * x * x))",
  "new": "((1 - x) * (1 - x) / (x * x))",
  "edit": "Jacobian dropped",
  "claim": "C164"
 },
 {
  "file": "Chem/Model.lean",
  "def": "densityOne",
  "old": "juttner ((1 - x) / x) m T mu s",
  "new": "juttner (x / (1 - x)) m T mu s",
  "edit": "inverse substitution",
  "claim": "C164"
 },
 {
  "file": "Chem/Model.lean",
  "def": "densityOne",
  "old": "juttner ((1 - x) / x) m T mu s",
  "new": "juttner ((1 - x) / x) m T mu 0",
  "edit": "statistics ignored",
  "claim": "C164"
 },
 {
  "file": "Chem/Model.lean",
  "def": "rootEquation",
  "old": ":= n - densityOne g m T mu s",
  "new": ":= n - densityOne g m mu T s",
  "edit": "swapped arguments",
  "claim": "C164"
 },
 {
  "file": "Chem/Model.lean",
  "def": "loop",
  "old": "| none => .error .stuck\n    | some st' => if |F (S.x st')| < eps then .ok (some (S.x st')) else loop",
  "new": "| none => .ok (some (S.x st))\n    | some st' => if |F (S.x st')| < eps then .ok (some (S.x st')) else loop",
  "edit": "stuck root finder accepted",
  "claim": "C164"
 },
 {
  "file": "Chem/Model.lean",
  "def": "loop",
  "old": "if |F (S.x st')| < eps then .ok (some (S.x st')) else loop S F eps k st'",
  "new": "if F (S.x st') < eps then .ok (some (S.x st')) else loop S F eps k st'",
  "edit": "residual without absolute value",
  "claim": "C164"
 },
 {
  "file": "Chem/Model.lean",
  "def": "loop",
  "old": "if |F (S.x st')| < eps then .ok (some (S.x st')) else loop S F eps k st'",
  "new": "if |F (S.x st')| < eps then .ok (some (S.x st)) else loop S F eps k st'",
  "edit": "previous position returned",
  "claim": "C164"
 },
 {
  "file": "Chem/Model.lean",
  "def": "find",
  "old": "eps 100000 (S.set guess)",
  "new": "eps 1000 (S.set guess)",
  "edit": "fewer iterations",
  "claim": "C164"
 },
 {
  "file": "Chem/Model.lean",
  "def": "guess",
  "old": "if s = -1 then 999999 / 1000000 * m else 105 / 100 * m",
  "new": "if s = 1 then 999999 / 1000000 * m else 105 / 100 * m",
  "edit": "guesses swapped",
  "claim": "C164"
 },
 {
  "file": "Chem/Model.lean",
  "def": "check",
  "old": "/ (hbarc * hbarc * hbarc)| > 1 / 1000",
  "new": "| > 1 / 1000",
  "edit": "units of the check",
  "claim": "C164"
 },
 {
  "file": "Chem/Model.lean",
  "def": "check",
  "old": "|(n - densityOne g m T mu s) / (hbarc * hbarc * hbarc)| > 1 / 1000",
  "new": "(n - densityOne g m T mu s) / (hbarc * hbarc * hbarc) > 1 / 1000",
  "edit": "check without absolute value",
  "claim": "C164"
 },
 {
  "file": "Chem/Model.lean",
  "def": "check",
  "old": "else if s = -1 ∧ mu > m then .error .condensate",
  "new": "else if s = 1 ∧ mu > m then .error .condensate",
  "edit": "condensate of fermions",
  "claim": "C164"
 },
 {
  "file": "Chem/Model.lean",
  "def": "check",
  "old": "  else if juttner (5 / 1000) m T mu s < 0 then .error .negative\n",
  "new": "",
  "edit": "negative distribution accepted",
  "claim": "C164"
 },
 {
  "file": "Chem/Model.lean",
  "def": "effective",
  "old": "| .ok r => check g m n T s (r.getD 0)",
  "new": "| .ok r => .ok (r.getD 0)",
  "edit": "no check",
  "claim": "C164"
 },
 {
  "file": "Chem/Model.lean",
  "def": "effective",
  "old": "check g m n T s (r.getD 0)",
  "new": "check g m n T s (r.getD m)",
  "edit": "mass if not converged",
  "claim": "C164"
 },
 {
  "file": "Chem/Model.lean",
  "def": "loopMax",
  "old": "if |F (S.x st')| < eps then .ok (some (S.x st')) else loopMax S F eps j k p0 st'",
  "new": "if |F (S.x st')| < eps then .ok (some p0) else loopMax S F eps j k p0 st'",
  "edit": "guess returned",
  "claim": "C164"
 },
 {
  "file": "Chem/Model.lean",
  "def": "loopMax",
  "old": "let p := p0 + 5 / 100",
  "new": "let p := p0",
  "edit": "same guess again",
  "claim": "C164"
 },
 {
  "file": "Chem/Model.lean",
  "def": "loopMax",
  "old": "      | 0 => .error .stuck",
  "new": "      | 0 => .ok none",
  "edit": "stuck root finder not reported",
  "claim": "C164"
 },
 {
  "file": "Chem/Model.lean",
  "def": "findMax",
  "old": "eps 100 100000 (50 / 1000)",
  "new": "eps 10 100000 (50 / 1000)",
  "edit": "only 10 guesses",
  "claim": "C164"
 },
 {
  "file": "Chem/Model.lean",
  "def": "findMax",
  "old": "(S.set (50 / 1000))",
  "new": "(S.set 0)",
  "edit": "guess 0",
  "claim": "C164"
 },
 {
  "file": "Chem/Model.lean",
  "def": "solve",
  "old": "let Vgev := V / (hbarc * hbarc * hbarc)",
  "new": "let Vgev := V",
  "edit": "volume in fm³",
  "claim": "C164"
 },
 {
  "file": "Chem/Model.lean",
  "def": "solve",
  "old": "effective S (j + 1) m n",
  "new": "effective S j m n",
  "edit": "wrong degeneracy",
  "claim": "C164"
 },
 {
  "file": "Chem/Model.lean",
  "def": "solve",
  "old": "effective S (j + 1) m n T (statistics j) precision",
  "new": "effective S (j + 1) m n T (statistics (j + 1)) precision",
  "edit": "wrong statistics",
  "claim": "C164"
 },
 {
  "file": "Chem/Model.lean",
  "def": "solve",
  "old": "findMax S' m T mu (statistics j) precision",
  "new": "findMax S' m T 0 (statistics j) precision",
  "edit": "maximum for another chemical potential",
  "claim": "C164"
 },
 {
  "file": "Ini/Model.lean",
  "def": "quantumLoop",
  "old": "if top ≠ 0 ∧ c > p * p * juttner p m T mu s / top",
  "new": "if top ≠ 0 ∧ c > p * juttner p m T mu s / top",
  "edit": "factor p dropped",
  "claim": "C124"
 }
]