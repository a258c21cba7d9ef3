[
 {
  "file": "Rem/Model.lean",
  "def": "plus",
  "old": "(p.t + p.vec.dot b.1) * √(1 / 2)",
  "new": "(p.t + p.vec.dot b.1)",
  "edit": "factor dropped",
  "claim": "C169"
 },
 {
  "file": "Rem/Model.lean",
  "def": "mTr",
  "old": "√(2 * plus b p * minus b p)",
  "new": "√(plus b p * minus b p)",
  "edit": "factor 2 dropped",
  "claim": "C169"
 },
 {
  "file": "Rem/Model.lean",
  "def": "rap",
  "old": "1 / 2 * log (plus b p / minus b p)",
  "new": "log (plus b p / minus b p)",
  "edit": "factor 1/2 dropped",
  "claim": "C169"
 },
 {
  "file": "Rem/Model.lean",
  "def": "rap",
  "old": "log (plus b p / minus b p)",
  "new": "log (minus b p / plus b p)",
  "edit": "sign of the rapidity",
  "claim": "C169"
 },
 {
  "file": "Rem/Model.lean",
  "def": "shiftOne",
  "old": "f * rap b p + d",
  "new": "f * (rap b p + d)",
  "edit": "shift multiplied as well",
  "claim": "C169"
 },
 {
  "file": "Rem/Model.lean",
  "def": "shiftOne",
  "old": "V4.mk' (mTr b p * cosh y) (p.vec.add (b.1.smul (mTr b p * sinh y - p.vec.dot b.1)))",
  "new": "V4.mk' (mTr b p * cosh y) (p.vec.add (b.1.smul (mTr b p * sinh y)))",
  "edit": "old longitudinal momentum not subtracted",
  "claim": "C169"
 },
 {
  "file": "Rem/Model.lean",
  "def": "shiftOne",
  "old": "V4.mk' (mTr b p * cosh y)",
  "new": "V4.mk' p.t",
  "edit": "energy not updated",
  "claim": "C169"
 },
 {
  "file": "Rem/Model.lean",
  "def": "shift",
  "old": "⟨total (ev.had.map (shiftOne b f d)), ev.had",
  "new": "⟨ev.sys, ev.had",
  "edit": "system entry not updated",
  "claim": "C169"
 },
 {
  "file": "Rem/Model.lean",
  "def": "forward",
  "old": "if y > s.2 then (i, y) else s",
  "new": "if y > s.2 then (i, s.2) else s",
  "edit": "largest rapidity not updated",
  "claim": "C169"
 },
 {
  "file": "Rem/Model.lean",
  "def": "forward",
  "old": "if y > s.2 then (i, y) else s",
  "new": "if y < s.2 then (i, y) else s",
  "edit": "most backward instead of most forward",
  "claim": "C169"
 },
 {
  "file": "Rem/Model.lean",
  "def": "backward",
  "old": "backward l (i + 1) (if",
  "new": "backward l i (if",
  "edit": "place not advanced",
  "claim": "C169"
 },
 {
  "file": "Rem/Model.lean",
  "def": "backward",
  "old": "if y < s.2 then (i, y) else s",
  "new": "if y < s.2 then (i, y) else (i, s.2)",
  "edit": "last place instead of the place of the minimum",
  "claim": "C169"
 },
 {
  "file": "Rem/Model.lean",
  "def": "kick",
  "old": "(p.vec.add (b.2.1.smul qx)).add (b.2.2.smul qy)",
  "new": "(p.vec.add (b.2.1.smul qy)).add (b.2.2.smul qx)",
  "edit": "components swapped",
  "claim": "C169"
 },
 {
  "file": "Rem/Model.lean",
  "def": "kick",
  "old": "√(v.sqr + mCalc p * mCalc p)",
  "new": "p.t",
  "edit": "energy not recalculated",
  "claim": "C169"
 },
 {
  "file": "Rem/Model.lean",
  "def": "kick",
  "old": "√(v.sqr + mCalc p * mCalc p)",
  "new": "√(v.sqr + mCalc p)",
  "edit": "mass not squared",
  "claim": "C169"
 },
 {
  "file": "Rem/Model.lean",
  "def": "addEnds",
  "old": "let ev2 := ev1.put j (kick b cx cy (ev1.get j))",
  "new": "let ev2 := ev1.put j (kick b ax ay (ev1.get j))",
  "edit": "momentum of the other end",
  "claim": "C169"
 },
 {
  "file": "Rem/Model.lean",
  "def": "addEnds",
  "old": "let ev2 := ev1.put j (kick b cx cy (ev1.get j))",
  "new": "let ev2 := ev1.put i (kick b cx cy (ev1.get j))",
  "edit": "stored at the wrong place",
  "claim": "C169"
 },
 {
  "file": "Rem/Model.lean",
  "def": "addEnds",
  "old": "let ev1 := ev.put i (kick b ax ay (ev.get i))",
  "new": "let ev1 := ev",
  "edit": "forward hadron not updated",
  "claim": "C169"
 },
 {
  "file": "Rem/Model.lean",
  "def": "slope",
  "old": "(rap b p - y0) * sinh (rap b p)",
  "new": "(rap b p) * sinh (rap b p)",
  "edit": "rapidity of the string not subtracted",
  "claim": "C169"
 },
 {
  "file": "Rem/Model.lean",
  "def": "slope",
  "old": "ev.sys.vec.dot b.1 * (ev.had.map",
  "new": "ev.sys.t * (ev.had.map",
  "edit": "energy instead of momentum",
  "claim": "C169"
 },
 {
  "file": "Rem/Model.lean",
  "def": "factor",
  "old": "1 + tanh (d / s)",
  "new": "1 - tanh (d / s)",
  "edit": "wrong direction",
  "claim": "C169"
 },
 {
  "file": "Rem/Model.lean",
  "def": "factor",
  "old": "1 + tanh (d / s)",
  "new": "tanh (d / s)",
  "edit": "1 dropped",
  "claim": "C169"
 },
 {
  "file": "Rem/Model.lean",
  "def": "rescale",
  "old": "if |mCalc ev.sys - mass| < 1 / 1000000 * mass then",
  "new": "if |mCalc ev.sys - mass| < 1 / 1000 * mass then",
  "edit": "tolerance too large",
  "claim": "C169"
 },
 {
  "file": "Rem/Model.lean",
  "def": "rescale",
  "old": "if |mCalc ev.sys - mass| < 1 / 1000000 * mass then",
  "new": "if mCalc ev.sys - mass < 1 / 1000000 * mass then",
  "edit": "absolute value dropped",
  "claim": "C169"
 },
 {
  "file": "Rem/Model.lean",
  "def": "rescale",
  "old": "  | 0, _ => none",
  "new": "  | 0, ev => some ev",
  "edit": "accepted after too many iterations",
  "claim": "C169"
 },
 {
  "file": "Rem/Model.lean",
  "def": "Goal.mass",
  "old": "√(g.qx * g.qx + g.qy * g.qy) * √(g.qx * g.qx + g.qy * g.qy))\n\n/-- `remake",
  "new": "√(g.qx * g.qx + g.qy * g.qy))\n\n/-- `remake",
  "edit": "transverse momentum not squared",
  "claim": "C169"
 },
 {
  "file": "Rem/Model.lean",
  "def": "remakeEnds",
  "old": "let ev1 := shift b 1 (-rap b (total ev.had)) ev",
  "new": "let ev1 := shift b 1 (rap b (total ev.had)) ev",
  "edit": "boost in the wrong direction",
  "claim": "C169"
 },
 {
  "file": "Rem/Model.lean",
  "def": "remakeEnds",
  "old": "if ¬|pt.vec.dot b.2.1 + g.ax + g.cx - g.qx| < 1 / 10000 * g.mass then none\n  else if",
  "new": "if",
  "edit": "transverse momentum not checked",
  "claim": "C169"
 },
 {
  "file": "Rem/Model.lean",
  "def": "remakeEnds",
  "old": "pt.vec.dot b.2.2 + g.ay + g.cy - g.qy",
  "new": "pt.vec.dot b.2.2 + g.ay - g.qy",
  "edit": "backward end forgotten in the check",
  "claim": "C169"
 },
 {
  "file": "Rem/Model.lean",
  "def": "remakeEnds",
  "old": "1 / 2 * log (g.pp / g.pn) - rap b ev3.sys",
  "new": "1 / 2 * log (g.pp / g.pn)",
  "edit": "rapidity of the current string not subtracted",
  "claim": "C169"
 },
 {
  "file": "Rem/Model.lean",
  "def": "remakeEnds",
  "old": "some (shift b 1 (1 / 2 * log (g.pp / g.pn) - rap b ev3.sys) ev3).had",
  "new": "some ev3.had",
  "edit": "final boost dropped",
  "claim": "C169"
 },
 {
  "file": "Rem/Model.lean",
  "def": "remake",
  "old": "|g.ay| < 1 / 10000 * g.mass ∧",
  "new": "",
  "edit": "one component not looked at",
  "claim": "C169"
 },
 {
  "file": "Rem/Model.lean",
  "def": "remake",
  "old": "  else if √(2 * g.pp * g.pn) < √(g.qx * g.qx + g.qy * g.qy) then none\n",
  "new": "",
  "edit": "space-like string accepted",
  "claim": "C169"
 }
]