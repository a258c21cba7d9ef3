[
 {
  "file": "Frag/Model.lean",
  "def": "quarksFromDiquark",
  "old": "((sign * (a - a % 1000)).tdiv 1000,",
  "new": "((a - a % 1000).tdiv 1000,",
  "edit": "sign dropped for the first quark",
  "claim": "C85"
 },
 {
  "file": "Frag/Model.lean",
  "def": "quarksFromDiquark",
  "old": "(sign * (a % 1000 - deg)).tdiv 100, deg)",
  "new": "(sign * (a % 1000)).tdiv 10, deg)",
  "edit": "wrong digit for the second quark",
  "claim": "C85"
 },
 {
  "file": "Frag/Model.lean",
  "def": "diquarkFromQuarks",
  "old": "(if p.1 ≠ p.2 ∧ r = 0 then 1 else 3)",
  "new": "(if r = 0 then 1 else 3)",
  "edit": "spin 0 for equal quarks",
  "claim": "C85"
 },
 {
  "file": "Frag/Model.lean",
  "def": "diquarkFromQuarks",
  "old": "if q1.natAbs < q2.natAbs then (q2, q1) else (q1, q2)\n  let d",
  "new": "if q1.natAbs > q2.natAbs then (q2, q1) else (q1, q2)\n  let d",
  "edit": "order reversed",
  "claim": "C85"
 },
 {
  "file": "Frag/Model.lean",
  "def": "diquarkFromQuarks",
  "old": "if p.1 < 0 then -d else d",
  "new": "d",
  "edit": "antidiquark not negative",
  "claim": "C85"
 },
 {
  "file": "Frag/Model.lean",
  "def": "chooseEnds",
  "old": "if c.below then (q.1, diquarkFromQuarks q.2.1 q.2.2 c.r)\n      else (q.2.1,",
  "new": "if c.below then (q.1, diquarkFromQuarks q.1 q.2.2 c.r)\n      else (q.2.1,",
  "edit": "neutron: quark used twice",
  "claim": "C85"
 },
 {
  "file": "Frag/Model.lean",
  "def": "chooseEnds",
  "old": "if c.below then (q.2.2, diquarkFromQuarks q.1 q.2.1 c.r)",
  "new": "if c.below then (q.1, diquarkFromQuarks q.2.1 q.2.2 c.r)",
  "edit": "proton treated like neutron",
  "claim": "C85"
 },
 {
  "file": "Frag/Model.lean",
  "def": "chooseEnds",
  "old": "then (2, -2)",
  "new": "then (2, -1)",
  "edit": "mixing gives a charged pion",
  "claim": "C85"
 },
 {
  "file": "Frag/Model.lean",
  "def": "chooseEnds",
  "old": "| 2 => (q.2.2, diquarkFromQuarks q.2.1 q.1 c.r)",
  "new": "| 2 => (q.2.2, diquarkFromQuarks q.2.1 q.2.2 c.r)",
  "edit": "third quark used twice",
  "claim": "C85"
 },
 {
  "file": "Frag/Model.lean",
  "def": "order",
  "old": "if e.1 < 0 then (e.2, e.1) else e",
  "new": "if e.1 > 0 then (e.2, e.1) else e",
  "edit": "ends swapped",
  "claim": "C85"
 },
 {
  "file": "Frag/Model.lean",
  "def": "count1",
  "old": "(if positive then q > 0 else q < 0)",
  "new": "(if positive then q > 0 else q ≠ 0)",
  "edit": "antiquark counter counts quarks",
  "claim": "C86"
 },
 {
  "file": "Frag/Model.lean",
  "def": "findExcess",
  "old": "let q ← count1 mapped.2.2 true (-1) q",
  "new": "let q ← count1 mapped.2.1 true (-1) q",
  "edit": "second quark of mapped hadron counted twice",
  "claim": "C86"
 },
 {
  "file": "Frag/Model.lean",
  "def": "findExcess",
  "old": "let a ← count1 mapped.1 false (-1) a",
  "new": "let a ← count1 mapped.1 false 1 a",
  "edit": "sign of mapped antiquarks",
  "claim": "C86"
 },
 {
  "file": "Frag/Model.lean",
  "def": "targets",
  "old": "k ≠ j ∧ e k > 0",
  "new": "k ≠ j ∧ e k ≥ 0",
  "edit": "converted into flavours without excess",
  "claim": "C86"
 },
 {
  "file": "Frag/Model.lean",
  "def": "targets",
  "old": "if e j < 0 then",
  "new": "if e j ≤ 0 then",
  "edit": "flavours without deficit converted",
  "claim": "C86"
 },
 {
  "file": "Frag/Model.lean",
  "def": "convert",
  "old": "Function.update e k (e k - 1))",
  "new": "e)",
  "edit": "excess of the new flavour not reduced",
  "claim": "C86"
 },
 {
  "file": "Frag/Model.lean",
  "def": "convert",
  "old": "if q > 0 then (k : Int) + 1 else -((k : Int) + 1)",
  "new": "(k : Int) + 1",
  "edit": "antiquark becomes a quark",
  "claim": "C86"
 },
 {
  "file": "Frag/Model.lean",
  "def": "composeDiquark",
  "old": "if id < 0 then -n else n",
  "new": "n",
  "edit": "antidiquark becomes a diquark",
  "claim": "C86"
 },
 {
  "file": "Frag/Model.lean",
  "def": "composeDiquark",
  "old": "(if p.1.natAbs = p.2.natAbs then 3 else deg)",
  "new": "deg",
  "edit": "equal quarks with spin 0",
  "claim": "C86"
 },
 {
  "file": "Frag/Model.lean",
  "def": "touch",
  "old": "if id > 0 then (replace",
  "new": "if id < 0 then (replace",
  "edit": "quark and antiquark excess swapped",
  "claim": "C86"
 },
 {
  "file": "Frag/Model.lean",
  "def": "visit",
  "old": "(done ++ [r.1]) r.2",
  "new": "(done ++ [id]) r.2",
  "edit": "replaced parton not stored",
  "claim": "C86"
 },
 {
  "file": "Frag/Model.lean",
  "def": "netExcess",
  "old": "(x0.quark j - x0.antiq j) + (x1.quark j - x1.antiq j)",
  "new": "(x0.quark j - x0.antiq j)",
  "edit": "second hadron ignored",
  "claim": "C86"
 },
 {
  "file": "Frag/Model.lean",
  "def": "restoreLoop",
  "old": "(visit (o fuel).2 r0.1.length r0.1 [] x1)",
  "new": "(visit (o fuel).2 r0.1.length ps [] x1)",
  "edit": "second pass starts from the original partons",
  "claim": "C86"
 },
 {
  "file": "Frag/Model.lean",
  "def": "shiftOne",
  "old": "⟨Function.update q j (q j - 1), Function.update a j (a j - 1)⟩",
  "new": "⟨Function.update q j (q j - 1), a⟩",
  "edit": "antiquark excess not reduced",
  "claim": "C86"
 },
 {
  "file": "Frag/Model.lean",
  "def": "shiftOne",
  "old": "let a := Function.update x.antiq i (x.antiq i + 1)",
  "new": "let a := x.antiq",
  "edit": "antiquark excess not raised",
  "claim": "C86"
 },
 {
  "file": "Frag/Model.lean",
  "def": "nQuarksInCode",
  "old": "(if id.natAbs / 100 % 10 = j + 1 then 1 else 0)",
  "new": "0",
  "edit": "second quark of diquark not counted",
  "claim": "C86"
 },
 {
  "file": "Frag/Model.lean",
  "def": "findTotal",
  "old": "((findTotal l).1, (findTotal l).2 + nQuarksInCode id)",
  "new": "((findTotal l).1 + nQuarksInCode id, (findTotal l).2)",
  "edit": "antiquarks counted as quarks",
  "claim": "C86"
 },
 {
  "file": "Frag/Model.lean",
  "def": "restore",
  "old": "t.1 j + x.1.quark j + x.2.quark j < 0 ∨",
  "new": "t.1 j + x.1.quark j + x.2.quark j ≤ 0 ∨",
  "edit": "refuses when the flavour is used up exactly",
  "claim": "C86"
 },
 {
  "file": "Frag/Model.lean",
  "def": "restore",
  "old": "t.2 j + x.1.antiq j + x.2.antiq j < 0",
  "new": "t.1 j + x.1.antiq j + x.2.antiq j < 0",
  "edit": "antiquarks compared with quarks",
  "claim": "C86"
 },
 {
  "file": "Frag/Model.lean",
  "def": "searchGluon",
  "old": "if e.gluon ∧ e.y > best.y then e else best",
  "new": "if e.y > best.y then e else best",
  "edit": "non-gluons considered",
  "claim": "C86"
 },
 {
  "file": "Frag/Model.lean",
  "def": "searchGluon",
  "old": "e.y > best.y then e",
  "new": "e.y < best.y then e",
  "edit": "most backward gluon",
  "claim": "C86"
 },
 {
  "file": "Frag/Hadron.lean",
  "def": "endsNet",
  "old": "(if idq2 > 0 then nQuarksInCode idq2 j else -nQuarksInCode idq2 j)",
  "new": "nQuarksInCode idq2 j",
  "edit": "sign of antiquarks dropped",
  "claim": "C87"
 },
 {
  "file": "Frag/Hadron.lean",
  "def": "stringBaryon",
  "old": "if idq2 < 0 ∧ isQuark idq2 then some (-1) else none",
  "new": "if idq2 < 0 ∧ isQuark idq2 then some 1 else none",
  "edit": "antibaryon string",
  "claim": "C87"
 },
 {
  "file": "Frag/Hadron.lean",
  "def": "sameFlavour",
  "old": "Pdg.strangeness d == -q 2",
  "new": "Pdg.strangeness d == q 2",
  "edit": "strangeness sign",
  "claim": "C87"
 },
 {
  "file": "Frag/Hadron.lean",
  "def": "sameFlavour",
  "old": "&& Pdg.charmness d == q 3",
  "new": "",
  "edit": "charm not compared",
  "claim": "C87"
 },
 {
  "file": "Frag/Hadron.lean",
  "def": "candidates",
  "old": "!decide (mass < t.minMass)",
  "new": "!decide (mass ≤ t.minMass)",
  "edit": "threshold excluded",
  "claim": "C87"
 },
 {
  "file": "Frag/Hadron.lean",
  "def": "candidates",
  "old": "!t.stable && ",
  "new": "",
  "edit": "stable hadrons allowed",
  "claim": "C87"
 },
 {
  "file": "Frag/Hadron.lean",
  "def": "closest",
  "old": "if |mass - t.mass| < diff then",
  "new": "if |mass - t.mass| > diff then",
  "edit": "farthest",
  "claim": "C87"
 },
 {
  "file": "Frag/Hadron.lean",
  "def": "possible",
  "old": "3 * Pdg.baryonNumber t.code",
  "new": "Pdg.baryonNumber t.code",
  "edit": "factor 3",
  "claim": "C87"
 },
 {
  "file": "Frag/Hadron.lean",
  "def": "selectByWeight",
  "old": "else selectByWeight w u (sum + w t) l",
  "new": "else selectByWeight w u sum l",
  "edit": "weights not summed",
  "claim": "C87"
 },
 {
  "file": "Frag/Hadron.lean",
  "def": "enough",
  "old": "| .meson => n == 1 || n == -1",
  "new": "| .meson => n == 1",
  "edit": "meson only quark",
  "claim": "C88"
 },
 {
  "file": "Frag/Hadron.lean",
  "def": "enough",
  "old": "| .antibaryon => n == -1 || n == -2",
  "new": "| .antibaryon => n == 1 || n == 2",
  "edit": "antibaryon like baryon",
  "claim": "C88"
 },
 {
  "file": "Frag/Hadron.lean",
  "def": "scaling",
  "old": "1 / 2 * suppression",
  "new": "suppression",
  "edit": "meson factor",
  "claim": "C88"
 },
 {
  "file": "Frag/Hadron.lean",
  "def": "scaling",
  "old": "(3 * k.number)",
  "new": "3",
  "edit": "sign of baryon number",
  "claim": "C88"
 },
 {
  "file": "Frag/Hadron.lean",
  "def": "findLeading",
  "old": "(l.length : Int) - 1 - firstIndex nq2 l.reverse",
  "new": "(l.length : Int) - firstIndex nq2 l.reverse",
  "edit": "off by one",
  "claim": "C88"
 },
 {
  "file": "Frag/Hadron.lean",
  "def": "assignAll",
  "old": "some (2, 1)",
  "new": "some (1, 2)",
  "edit": "baryon ends swapped",
  "claim": "C88"
 },
 {
  "file": "Frag/Hadron.lean",
  "def": "assignAll",
  "old": "i.2 - i.1 < j.2 - j.1",
  "new": "i.2 - i.1 > j.2 - j.1",
  "edit": "smaller distance taken",
  "claim": "C88"
 },
 {
  "file": "Frag/Hadron.lean",
  "def": "assignAll",
  "old": "(assign n.2 supp kinds j.1 f).bind (assign n.1 supp kinds j.2)",
  "new": "(assign n.2 supp kinds j.1 f)",
  "edit": "backward hadron forgotten",
  "claim": "C88"
 },
 {
  "file": "Frag/Hadron.lean",
  "def": "mapForPythia",
  "old": "if Pdg.charge d < 0 then 0x80002212 else 0x80002112",
  "new": "if Pdg.charge d > 0 then 0x80002212 else 0x80002112",
  "edit": "antibaryon charge sign",
  "claim": "C90"
 },
 {
  "file": "Frag/Hadron.lean",
  "def": "mapForPythia",
  "old": "if Pdg.charge d > 0 then 0x2212 else 0x2112",
  "new": "if Pdg.charge d ≥ 0 then 0x2212 else 0x2112",
  "edit": "neutral baryons to protons",
  "claim": "C90"
 },
 {
  "file": "Frag/Hadron.lean",
  "def": "mapForPythia",
  "old": "if Pdg.charge d ≥ 0 then 0x211 else 0x80000211",
  "new": "0x211",
  "edit": "negative mesons to pi+",
  "claim": "C90"
 },
 {
  "file": "Frag/Mom.lean",
  "def": "basis",
  "old": "(e, ⟨cos theta * cos phi, cos theta * sin phi, -sin theta⟩",
  "new": "(e, ⟨cos theta * cos phi, cos theta * sin phi, sin theta⟩",
  "edit": "sign of sin theta",
  "claim": "C89"
 },
 {
  "file": "Frag/Mom.lean",
  "def": "basis",
  "old": "if e.y > 0 then arccos (e.x / et) else -arccos (e.x / et)",
  "new": "arccos (e.x / et)",
  "edit": "phi only in upper half",
  "claim": "C89"
 },
 {
  "file": "Frag/Mom.lean",
  "def": "basis",
  "old": "(⟨0, 0, -1⟩, ⟨0, 1, 0⟩, ⟨1, 0, 0⟩)",
  "new": "(⟨0, 0, -1⟩, ⟨1, 0, 0⟩, ⟨0, 1, 0⟩)",
  "edit": "left-handed",
  "claim": "C89"
 },
 {
  "file": "Frag/Mom.lean",
  "def": "stringMomentum",
  "old": "(b.1.smul ((pp - pn) * √(1 / 2)))",
  "new": "(b.1.smul ((pp + pn) * √(1 / 2)))",
  "edit": "longitudinal momentum",
  "claim": "C89"
 },
 {
  "file": "Frag/Mom.lean",
  "def": "doubleDiffractive",
  "old": "(pNeg b.1 pB - qneg) (-qx) (-qy))\n\n/-- The two strings of `next_NDiffSoft`",
  "new": "(pNeg b.1 pB - qneg) qx qy)\n\n/-- The two strings of `next_NDiffSoft`",
  "edit": "transverse momentum not opposite",
  "claim": "C89"
 },
 {
  "file": "Frag/Mom.lean",
  "def": "doubleDiffractive",
  "old": "(pPos b.1 pA + qpos) (pNeg b.1 pA + qneg) qx qy,",
  "new": "(pPos b.1 pA - qpos) (pNeg b.1 pA + qneg) qx qy,",
  "edit": "sign of q+",
  "claim": "C89"
 },
 {
  "file": "Frag/Mom.lean",
  "def": "nonDiffractive",
  "old": "let dneg := xb * pNeg b.1 pB - qneg",
  "new": "let dneg := xb * pNeg b.1 pA - qneg",
  "edit": "wrong hadron",
  "claim": "C89"
 },
 {
  "file": "Frag/Mom.lean",
  "def": "nonDiffractive",
  "old": "let dpos := -xa * pPos b.1 pA - qpos",
  "new": "let dpos := xa * pPos b.1 pA - qpos",
  "edit": "sign",
  "claim": "C89"
 },
 {
  "file": "Frag/Mom.lean",
  "def": "singleDiffractive",
  "old": "√(p2 - qt * qt)",
  "new": "√p2",
  "edit": "longitudinal momentum ignores qt",
  "claim": "C89"
 },
 {
  "file": "Frag/Mom.lean",
  "def": "singleDiffractive",
  "old": "√(p2 + massX * massX)) p.neg",
  "new": "√(p2 + massX * massX)) p",
  "edit": "same momentum",
  "claim": "C89"
 },
 {
  "file": "Frag/Mom.lean",
  "def": "singleDiffractive",
  "old": "if p2 > qt * qt then",
  "new": "if p2 > qt then",
  "edit": "qt not squared",
  "claim": "C89"
 },
 {
  "file": "Frag/Mom.lean",
  "def": "regroup",
  "old": "some ((b.1, a.2), (a.1, b.2))",
  "new": "some ((b.1, b.2), (a.1, a.2))",
  "edit": "ends not exchanged",
  "claim": "C89"
 },
 {
  "file": "Frag/Mom.lean",
  "def": "regroup",
  "old": "some ((a.1, b.2), (b.1, a.2))",
  "new": "some ((a.1, b.2), (b.1, b.2))",
  "edit": "end used twice",
  "claim": "C89"
 },
 {
  "file": "Frag/Mom.lean",
  "def": "regroup",
  "old": "(barA = 0 ∧ barB = 1) ∨ (barA = 0 ∧ barB = 0)",
  "new": "(barA = 0 ∧ barB = 1)",
  "edit": "two mesons throw",
  "claim": "C89"
 },
 {
  "file": "Frag/Mom.lean",
  "def": "appendFragment",
  "old": "(boost p vs.neg, soft",
  "new": "(boost p vs, soft",
  "edit": "boost in the wrong direction",
  "claim": "C89"
 },
 {
  "file": "Frag/Mom.lean",
  "def": "appendFragment",
  "old": "soft * x.t + tc",
  "new": "soft * (x.t + tc)",
  "edit": "collision time scaled",
  "claim": "C89"
 },
 {
  "file": "Frag/Mom.lean",
  "def": "finalTwo",
  "old": "let xen := 1 / 2 * (1 - xm)",
  "new": "let xen := 1 / 2 * (1 + xm)",
  "edit": "",
  "claim": "C89"
 },
 {
  "file": "Frag/Mom.lean",
  "def": "finalTwo",
  "old": "1 / 2 * f / pf, 1 / 2 * b / pb)",
  "new": "1 / 2 * b / pf, 1 / 2 * f / pb)",
  "edit": "masses swapped",
  "claim": "C89"
 },
 {
  "file": "Frag/Mom.lean",
  "def": "finalTwo",
  "old": "if l2 ≤ 0 then none",
  "new": "if l2 < 0 then none",
  "edit": "threshold accepted",
  "claim": "C89"
 },
 {
  "file": "Frag/Mom.lean",
  "def": "zLund",
  "old": "let inv := 1 - log u",
  "new": "let inv := 1 + log u",
  "edit": "sign",
  "claim": "C89"
 }
]