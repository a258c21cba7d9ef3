[
 {
  "file": "Kin/Model.lean",
  "def": "gamma",
  "old": "1 / Real.sqrt (1 - v.sqr)",
  "new": "1 / Real.sqrt (1 + v.sqr)",
  "edit": "sign under the root",
  "claim": "C29"
 },
 {
  "file": "Kin/Model.lean",
  "def": "boost",
  "old": "gamma v / (gamma v + 1) * (t' + a.t)",
  "new": "gamma v / (gamma v + 1) * (t' - a.t)",
  "edit": "sign in the constant part",
  "claim": "C29"
 },
 {
  "file": "Kin/Model.lean",
  "def": "boost",
  "old": "gamma v / (gamma v + 1) * (t'",
  "new": "gamma v / (gamma v - 1) * (t'",
  "edit": "wrong denominator",
  "claim": "C29"
 },
 {
  "file": "Kin/Model.lean",
  "def": "boost",
  "old": "(a.t - a.vec.dot v)",
  "new": "(a.t + a.vec.dot v)",
  "edit": "boost in the wrong direction",
  "claim": "C29 rest frame"
 },
 {
  "file": "Kin/Model.lean",
  "def": "pCMsqrS",
  "old": "x * x * (1 / 4 / s) - ma * ma",
  "new": "x * x * (1 / 4 / s) - mb * mb",
  "edit": "wrong mass subtracted",
  "claim": "C30 symmetric"
 },
 {
  "file": "Kin/Model.lean",
  "def": "pCMsqrS",
  "old": "let x := s + ma * ma - mb * mb",
  "new": "let x := s - ma * ma - mb * mb",
  "edit": "wrong sign of a mass",
  "claim": "C30"
 },
 {
  "file": "Kin/Model.lean",
  "def": "pCMS",
  "old": "if p > 0 then Real.sqrt p else 0",
  "new": "if p > 1 then Real.sqrt p else 0",
  "edit": "wrong threshold",
  "claim": "C30 energy balance"
 },
 {
  "file": "Kin/Model.lean",
  "def": "tRange",
  "old": "(t0 - (pi - pf) * (pi - pf), t0 - (pi + pf) * (pi + pf))",
  "new": "(t0 - (pi + pf) * (pi + pf), t0 - (pi - pf) * (pi - pf))",
  "edit": "ends swapped",
  "claim": "C68"
 },
 {
  "file": "Kin/Model.lean",
  "def": "tRange",
  "old": "(m1 * m1 - m2 * m2 - m3 * m3 + m4 * m4)",
  "new": "(m1 * m1 - m2 * m2 + m3 * m3 - m4 * m4)",
  "edit": "masses of the final state swapped",
  "claim": "C68"
 },
 {
  "file": "Kin/Model.lean",
  "def": "plabFromS2",
  "old": "/ (2 * mt)",
  "new": "/ (2 * mp)",
  "edit": "projectile mass in the denominator",
  "claim": "C31"
 },
 {
  "file": "Kin/Model.lean",
  "def": "sFromEtot",
  "old": "mp * mp + mt * mt + 2 * mt * e",
  "new": "mp * mp + mt * mt + 2 * mp * e",
  "edit": "masses swapped",
  "claim": "C31"
 },
 {
  "file": "Kin/Model.lean",
  "def": "sFromEkin",
  "old": "sFromEtot (ek + mp) mp mt",
  "new": "sFromEtot (ek + mt) mp mt",
  "edit": "wrong rest mass added",
  "claim": "C31"
 },
 {
  "file": "Kin/Model.lean",
  "def": "sFromEtot2",
  "old": "(Real.sqrt (ep * ep - mp * mp) - Real",
  "new": "(Real.sqrt (ep * ep - mp * mp) + Real",
  "edit": "beams in the same direction",
  "claim": "C31"
 },
 {
  "file": "Kin/Model.lean",
  "def": "centerOfVelocityV",
  "old": "(s - (ma + mb) * (ma + mb)) / (s - (ma - mb) * (ma - mb))",
  "new": "(s - (ma + mb) * (ma + mb)) / s",
  "edit": "equal masses assumed",
  "claim": "C68"
 },
 {
  "file": "Kin/Model.lean",
  "def": "fixedTargetV",
  "old": "let g := 2 * ma * mb",
  "new": "let g := ma * mb",
  "edit": "factor 2 lost",
  "claim": "C68"
 },
 {
  "file": "Kin/Model.lean",
  "def": "almostEqual",
  "old": "else if y = 0 then decide (|x| ≤ eps)\n",
  "new": "",
  "edit": "zero tested on one side only",
  "claim": "C59 symmetric"
 },
 {
  "file": "Kin/Model.lean",
  "def": "almostEqual",
  "old": "eps * max |x| |y|",
  "new": "eps * |x|",
  "edit": "relative to the first argument",
  "claim": "C59 symmetric"
 },
 {
  "file": "Kin/Model.lean",
  "def": "Q4.eq",
  "old": "almostEqualPhysics a.y b.y &&\n",
  "new": "almostEqualPhysics a.y b.y ||\n",
  "edit": "z or the rest",
  "claim": "C59"
 },
 {
  "file": "Kin/Model.lean",
  "def": "Q4.gt",
  "old": "Q4.lt b a",
  "new": "!Q4.lt a b",
  "edit": "> as not <",
  "claim": "C59"
 },
 {
  "file": "Kin/Rot.lean",
  "def": "V3.rotate",
  "old": "-sin phi * sin psi + cos phi * cos theta * cos psi",
  "new": "-sin phi * sin psi - cos phi * cos theta * cos psi",
  "edit": "sign in the rotation matrix",
  "claim": "C67"
 },
 {
  "file": "Kin/Rot.lean",
  "def": "V3.rotY",
  "old": "-sin theta * a.x + cos theta * a.z",
  "new": "sin theta * a.x + cos theta * a.z",
  "edit": "sign in the rotation matrix",
  "claim": "C67"
 },
 {
  "file": "Kin/Rot.lean",
  "def": "V3.rotZTo",
  "old": "(a.rotY r.theta).rotZ r.phi",
  "new": "(a.rotZ r.phi).rotY r.theta",
  "edit": "rotations in the wrong order",
  "claim": "C67"
 },
 {
  "file": "Kin/Rot.lean",
  "def": "Angles.setPhi",
  "old": "p ≥ 2 * π",
  "new": "p > 2 * π",
  "edit": "2 pi allowed",
  "claim": "C67 range"
 },
 {
  "file": "Kin/Rot.lean",
  "def": "Angles.setPhi",
  "old": "p - 2 * π * ⌊p / (2 * π)⌋",
  "new": "p - π * ⌊p / π⌋",
  "edit": "reduced modulo pi",
  "claim": "C67 direction"
 },
 {
  "file": "Kin/Rot.lean",
  "def": "Angles.setCosTheta",
  "old": "else if c > 1 then ({ a with costheta := 1 }, true)",
  "new": "else if c > 2 then ({ a with costheta := 1 }, true)",
  "edit": "not clamped",
  "claim": "C67 range"
 },
 {
  "file": "Kin/Rot.lean",
  "def": "Angles.addToTheta",
  "old": "let r := a.setTheta (2 * π - s)",
  "new": "let r := a.setTheta (s - π)",
  "edit": "wrong reflection",
  "claim": "C67 add_to_theta"
 },
 {
  "file": "Kin/Rot.lean",
  "def": "Angles.addToTheta",
  "old": "let r := a.setTheta (-s)\n      if r.2 then (r.1.setPhi (r.1.phi + π), .ret true)",
  "new": "let r := a.setTheta (-s)\n      if r.2 then (r.1, .ret true)",
  "edit": "phi not turned at the north pole",
  "claim": "C67 add_to_theta"
 },
 {
  "file": "Kin/Rot.lean",
  "def": "Angles.addToTheta",
  "old": "if d < -π ∨ d > π",
  "new": "if d > π",
  "edit": "lower limit not checked",
  "claim": "C67"
 },
 {
  "file": "Kin/Rot.lean",
  "def": "Angles.addToTheta2",
  "old": ".ret (b ^^ reverse)",
  "new": ".ret (b && reverse)",
  "edit": "and instead of xor",
  "claim": "C67 (reverse)"
 }
]