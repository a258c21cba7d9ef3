[
 {
  "file": "Route/Model.lean",
  "def": "spinKey",
  "old": "labels := [\"Collision_Term\", \"Spin_Interactions\"]",
  "new": "labels := [\"Modi\", \"Spin_Interactions\"]",
  "edit": "key in another section",
  "claim": "C155"
 },
 {
  "file": "Route/Model.lean",
  "def": "spinKey",
  "old": "default := some .off",
  "new": "default := some .on",
  "edit": "default on",
  "claim": "C155"
 },
 {
  "file": "Route/Model.lean",
  "def": "spinKey",
  "old": "| .scalar s => Spin.read s",
  "new": "| .scalar _ => some .off",
  "edit": "value ignored",
  "claim": "C155"
 },
 {
  "file": "Route/Model.lean",
  "def": "spinKey",
  "old": "valid := fun _ => true\n\n/-- The conversion",
  "new": "valid := fun s => decide (s = .off)\n\n/-- The conversion",
  "edit": "value on refused",
  "claim": "C155"
 },
 {
  "file": "Route/Model.lean",
  "def": "readBool",
  "old": "\"yes\", \"Yes\", \"YES\", \"true\", \"True\", \"TRUE\", \"on\", \"On\", \"ON\"] then some true",
  "new": "\"yes\", \"Yes\", \"YES\", \"true\", \"TRUE\", \"on\", \"On\", \"ON\"] then some true",
  "edit": "True not accepted",
  "claim": "C155"
 },
 {
  "file": "Route/Model.lean",
  "def": "readBool",
  "old": "\"off\", \"Off\", \"OFF\"] then some false",
  "new": "\"off\", \"Off\", \"OFF\"] then some true",
  "edit": "False read as true",
  "claim": "C155"
 },
 {
  "file": "Route/Model.lean",
  "def": "participantsKey",
  "old": "default := some false",
  "new": "default := some true",
  "edit": "default true",
  "claim": "C155"
 },
 {
  "file": "Route/Model.lean",
  "def": "participantsKey",
  "old": "\"Thermodynamics\", \"Only_Participants\"]\n",
  "new": "\"Thermodynamics\", \"Participants\"]\n",
  "edit": "other name of the key",
  "claim": "C155"
 },
 {
  "file": "Route/Model.lean",
  "def": "experimentSpin",
  "old": "(take (after st pre) spinKey).1",
  "new": "defaultOr spinKey",
  "edit": "value of the file ignored",
  "claim": "C155"
 },
 {
  "file": "Route/Model.lean",
  "def": "modusConfig",
  "old": "| .ok (m, _) => .ok m",
  "new": "| .ok (_, r) => .ok r",
  "edit": "the rest is given to the modus (the finding disappears)",
  "claim": "C155"
 },
 {
  "file": "Route/Model.lean",
  "def": "sphereSpin",
  "old": "(take (after m own) spinKey).1",
  "new": "(take (after st pre) spinKey).1",
  "edit": "option taken from the whole file (the finding disappears)",
  "claim": "C155"
 },
 {
  "file": "Route/Model.lean",
  "def": "nucleusSpin",
  "old": "| .ok n => (take n spinKey).1",
  "new": "| .ok _ => (take (after st pre) spinKey).1",
  "edit": "option taken from the whole file (the finding disappears)",
  "claim": "C155"
 },
 {
  "file": "Route/Model.lean",
  "def": "nucleusConfig",
  "old": ".ok (if side = .projectile then p else t)",
  "new": ".ok st",
  "edit": "whole file given to the nuclei (the finding disappears)",
  "claim": "C155"
 },
 {
  "file": "Route/Model.lean",
  "def": "boxSpins",
  "old": "(if jet then [decide (s ≠ .off)] else [])",
  "new": "(if jet then [false] else [])",
  "edit": "jet without spin vector",
  "claim": "C155"
 },
 {
  "file": "Route/Model.lean",
  "def": "boxSpins",
  "old": "List.replicate n (decide (s ≠ .off)) ++ (if jet",
  "new": "List.replicate n (decide (s = .off)) ++ (if jet",
  "edit": "condition inverted in the box",
  "claim": "C155"
 },
 {
  "file": "Route/Model.lean",
  "def": "sphereSpins",
  "old": "decide (s ≠ .off) :: (if back then [false] else [])",
  "new": "decide (s ≠ .off) :: (if back then [decide (s ≠ .off)] else [])",
  "edit": "antiparticle gets a spin vector (the finding disappears)",
  "claim": "C155"
 },
 {
  "file": "Route/Model.lean",
  "def": "sphereSpins",
  "old": "List.replicate n (decide (s ≠ .off)) ++\n",
  "new": "List.replicate n false ++\n",
  "edit": "medium of the sphere without spin",
  "claim": "C155"
 },
 {
  "file": "Route/Model.lean",
  "def": "nucleusSpins",
  "old": "List.replicate n (decide (s ≠ .off))\n\n/-! ### Only",
  "new": "List.replicate n true\n\n/-! ### Only",
  "edit": "nucleons always with spin vector",
  "claim": "C155"
 },
 {
  "file": "Route/Model.lean",
  "def": "densityParticipants",
  "old": "take (after st pre) participantsKey",
  "new": "(defaultOr participantsKey, after st pre)",
  "edit": "option ignored by the densities",
  "claim": "C155"
 },
 {
  "file": "Route/Model.lean",
  "def": "densityParticipants",
  "old": "take (after st pre) participantsKey",
  "new": "(read (after st pre) participantsKey, after st pre)",
  "edit": "option read instead of taken (the finding disappears)",
  "claim": "C155"
 },
 {
  "file": "Route/Model.lean",
  "def": "headerParticipants",
  "old": "| .ok false => .ok false\n",
  "new": "| .ok false => .ok true\n",
  "edit": "header without section",
  "claim": "C155"
 },
 {
  "file": "Route/Model.lean",
  "def": "participants",
  "old": "| .ok h => .ok (d, h)",
  "new": "| .ok _ => .ok (d, d)",
  "edit": "header uses the value of the densities (the finding disappears)",
  "claim": "C155"
 }
]