[
 {
  "file": "Deform/Model.lean",
  "def": "y20",
  "old": "1 / 4 * √(5 / π) * (3 * (cosx * cosx) - 1)",
  "new": "1 / 4 * √(5 / π) * (3 * cosx - 1)",
  "edit": "cosine not squared",
  "claim": "C163"
 },
 {
  "file": "Deform/Model.lean",
  "def": "y20",
  "old": "1 / 4 * √(5 / π) *",
  "new": "1 / 2 * √(5 / π) *",
  "edit": "wrong normalisation",
  "claim": "C163"
 },
 {
  "file": "Deform/Model.lean",
  "def": "y22",
  "old": "let sinx2 := 1 - cosx * cosx",
  "new": "let sinx2 := cosx * cosx",
  "edit": "cosine for sine",
  "claim": "C163"
 },
 {
  "file": "Deform/Model.lean",
  "def": "y22",
  "old": "cos (2 * phi)",
  "new": "cos phi",
  "edit": "azimuth not doubled",
  "claim": "C163"
 },
 {
  "file": "Deform/Model.lean",
  "def": "y30",
  "old": "(5 * cosx * (cosx * cosx) - 3 * cosx)",
  "new": "(5 * cosx * (cosx * cosx) - 3)",
  "edit": "factor dropped",
  "claim": "C163"
 },
 {
  "file": "Deform/Model.lean",
  "def": "y40",
  "old": "30 * (cosx * cosx) + 3)",
  "new": "30 * (cosx * cosx) - 3)",
  "edit": "sign of the constant",
  "claim": "C163"
 },
 {
  "file": "Deform/Model.lean",
  "def": "y40",
  "old": "3 / 16 * √(1 / π)",
  "new": "1 / 16 * √(1 / π)",
  "edit": "wrong normalisation",
  "claim": "C163"
 },
 {
  "file": "Deform/Model.lean",
  "def": "Nucleus.surface",
  "old": "√2 * sin n.gamma * y22",
  "new": "sin n.gamma * y22",
  "edit": "√2 dropped",
  "claim": "C163"
 },
 {
  "file": "Deform/Model.lean",
  "def": "Nucleus.surface",
  "old": "cos n.gamma * y20",
  "new": "sin n.gamma * y20",
  "edit": "sine for cosine",
  "claim": "C163"
 },
 {
  "file": "Deform/Model.lean",
  "def": "Nucleus.surface",
  "old": "n.beta3 * y30 cosx + n.beta4 * y40 cosx",
  "new": "n.beta3 * y40 cosx + n.beta4 * y30 cosx",
  "edit": "harmonics swapped",
  "claim": "C163"
 },
 {
  "file": "Deform/Model.lean",
  "def": "Nucleus.surface",
  "old": "n.beta3 * y30 cosx + n.beta4",
  "new": "n.beta4",
  "edit": "octupole dropped",
  "claim": "C163"
 },
 {
  "file": "Deform/Model.lean",
  "def": "Nucleus.density",
  "old": "n.sat / (1 + exp ((r - n.surface",
  "new": "n.sat / (1 + exp ((n.surface cosx phi - n.surface",
  "edit": "radius not used",
  "claim": "C163"
 },
 {
  "file": "Deform/Model.lean",
  "def": "Nucleus.density",
  "old": "n.sat / (1 + exp ((r - n.surface cosx phi)",
  "new": "n.sat / (1 + exp ((r - n.radius)",
  "edit": "deformation ignored",
  "claim": "C163"
 },
 {
  "file": "Deform/Model.lean",
  "def": "Nucleus.shape",
  "old": "  1 / (1 + exp ((r - n.surface cosx phi) / n.diff))",
  "new": "  1 / (1 + exp ((r - n.radius) / n.diff))",
  "edit": "saturation density of the sphere",
  "claim": "C163"
 },
 {
  "file": "Deform/Model.lean",
  "def": "Nucleus.saturation",
  "old": "2 * π * ((1 - t) / t) ^ 2 * n.shape ((1 - t) / t) cosx 0 / t ^ 2",
  "new": "2 * π * ((1 - t) / t) ^ 2 * n.shape ((1 - t) / t) cosx 0",
  "edit": "Jacobian dropped",
  "claim": "C163"
 },
 {
  "file": "Deform/Model.lean",
  "def": "Nucleus.saturation",
  "old": "2 * π * ((1 - t) / t) ^ 2 * n.shape",
  "new": "π * ((1 - t) / t) ^ 2 * n.shape",
  "edit": "azimuthal integral over π",
  "claim": "C163"
 },
 {
  "file": "Deform/Model.lean",
  "def": "Nucleus.saturation",
  "old": "      ((1 - t) / t) ^ 2 * n.phiIntegral",
  "new": "      2 * π * ((1 - t) / t) ^ 2 * n.phiIntegral",
  "edit": "2π counted twice for gamma",
  "claim": "C163"
 },
 {
  "file": "Deform/Model.lean",
  "def": "Nucleus.phiIntegral",
  "old": "∫ phi in (0 : ℝ)..2 * π,",
  "new": "∫ phi in (0 : ℝ)..π,",
  "edit": "half of the azimuth",
  "claim": "C163"
 },
 {
  "file": "Deform/Model.lean",
  "def": "Nucleus.roundSaturation",
  "old": "2 * π * ((1 - t) / t) ^ 2 * n.roundShape",
  "new": "4 * π * ((1 - t) / t) ^ 2 * n.roundShape",
  "edit": "factor 4π and integral over the cosine",
  "claim": "C163"
 },
 {
  "file": "Deform/Model.lean",
  "def": "woodsSaxon",
  "old": "if A = 238 ∧ Z = 92 then (686 / 100, 556 / 1000)",
  "new": "if A = 238 ∧ Z = 92 then (556 / 1000, 686 / 100)",
  "edit": "radius and diffusiveness swapped",
  "claim": "C163"
 },
 {
  "file": "Deform/Model.lean",
  "def": "base",
  "old": "| some d, some r, some rho => .ok ⟨s.A, r, d, rho,",
  "new": "| some d, some r, some rho => .ok ⟨s.A, d, r, rho,",
  "edit": "swapped parameters",
  "claim": "C163"
 },
 {
  "file": "Deform/Model.lean",
  "def": "base",
  "old": "| _, _, _ => .error .woodsSaxon",
  "new": "| _, _, _ => .ok ⟨s.A, 1, 1, 1, 0, 0, 0, 0⟩",
  "edit": "incomplete parameters accepted",
  "claim": "C163"
 },
 {
  "file": "Deform/Model.lean",
  "def": "base",
  "old": ".ok { n with sat := n.roundSaturation }",
  "new": ".ok n",
  "edit": "saturation density not calculated",
  "claim": "C163"
 },
 {
  "file": "Deform/Model.lean",
  "def": "deformation",
  "old": "some (28 / 100, 93 / 1000)",
  "new": "some (93 / 1000, 28 / 100)",
  "edit": "β2 and β4 of uranium swapped",
  "claim": "C163"
 },
 {
  "file": "Deform/Model.lean",
  "def": "deformation",
  "old": "some (-(131 / 1000), -(31 / 1000))",
  "new": "some (131 / 1000, -(31 / 1000))",
  "edit": "prolate gold",
  "claim": "C163"
 },
 {
  "file": "Deform/Model.lean",
  "def": "deformation",
  "old": "if Z = 44 then some (158 / 1000, 0) else none",
  "new": "if Z = 44 then some (158 / 1000, 0) else some (0, 0)",
  "edit": "unknown nucleus accepted",
  "claim": "C163"
 },
 {
  "file": "Deform/Model.lean",
  "def": "construct",
  "old": ".ok { n with sat := n.saturation }",
  "new": ".ok n",
  "edit": "saturation density not updated",
  "claim": "C163"
 },
 {
  "file": "Deform/Model.lean",
  "def": "construct",
  "old": "let n := { n with beta2 := b2, beta4 := b4 }",
  "new": "let n := { n with beta2 := b2, beta3 := b4 }",
  "edit": "β4 stored as β3",
  "claim": "C163"
 },
 {
  "file": "Deform/Model.lean",
  "def": "construct",
  "old": "gamma := s.gamma.getD n.gamma",
  "new": "gamma := n.gamma",
  "edit": "Gamma ignored",
  "claim": "C163"
 },
 {
  "file": "Deform/Model.lean",
  "def": "construct",
  "old": "beta3 := s.beta3.getD n.beta3",
  "new": "beta3 := s.beta2.getD n.beta3",
  "edit": "β2 used as β3",
  "claim": "C163"
 },
 {
  "file": "Deform/Model.lean",
  "def": "create",
  "old": "if s.automatic && (beta || s.gamma.isSome) then .error .automatic",
  "new": "if s.automatic && beta then .error .automatic",
  "edit": "Gamma accepted with automatic deformation",
  "claim": "C163"
 },
 {
  "file": "Deform/Model.lean",
  "def": "create",
  "old": "s.beta2.isSome || s.beta3.isSome || s.beta4.isSome",
  "new": "s.beta2.isSome || s.beta4.isSome",
  "edit": "β3 alone refused",
  "claim": "C163"
 },
 {
  "file": "Deform/Model.lean",
  "def": "create",
  "old": "(s.gamma.isSome && !s.beta2.isSome)",
  "new": "(s.gamma.isSome && s.beta2.isSome)",
  "edit": "Gamma refused with β2",
  "claim": "C163"
 },
 {
  "file": "Deform/Model.lean",
  "def": "Nucleus.range",
  "old": "n.radius / n.diff + n.radius * n.diff",
  "new": "n.radius",
  "edit": "nothing beyond the radius",
  "claim": "C163"
 },
 {
  "file": "Deform/Model.lean",
  "def": "Nucleus.trial",
  "old": "u ^ ((1 : ℝ) / 3)",
  "new": "u",
  "edit": "radius uniform",
  "claim": "C163"
 },
 {
  "file": "Deform/Model.lean",
  "def": "Nucleus.trial",
  "old": "if w > n.density r cosx phi / n.sat then none",
  "new": "if w < n.density r cosx phi / n.sat then none",
  "edit": "acceptance inverted",
  "claim": "C163"
 },
 {
  "file": "Deform/Model.lean",
  "def": "Nucleus.trial",
  "old": "if w > n.density r cosx phi / n.sat then none",
  "new": "if w > n.density r cosx phi then none",
  "edit": "density not divided by its maximum",
  "claim": "C163"
 },
 {
  "file": "Deform/Model.lean",
  "def": "Nucleus.draw",
  "old": "    | none => n.draw l",
  "new": "    | none => none",
  "edit": "only one trial",
  "claim": "C163"
 },
 {
  "file": "Deform/Model.lean",
  "def": "vector",
  "old": "x.1 * (√(1 - x.2.1 ^ 2) * sin x.2.2)",
  "new": "x.1 * (√(1 - x.2.1 ^ 2) * cos x.2.2)",
  "edit": "y like x",
  "claim": "C163"
 },
 {
  "file": "Deform/Model.lean",
  "def": "Nucleus.fermiDensity",
  "old": "n.density pos.abs (cos pos.theta) pos.phi",
  "new": "n.density pos.abs pos.theta pos.phi",
  "edit": "angle for its cosine",
  "claim": "C163"
 },
 {
  "file": "Deform/Model.lean",
  "def": "orient",
  "old": "(o.theta.isSome || o.phi.isSome || o.psi.isSome)",
  "new": "(o.theta.isSome || o.phi.isSome)",
  "edit": "Psi accepted with random rotation",
  "claim": "C163"
 },
 {
  "file": "Deform/Model.lean",
  "def": "orient",
  "old": ".ok (o.random, o.theta.getD 0, o.phi.getD 0, o.psi.getD 0)",
  "new": ".ok (o.random, o.phi.getD 0, o.theta.getD 0, o.psi.getD 0)",
  "edit": "angles swapped",
  "claim": "C163"
 },
 {
  "file": "Deform/Model.lean",
  "def": "eulerAngles",
  "old": "arccos (2 * v - 1)",
  "new": "π * v",
  "edit": "theta uniform",
  "claim": "C163"
 },
 {
  "file": "Deform/Model.lean",
  "def": "eulerAngles",
  "old": "(2 * π * u, arccos",
  "new": "(π * u, arccos",
  "edit": "half of the azimuth",
  "claim": "C163"
 },
 {
  "file": "Deform/Model.lean",
  "def": "angles",
  "old": "else (o.2.2.1, o.2.1, o.2.2.2)",
  "new": "else (o.2.1, o.2.2.1, o.2.2.2)",
  "edit": "theta and phi swapped",
  "claim": "C163"
 },
 {
  "file": "Deform/Model.lean",
  "def": "angles",
  "old": "if o.1 then eulerAngles",
  "new": "if !o.1 then eulerAngles",
  "edit": "random rotation inverted",
  "claim": "C163"
 }
]