import Verif.Emt.Model
import Verif.Pauli.Model

/-
Model of density.h/.cc: smearing factors, currents and their derivatives at a point. Doubles are
exact real numbers. `density_factor` of a particle is a field of the particle here.
-/
namespace Verif.Dens
open Verif.Kin Verif.Emt
open Verif.Pauli (erf)

/-- `smearing_factor_norm`, density.h:60-63. -/
noncomputable def smearingNorm (twoSigmaSqr : ℝ) : ℝ :=
  twoSigmaSqr * Real.pi * Real.sqrt (twoSigmaSqr * Real.pi)

/-- `smearing_factor_rcut_correction`, density.h:83-86. -/
noncomputable def rcutCorrection (a : ℝ) : ℝ :=
  let x := a / Real.sqrt 2
  (-2) / Real.sqrt Real.pi * x * Real.exp (-x * x) + erf x

/-- `DensityParameters`, density.h:92-180 (the fields used here). -/
structure Params where
  (sigma cutoff : ℝ)
  (ntest nens : ℕ)
  onlyParticipants : Bool

/-- `r_cut_`, `r_cut_sqr_`, `two_sig_sqr_inv_`, `norm_factor_sf_`, density.h:107-123. -/
noncomputable def Params.rCut (P : Params) : ℝ := P.cutoff * P.sigma
@[inherit_doc Params.rCut] noncomputable def Params.rCutSqr (P : Params) : ℝ := P.rCut * P.rCut
@[inherit_doc Params.rCut] noncomputable def Params.twoSigSqrInv (P : Params) : ℝ :=
  1 / (2 * P.sigma * P.sigma)
@[inherit_doc Params.rCut] noncomputable def Params.normFactor (P : Params) : ℝ :=
  1 / (smearingNorm (2 * P.sigma * P.sigma) * P.ntest * P.nens * rcutCorrection P.cutoff)

/-- `unnormalized_smearing_factor` with gradient, density.cc:38-63. -/
noncomputable def smearing (P : Params) (r : V3) (p : V4) (mInv : ℝ) : ℝ × V3 :=
  if r.sqr > P.rCutSqr then (0, ⟨0, 0, 0⟩)
  else
    let u := smul4 p mInv
    let ur := r.dot u.vec
    let rest := r.sqr + ur * ur
    if rest > P.rCutSqr then (0, ⟨0, 0, 0⟩)
    else
      let sf := Real.exp (-rest * P.twoSigSqrInv) * u.t
      (sf, (((r.add (u.vec.smul ur)).smul sf).smul P.twoSigSqrInv).smul 2)

/-- What the density needs of a particle: momentum, position, its `density_factor`
(density.cc:17-36) and `collisions_per_particle`. -/
structure Part where
  mom : V4
  pos : V3
  factor : ℝ
  collisions : ℕ

/-- The particles that contribute: the `continue` statements of density.cc:87-104. -/
noncomputable def counted (P : Params) (p : Part) : Bool :=
  !(P.onlyParticipants && p.collisions == 0) && !decide (|p.factor| < 1 / 1000000) &&
    !decide (p.mom.abs < 1 / 1000000)

/-- The sum of four-vectors (`operator+=`). -/
def sumV4 (l : List V4) : V4 :=
  ⟨(l.map V4.t).sum, (l.map V4.x).sum, (l.map V4.y).sum, (l.map V4.z).sum⟩

/-- `tmp` in density.cc:107: the particle's (1, v) times its factor. -/
noncomputable def flow (p : Part) : V4 := smul4 p.mom (p.factor / p.mom.t)

/-- `sf_and_grad` in density.cc:105-106. -/
noncomputable def sfGrad (P : Params) (r : V3) (p : Part) : ℝ × V3 :=
  smearing P (p.pos.sub r) p.mom (1 / p.mom.abs)

/-- The result of `current_eckart`. -/
structure Current where
  rho : ℝ
  jmu : V4
  gradJ0 : V3
  curl : V3
  (dt dx dy dz : V4)

/-- One particle's contribution to `djmu_dxnu[0]`, density.cc:123-126. -/
noncomputable def timeTerm (P : Params) (r : V3) (p : Part) : V4 :=
  let g := (sfGrad P r p).2
  let f := flow p
  sumV4 [smul4 (smul4 (smul4 f g.x) f.x) (-1 / p.factor),
    smul4 (smul4 (smul4 f g.y) f.y) (-1 / p.factor), smul4 (smul4 (smul4 f g.z) f.z) (-1 / p.factor)]

/-- `current_eckart_impl`, density.cc:65-165, with `compute_gradient`. -/
noncomputable def current (P : Params) (smear : Bool) (r : V3) (plist : List Part) : Current :=
  let l := plist.filter (counted P)
  let term (p : Part) : V4 := if smear then smul4 (flow p) (sfGrad P r p).1 else flow p
  let jpos := sumV4 ((l.filter fun p => decide (p.factor > 0)).map term)
  let jneg := sumV4 ((l.filter fun p => !decide (p.factor > 0)).map term)
  let d0 := sumV4 (l.map (timeTerm P r))
  let d1 := sumV4 (l.map fun p => smul4 (flow p) (sfGrad P r p).2.x)
  let d2 := sumV4 (l.map fun p => smul4 (flow p) (sfGrad P r p).2.y)
  let d3 := sumV4 (l.map fun p => smul4 (flow p) (sfGrad P r p).2.z)
  let n := P.normFactor
  { rho := (jpos.abs - jneg.abs) * n
    jmu := if smear then (smul4 jpos n).add (smul4 jneg n) else jpos.add jneg
    gradJ0 := ⟨d1.t * n, d2.t * n, d3.t * n⟩
    curl := (⟨d2.z - d3.y, d3.x - d1.z, d1.y - d2.x⟩ : V3).smul n
    dt := smul4 d0 n
    dx := smul4 d1 n
    dy := smul4 d2 n
    dz := smul4 d3 n }

/-- The derivatives of the rest frame density in `update_lattice`, density.cc:238-278, in one
direction, for a node with currents `pos`, `neg` and derivative `dj` of the net current;
`very_small_double = 1e-15` (constants.h:49). -/
noncomputable def rhoDerivative (pos neg dj : V4) : ℝ :=
  let rho := pos.abs - neg.abs
  let sgn : ℝ := if rho > 0 then 1 else -1
  let rho := if |rho| < 1 / 1000000000000000 then sgn * (1 / 1000000000000000) else rho
  let jmu := pos.add neg
  1 / rho * (jmu.t * dj.t - jmu.x * dj.x - jmu.y * dj.y - jmu.z * dj.z)

end Verif.Dens
