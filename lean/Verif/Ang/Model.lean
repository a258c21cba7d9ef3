import Verif.Act.Model
import Verif.Rand.Model
import Verif.Kin.Rot
/-
Model of the scattering angles of 2 → 2 collisions, `ScatterAction::sample_angles`, scatteraction.cc:430-607, over the reals.
-/
namespace Verif.Ang
open Verif Kin Real

/-- `nucleon_mass`, constants.h. -/
noncomputable def mN : ℝ := 938 / 1000

/-- `really_small`, constants.h. -/
noncomputable def small : ℝ := 1 / 1000000

/-- `high_energy_bpp`, scatteraction.cc:438-441. -/
noncomputable def highBpp (plab : ℝ) : ℝ := 76 / 10 + 66 / 100 * log (sFromPlab plab mN mN)

/-- `pow_int`, pow.h:22-28. -/
noncomputable def powInt (base : ℝ) (n : ℕ) : ℝ :=
  if n = 0 then 1 else if n % 2 = 0 then powInt base (n / 2) * powInt base (n / 2) else base * powInt base (n - 1)
termination_by n

open Classical in
/-- `Cugnon_bpp`, scatteraction.cc:455-462. -/
noncomputable def bpp (plab : ℝ) : ℝ :=
  if plab < 2 then 55 / 10 * powInt plab 8 / (77 / 10 + powInt plab 8)
  else min (highBpp plab) (5334 / 1000 + 67 / 100 * (plab - 2))

open Classical in
/-- `Cugnon_bnp`, scatteraction.cc:474-484. -/
noncomputable def bnp (plab : ℝ) : ℝ :=
  if plab < 225 / 1000 then 0
  else if plab < 6 / 10 then 1653 / 100 * (plab - 225 / 1000)
  else if plab < 16 / 10 then -(163 / 100) * plab + 716 / 100
  else bpp plab

/-- What the choice of the distribution depends on. -/
structure Flags where
  elastic : Bool     -- the process is elastic
  isotropic : Bool   -- the user asked for isotropic scattering
  nn : Bool          -- both incoming particles are nucleons or antinucleons
  sameSign : Bool    -- the outgoing particles are both particles or both antiparticles
  charge : Int       -- sum of the charges of the outgoing particles
  aDelta : Bool      -- the first outgoing particle is a Δ
  aExcited : Bool    -- the first outgoing particle is an N* or Δ*
  bNucleon : Bool    -- the second outgoing particle is a nucleon

/-- The effective Mandelstam s of an elastic collision, scatteraction.cc:520-535. -/
noncomputable def effectiveS (nn : Bool) (s m1 m2 : ℝ) : ℝ :=
  if nn then s
  else
    let p := pCMS s m1 m2
    4 * √(p * p + mN * mN)

open Classical in
/-- Slope and weight of backward scattering of an elastic collision, scatteraction.cc:536-550. -/
noncomputable def slope (f : Flags) (plab : ℝ) : ℝ × ℝ :=
  if f.nn && f.sameSign && f.charge.natAbs == 1 then
    (max (bnp plab) small, if plab < 8 / 10 then 1 else 64 / 100 / (plab * plab))
  else (max (bpp plab) small, 1)

open Classical in
/-- Mirroring of the momentum transfer, scatteraction.cc:552-554, 568-570 and 585-587; `u`: uniform random number. -/
noncomputable def mirror (thr : ℝ) (tr : ℝ × ℝ) (u t : ℝ) : ℝ := if u > thr then tr.1 + tr.2 - t else t

/-- The cosine of the angle, scatteraction.cc:557, 572 and 589. -/
noncomputable def toCos (tr : ℝ × ℝ) (t : ℝ) : ℝ := 1 - 2 * (t - tr.1) / (tr.2 - tr.1)

open Classical in
/-- The momentum transfer that is drawn, scatteraction.cc:513-589; `none`: an isotropic distribution is used; the inner `none`: no number is returned.
`us`: random numbers for `expo`, `v`: for `power`, `u`: for the mirroring. -/
noncomputable def drawT (f : Flags) (s E m1 m2 m3 m4 : ℝ) (us : List ℝ) (v u : ℝ) : Option (Option ℝ) :=
  let tr := tRange E m1 m2 m3 m4
  if f.elastic && !f.isotropic then
    let plab := plabFromS (effectiveS f.nn s m1 m2) mN
    let b := slope f plab
    some ((Rand.expo b.1 tr.1 tr.2 us).map (mirror (1 / (1 + b.2)) tr u))
  else if f.nn && f.aDelta && f.bNucleon && f.sameSign && !f.isotropic then
    let plab := plabFromS s mN
    some ((Rand.expo (max (bpp plab) small) tr.1 tr.2 us).map (mirror (1 / 2) tr u))
  else if f.nn && f.bNucleon && !f.isotropic && f.aExcited then
    let a := 146434 / 100000 + m3 * (580311 / 100000 + m3 * (-(689358 / 100000) + m3 * (194302 / 100000)))
    some ((if a < 30 then Rand.power (-a) tr.1 tr.2 v else some tr.1).map (mirror (1 / 2) tr u))
  else none

/-- The cosine of the scattering angle; `w`: random number of the isotropic distribution, angles.h (`distribute_isotropically`), between -1 and 1. -/
noncomputable def drawCos (f : Flags) (s E m1 m2 m3 m4 : ℝ) (us : List ℝ) (v u w : ℝ) : Option ℝ :=
  match drawT f s E m1 m2 m3 m4 us v u with
  | some t => t.map (toCos (tRange E m1 m2 m3 m4))
  | none => some w

/-- The outgoing momenta in the centre-of-mass frame, scatteraction.cc:595-613: `q` is the momentum of the first incoming particle in this frame. -/
noncomputable def outgoing (q : V3) (E m3 m4 phi c : ℝ) : V4 × V4 :=
  Act.sampleAngles m3 m4 E ((Angles.mk phi c).threevec.rotZTo q)

end Verif.Ang
