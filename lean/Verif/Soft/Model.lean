import Verif.Frag.Mom
/-
Model of a collision that excites strings: the two strings of soft processes in stringprocess.cc and the attempts in
scatteraction.cc.  Momenta over the reals; the fragmentation of a string is given from outside.
-/
namespace Verif.Soft
open Verif.Kin Verif.Frag Real

/-- Division of a four-vector by a number, fourvector.h (`operator/`): multiplication by the inverse. -/
noncomputable def div4 (a : V4) (b : ℝ) : V4 := ⟨a.t * (1 / b), a.x * (1 / b), a.y * (1 / b), a.z * (1 / b)⟩

/-- Mass and direction of one string, `set_mass_and_direction_2strings`, stringprocess.cc:330-357.  `thr`: sum of the masses of the ends,
`ps`: momentum of the string, `pin`: momentum of the incoming hadron.  No direction: the mass is too small. -/
noncomputable def massDir (thr : ℝ) (ps pin : V4) : ℝ × Option V3 :=
  let m := if ps.sqr > 0 then √ps.sqr else 0
  (m, if m > thr then
      let prs := boost (V4.mk' pin.vec.abs pin.vec) ps.velocity
      some (prs.vec.div prs.vec.abs)
    else none)

/-- The fragments of one string in the centre-of-mass frame, `append_final_state`, stringprocess.cc:176-184: momenta only (formation times:
`Frag.appendFragment`, C89). -/
noncomputable def toCom (ps : V4) (m : ℝ) (l : List V4) : List V4 := l.map fun p => boost p (div4 ps m).velocity.neg

/-- `set_mass_and_direction_2strings` and `make_final_state_2strings`, stringprocess.cc:325-393: success, and the momenta in `final_state_`
afterwards.  `frag i m e`: the fragments of string `i` of mass `m` and direction `e` in its rest frame (`fragment_string`), none if it fails.
The direction changed by `fragment_string` is used for the scaling of cross sections only, which is not in this model. -/
noncomputable def twoStrings (frag : Nat → ℝ → V3 → List V4) (thr : ℝ × ℝ) (pin ps : V4 × V4) : Bool × List V4 :=
  match massDir thr.1 ps.1 pin.1, massDir thr.2 ps.2 pin.2 with
  | (m0, some e0), (m1, some e1) =>
    match frag 0 m0 e0 with
    | [] => (false, [])
    | f :: fs =>
      match frag 1 m1 e1 with
      | [] => (false, toCom ps.1 m0 (f :: fs))
      | g :: gs => (true, toCom ps.1 m0 (f :: fs) ++ toCom ps.2 m1 (g :: gs))
  | _, _ => (false, [])

/-- `next_SDiff`, stringprocess.cc:238-324: success and momenta in `final_state_`.  `minX`: sum of the masses of the ends, `massX`: mass drawn for
the string (between `minX` and `sqrts - massH`), `pin`: momentum of the hadron that is excited; the hadron that is not excited comes last. -/
noncomputable def singleString (frag : Nat → ℝ → V3 → List V4) (b : V3 × V3 × V3) (sqrts massH minX massX qx qy sign : ℝ) (pin : V4) :
    Bool × List V4 :=
  if minX > sqrts - massH then (false, [])
  else
    match singleDiffractive b sqrts massH massX qx qy sign with
    | none => (false, [])
    | some (h, x) =>
      let prs := boost (V4.mk' pin.vec.abs pin.vec) (div4 x massX).velocity
      match frag 0 massX (prs.vec.div prs.vec.abs) with
      | [] => (false, [])
      | f :: fs => (true, toCom x massX (f :: fs) ++ [h])

/-- The process types concerned, processbranch.h. -/
inductive Proc | singleAX | singleXB | double | nonDiffractive | annihilation | hard | failed
deriving DecidableEq

/-- The loops `while (!success && ntry < ntry_max)`, scatteraction.cc:698-731 and 752-760: success, number of attempts, and `final_state_`.
`f n`: success and `final_state_` of attempt `n`, counted from the beginning of the collision; first argument: attempts left. -/
def tries {α : Type} (f : Nat → Bool × List α) : Nat → Nat → Nat → List α → Bool × Nat × List α
  | 0, _, k, fin => (false, k, fin)
  | left + 1, n, k, _ =>
    let r := f n
    if r.1 then (true, k + 1, r.2) else tries f left (n + 1) (k + 1) r.2

/-- `ntry_max`, scatteraction.cc:700. -/
def ntryMax : Nat := 10000

/-- `ScatterAction::string_excitation`, scatteraction.cc:690-782: process type and outgoing particles.  `next p n`: attempt `n` with process
`p`; `ba`, `bb`: baryon numbers of the incoming particles; `elastic`: the incoming particles after `elastic_scattering`. -/
def stringExcitation {α : Type} (next : Proc → Nat → Bool × List α) (proc : Proc) (ba bb : Int) (elastic : List α) : Proc × List α :=
  let r := tries (next proc) ntryMax 0 0 []
  if r.2.1 = ntryMax then
    let proc' := if ba ≠ 0 ∧ ba = -bb then Proc.annihilation else Proc.double
    let r' := tries (next proc') ntryMax ntryMax 0 r.2.2
    if r'.1 then (proc', r'.2.2) else (Proc.failed, elastic)
  else (proc, r.2.2)

end Verif.Soft
