/-! # Model of the lattices of an experiment during a run (experiment.h)

Which lattices exist, when they are filled and what the outputs print. The contents of a lattice are
represented by the particles they were computed from (all ensembles), for any type `P` of particles; how they
are computed is the subject of `Dens`, `Emt` and `Em`. -/
namespace Verif.LatRun

/-- `DensityType` of the printed densities, as far as the code distinguishes them. -/
inductive Dens where
  | none | baryon | isospin | other
  deriving DecidableEq, Repr

/-- What the lattices depend on. -/
structure Options where
  /-- the input file has a section `Lattice` -/
  onLattice : Bool
  /-- the input file has a section `Potentials` -/
  potentials : Bool
  skyrme : Bool
  symmetry : Bool
  coulomb : Bool
  vdf : Bool
  /-- `printout_lattice_td_`: thermodynamics as VTK -/
  vtk : Bool
  /-- `printout_full_lattice_any_td_`: thermodynamics as `Lattice_ASCII` or `Lattice_Binary` -/
  full : Bool
  dens : Dens
  rho : Bool
  tmn : Bool
  tmnLandau : Bool
  vLandau : Bool
  jQBS : Bool

/-- A lattice: `when_update_` (`true` for `AtOutput`, `false` for `EveryTimestep`), the particles its values
were computed from, and for `EveryTimestep` the particles of the values before (`old_jmu`), from which the time
derivatives are taken. `none` stands for zeros. -/
structure Lat (P : Type) where
  atOutput : Bool
  content : Option P
  base : Option P

/-- The members of the experiment; `none` is a null pointer. `UB_lat_` has no values of its own here. -/
structure State (P : Type) where
  now : P
  jB : Option (Lat P)
  jI3 : Option (Lat P)
  custom : Option (Lat P)
  tmn : Option (Lat P)
  em : Option (Lat P)
  ub : Bool
  jQBS : Bool

/-- Dereferencing a null pointer. -/
inductive Err where
  | null
  deriving DecidableEq, Repr

/-- What is printed. -/
inductive Quantity where
  | energy | density | tmn | tmnLandau | vLandau | fields | currents
  deriving DecidableEq, Repr

/-- The flags are set only with a section `Lattice` — src/include/smash/experiment.h:1850-1857. -/
def Options.print (o : Options) : Bool := o.onLattice && (o.vtk || o.full)

/-- `dens_type_lattice_printout_`, `None` unless set. -/
def Options.printed (o : Options) : Dens := if o.print then o.dens else .none

/-- An empty lattice. -/
def fresh {P : Type} (atOutput : Bool) : Option (Lat P) := some ⟨atOutput, none, none⟩

/-- The lattices made by the constructor — src/include/smash/experiment.h:1850-1944. -/
def create {P : Type} (o : Options) (p : P) : State P :=
  let pot := o.onLattice && o.potentials
  { now := p
    jB := if pot && (o.skyrme || o.vdf) then fresh false else if o.printed = .baryon then fresh true else none
    jI3 := if pot && o.symmetry then fresh false else if o.printed = .isospin then fresh true else none
    custom := if o.printed = .other then fresh true else none
    tmn := if o.print && (o.tmn || o.tmnLandau || o.vLandau) then fresh true else none
    em := if pot && o.coulomb then fresh false else none
    ub := pot && (o.skyrme || o.vdf)
    jQBS := o.print && o.jQBS }

/-- `update_lattice` and `update_lattice_accumulating_ensembles` — src/density.cc:186-230,
src/include/smash/density.h:644-658: nothing is done for a null pointer or a lattice to be updated at other
times. Simplification: `base` is recorded for both functions; only the first uses it. -/
def update {P : Type} (atOutput : Bool) (p : P) (l : Option (Lat P)) : Option (Lat P) :=
  l.map fun x => if x.atOutput = atOutput then ⟨x.atOutput, some p, x.content⟩ else x

/-- The references in the calls of `at_eventstart` — src/include/smash/experiment.h:2198-2235. -/
def startOutputs {P : Type} (o : Options) (s : State P) : Except Err Unit :=
  if o.full then
    if (o.print && o.rho && ((o.printed == .baryon && s.jB.isNone) || (o.printed == .isospin && s.jI3.isNone) ||
      (o.printed == .other && s.custom.isNone))) ||
      (o.print && (o.tmn || o.tmnLandau || o.vLandau) && s.tmn.isNone) || (o.print && o.jQBS && !s.jQBS)
    then .error .null
    else .ok ()
  else .ok ()

/-- `initialize_new_event` — src/include/smash/experiment.h:2140-2237, with new particles. -/
def eventStart {P : Type} (o : Options) (s : State P) (p : P) : Except Err (State P) :=
  let s : State P := { s with now := p, jB := if o.potentials then update false p s.jB else s.jB }
  match startOutputs o s with
  | .error e => .error e
  | .ok _ => .ok s

/-- What is printed from a lattice that is dereferenced. -/
def printLat {P : Type} (qs : List Quantity) (l : Option (Lat P)) : Except Err (List (Quantity × Option P)) :=
  match l with
  | none => .error .null
  | some l => .ok (qs.map fun q => (q, l.content))

/-- The Eckart density of `intermediate_output` — src/include/smash/experiment.h:2843-2877. -/
def outputDensity {P : Type} (o : Options) (s : State P) : Except Err (State P × List (Quantity × Option P)) :=
  if o.print && o.rho then
    match o.printed with
    | .baryon =>
      let s := { s with jB := update true s.now s.jB }
      (printLat [.density] s.jB).map fun l => (s, l)
    | .isospin =>
      let s := { s with jI3 := update true s.now s.jI3 }
      (printLat [.density] s.jI3).map fun l => (s, l)
    | .none => .ok (s, [])
    | .other =>
      let s := { s with custom := update true s.now s.custom }
      (printLat [.density] s.custom).map fun l => (s, l)
  else .ok (s, [])

/-- The energy-momentum tensor — src/include/smash/experiment.h:2878-2902. -/
def outputTmn {P : Type} (o : Options) (s : State P) : Except Err (State P × List (Quantity × Option P)) :=
  if o.print && (o.tmn || o.tmnLandau || o.vLandau) then
    let s := { s with tmn := update true s.now s.tmn }
    (printLat ((if o.tmn then [.tmn] else []) ++ (if o.tmnLandau then [.tmnLandau] else []) ++
      (if o.vLandau then [.vLandau] else [])) s.tmn).map fun l => (s, l)
  else .ok (s, [])

/-- The fields and the currents — src/include/smash/experiment.h:2903-2909; the currents are computed by the
output from the particles themselves. -/
def outputRest {P : Type} (o : Options) (s : State P) : Except Err (List (Quantity × Option P)) :=
  let fields := match s.em with
    | none => []
    | some l => [(Quantity.fields, l.content)]
  if o.print && o.jQBS then
    if s.jQBS then .ok (fields ++ [(.currents, some s.now)]) else .error .null
  else .ok fields

/-- The mean-field energy — src/include/smash/experiment.h:2780-2785. -/
def outputEnergy {P : Type} (o : Options) (s : State P) : List (Quantity × Option P) :=
  if o.potentials then
    match s.jB with
    | none => []
    | some l => [(.energy, l.content)]
  else []

/-- `intermediate_output` — src/include/smash/experiment.h:2766-2916, for one output that prints everything;
the mean-field energy is computed first. Not modelled: the condition on the
equilibration time of a box. -/
def output {P : Type} (o : Options) (s : State P) : Except Err (State P × List (Quantity × Option P)) :=
  let energy := outputEnergy o s
  match outputDensity o s with
  | .error e => .error e
  | .ok (s, l1) =>
    match outputTmn o s with
    | .error e => .error e
    | .ok (s, l2) =>
      match outputRest o s with
      | .error e => .error e
      | .ok l3 => .ok (s, energy ++ l1 ++ l2 ++ l3)

/-- `update_potentials` — src/include/smash/experiment.h:2918-3016, with the particles `p`. -/
def updatePotentials {P : Type} (o : Options) (s : State P) (p : P) : Except Err (State P) :=
  if o.potentials then
    let i3 := if o.symmetry then update false p s.jI3 else s.jI3
    let b := if o.skyrme || o.symmetry then update false p s.jB else s.jB
    if (o.skyrme || o.symmetry) && b.isSome && !s.ub then .error .null
    else if o.coulomb && s.em.isNone then .error .null
    else .ok { s with jI3 := i3, jB := if o.vdf then update false p b else b,
                      em := if o.coulomb then update false p s.em else s.em }
  else .ok s

/-- What happens during a run: a new event, propagation and interactions, an output, the end of a step with the
particles `p` before and `p'` after the change of momenta and the expansion (experiment.h:2625-2643). -/
inductive Op (P : Type) where
  | start (p : P) | move (p : P) | output | step (p p' : P)

/-- One operation, with what is printed. -/
def step {P : Type} (o : Options) (s : State P) : Op P → Except Err (State P × List (Quantity × Option P))
  | .start p => (eventStart o s p).map fun s => (s, [])
  | .move p => .ok ({ s with now := p }, [])
  | .output => output o s
  | .step p p' => (updatePotentials o s p).map fun s => ({ s with now := p' }, [])

/-- A run. -/
def run {P : Type} (o : Options) (s : State P) : List (Op P) → Except Err (State P)
  | [] => .ok s
  | op :: ops =>
    match step o s op with
    | .error e => .error e
    | .ok (s, _) => run o s ops

end Verif.LatRun
