import Verif.Dens.Model
import Verif.Td.Model

/-
Model of `ThermodynamicOutput` (thermodynamicoutput.cc): the file `thermodynamics.dat` with the
thermodynamic quantities at one point or for the whole system.

Doubles are exact real numbers; the decimals cut off by `%15.12f` and `%6.2f` are not modelled. The
density factors of a particle for the different density types are fields of the particle. The
eigenvalue solver that is used for the Landau frame is an argument. Writing to the file succeeds.
-/
namespace Verif.Tdo
open Verif.Kin Verif.Emt Verif.Dens
open Verif.Td (Quantity qName dName)

/-- `td_*` of `OutputParameters`, outputparameters.h:231-264. -/
structure Opt where
  position : V3
  densType : Td.Dens
  (rhoEckart tmn tmnLandau vLandau jQBS : Bool)
  smearing : Bool
  onlyParticipants : Bool

/-- A particle: momentum, position, `density_factor` for each density type (density.cc:17-36) and
`collisions_per_particle`. -/
structure TPart where
  mom : V4
  pos : V3
  factor : Td.Dens → ℝ
  collisions : ℕ

/-- What `current_eckart` sees of a particle for one density type. -/
def TPart.seen (p : TPart) (d : Td.Dens) : Dens.Part := ⟨p.mom, p.pos, p.factor d, p.collisions⟩

/-- The exception of `FourVector::abs` for a space-like vector, fourvector.h:468-470. -/
inductive Err where
  | negativeSquare
  deriving DecidableEq

/-- `FourVector::abs`, fourvector.h:464-472, with `really_small = 1e-6`. -/
noncomputable def absOf (a : V4) : Except Err ℝ :=
  if a.sqr > -(1 / 1000000) then .ok (Real.sqrt |a.sqr|) else .error .negativeSquare

/-- One line of the file. A line of data is its numbers. -/
inductive Line where
  | text (s : String)
  | point (r : V3)
  | event (n : Int)
  | row (v : List ℝ)
  | broken (v : List ℝ)

/-- The pieces of the line with the names of the columns, thermodynamicoutput.cc:133-167. -/
def columnPieces (o : Opt) : List String :=
  ["# time [fm], "] ++
  (if o.rhoEckart then [qName .eckart ++ " [fm^-3], "] else []) ++
  (if o.tmn then
    (if o.smearing then [qName .tmn ++ " [GeV/fm^3] 00 01 02 03 11 12 13 22 23 33, "]
     else [qName .tmn ++ " [GeV] 00 01 02 03 11 12 13 22 23 33, "]) else []) ++
  (if o.tmnLandau then
    (if o.smearing then [qName .tmnLandau ++ " [GeV/fm^3] 00 01 02 03 11 12 13 22 23 33, "]
     else [qName .tmnLandau ++ " [GeV] 00 01 02 03 11 12 13 22 23 33, "]) else []) ++
  (if o.vLandau then [qName .vLandau ++ " x y z, "] else []) ++
  (if o.jQBS then
    (if o.smearing then ["j_QBS [(Q,B,S)/fm^3] (0 1 2 3)x3"] else ["j_QBS [(Q,B,S)] (0 1 2 3)x3"])
   else [])

/-- The constructor, thermodynamicoutput.cc:115-168. -/
def header (version : String) (o : Opt) : List Line :=
  [.text ("# " ++ version ++ " thermodynamics output")] ++
  (if o.onlyParticipants then [.text "# only participants are taken into account"] else []) ++
  [if o.smearing then .point o.position else .text "# averaged over the entire volume"] ++
  [.text ("# " ++ dName o.densType)] ++
  [.text (String.join (columnPieces o))]

/-- The sum over the ensembles of the currents of one density type, thermodynamicoutput.cc:188-193
and 244-255. -/
noncomputable def sumCurrent (o : Opt) (P : Params) (d : Td.Dens) (ens : List (List TPart)) : V4 :=
  ens.foldl (fun j ps => j.add (current P o.smearing o.position (ps.map (·.seen d))).jmu) ⟨0, 0, 0, 0⟩

/-- One particle in the loop that fills the tensor, thermodynamicoutput.cc:199-224. -/
noncomputable def addOne (o : Opt) (P : Params) (T : Tmn) (p : TPart) : Tmn :=
  if P.onlyParticipants && p.collisions == 0 then T
  else if |p.factor o.densType| < 1 / 1000000 then T
  else if o.smearing then
    let sf := (smearing P (p.pos.sub o.position) p.mom (1 / p.mom.abs)).1
    if sf < 1 / 1000000 then T
    else addParticle T p.mom (p.factor o.densType * sf * P.normFactor)
  else addParticle T p.mom (p.factor o.densType)

/-- The tensor, thermodynamicoutput.cc:197-225. -/
noncomputable def tensor (o : Opt) (P : Params) (ens : List (List TPart)) : Tmn :=
  ens.foldl (fun T ps => ps.foldl (addOne o P) T) zero

/-- Ten numbers `Tmn[0]`, ..., `Tmn[9]`. -/
def ten (T : Tmn) : List ℝ := (List.finRange 10).map T

/-- The numbers of the tensor, its Landau frame and the velocity, thermodynamicoutput.cc:196-242. -/
noncomputable def tensorColumns (eig : Tmn → (Fin 4 → ℝ) × (Fin 4 → V4)) (o : Opt) (P : Params)
    (ens : List (List TPart)) : List ℝ :=
  if o.tmn || o.tmnLandau || o.vLandau then
    let T := tensor o P ens
    let u := landau (eig T).1 (eig T).2
    (if o.tmn then ten T else []) ++
    (if o.tmnLandau then ten (boosted T u) else []) ++
    (if o.vLandau then [-u.x / u.t, -u.y / u.t, -u.z / u.t] else [])
  else []

/-- Four numbers of a vector. -/
def four (j : V4) : List ℝ := [j.t, j.x, j.y, j.z]

/-- The numbers of the three currents, thermodynamicoutput.cc:243-262. -/
noncomputable def currentColumns (o : Opt) (P : Params) (ens : List (List TPart)) : List ℝ :=
  if o.jQBS then
    four (sumCurrent o P .charge ens) ++ four (sumCurrent o P .baryon ens) ++
      four (sumCurrent o P .strangeness ens)
  else []

/-- The number of the Eckart density, thermodynamicoutput.cc:187-195. -/
noncomputable def eckartColumn (o : Opt) (P : Params) (ens : List (List TPart)) :
    Except Err (List ℝ) :=
  if o.rhoEckart then
    match absOf (sumCurrent o P o.densType ens) with
    | .ok r => .ok [r]
    | .error e => .error e
  else .ok []

/-- `at_intermediate_time`, thermodynamicoutput.cc:182-264: the line that is written, and the
exception if there is one. -/
noncomputable def output (eig : Tmn → (Fin 4 → ℝ) × (Fin 4 → V4)) (o : Opt) (P : Params) (t : ℝ)
    (ens : List (List TPart)) : Line × Option Err :=
  match eckartColumn o P ens with
  | .error e => (.broken [t], some e)
  | .ok c => (.row ([t] ++ c ++ tensorColumns eig o P ens ++ currentColumns o P ens), none)

/-- The calls of a run: start of an event (at_eventstart), output at a time, end of an event
(thermodynamicoutput.cc:172-180). -/
inductive Call where
  | start (n : Int)
  | time (t : ℝ) (ens : List (List TPart))
  | stop (n : Int)

/-- What one call adds to the file. -/
noncomputable def call (eig : Tmn → (Fin 4 → ℝ) × (Fin 4 → V4)) (o : Opt) (P : Params) :
    Call → List Line × Option Err
  | .start n => ([.event n], none)
  | .time t ens => ([(output eig o P t ens).1], (output eig o P t ens).2)
  | .stop _ => ([], none)

/-- The file after some calls; an exception ends the run. -/
noncomputable def runFrom (eig : Tmn → (Fin 4 → ℝ) × (Fin 4 → V4)) (o : Opt) (P : Params) :
    List Line → List Call → List Line × Option Err
  | f, [] => (f, none)
  | f, c :: cs =>
    match call eig o P c with
    | (l, some e) => (f ++ l, some e)
    | (l, none) => runFrom eig o P (f ++ l) cs

/-- A run: the constructor, then the calls. -/
noncomputable def run (version : String) (eig : Tmn → (Fin 4 → ℝ) × (Fin 4 → V4)) (o : Opt)
    (P : Params) (cs : List Call) : List Line × Option Err :=
  runFrom eig o P (header version o) cs

end Verif.Tdo
