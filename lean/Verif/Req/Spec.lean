import Verif.Req.Model
/-! Specification for C156: the documented outputs, their files and the rules for requests. -/
namespace Verif.Req

/-- The outputs that write always to the same place. -/
def plain : List (Content × String × Target) :=
  [(.particles, "VTK", .series "pos_ev"),
   (.particles, "Root", .file "Particles.root"),
   (.particles, "Oscar1999", .file "particle_lists.oscar1999"),
   (.particles, "Oscar2013", .file "particle_lists.oscar"),
   (.particles, "ASCII", .file "particle_lists.dat"),
   (.particles, "HepMC", .file "SMASH_HepMC_particles.asciiv3"),
   (.particles, "HepMC_asciiv3", .file "SMASH_HepMC_particles.asciiv3"),
   (.particles, "HepMC_treeroot", .file "SMASH_HepMC_particles.root"),
   (.collisions, "Root", .file "Collisions.root"),
   (.collisions, "Oscar1999", .file "full_event_history.oscar1999"),
   (.collisions, "Oscar2013", .file "full_event_history.oscar"),
   (.collisions, "ASCII", .file "full_event_history.dat"),
   (.collisions, "HepMC", .file "SMASH_HepMC_collisions.asciiv3"),
   (.collisions, "HepMC_asciiv3", .file "SMASH_HepMC_collisions.asciiv3"),
   (.collisions, "HepMC_treeroot", .file "SMASH_HepMC_collisions.root"),
   (.dileptons, "Root", .file "Dileptons.root"),
   (.dileptons, "Oscar1999", .file "Dileptons.oscar1999"),
   (.dileptons, "Oscar2013", .file "Dileptons.oscar"),
   (.dileptons, "ASCII", .file "Dileptons.dat"),
   (.photons, "Root", .file "Photons.root"),
   (.photons, "Oscar1999", .file "Photons.oscar1999"),
   (.photons, "Oscar2013", .file "Photons.oscar"),
   (.photons, "ASCII", .file "Photons.dat"),
   (.initialConditions, "Root", .file "SMASH_IC.root"),
   (.initialConditions, "Oscar1999", .file "SMASH_IC.oscar1999"),
   (.initialConditions, "Oscar2013", .file "SMASH_IC.oscar"),
   (.initialConditions, "ASCII", .file "SMASH_IC.dat"),
   (.initialConditions, "For_vHLLE", .file "SMASH_IC_For_vHLLE.dat"),
   (.thermodynamics, "Root", .file "Thermodynamics.root"),
   (.thermodynamics, "ASCII", .file "thermodynamics.dat"),
   (.thermodynamics, "Lattice_ASCII", .series "lattice.dat"),
   (.thermodynamics, "Lattice_Binary", .series "lattice.bin"),
   (.thermodynamics, "VTK", .series "lattice.vtk"),
   (.coulomb, "Root", .file "Coulomb.root"),
   (.coulomb, "VTK", .series "fields.vtk"),
   (.rivet, "Root", .file "Rivet.root"),
   (.rivet, "YODA", .file "SMASH_Rivet.yoda"),
   (.rivet, "YODA-full", .file "SMASH_Rivet_full.yoda")]

/-- The binary files of a content: with the quantities of Oscar2013, the extended ones, others. -/
def binaryFiles : List (Content × String × String × String) :=
  [(.particles, "particles_oscar2013.bin", "particles_oscar2013_extended.bin", "particles_custom.bin"),
   (.collisions, "collisions_oscar2013.bin", "collisions_oscar2013_extended.bin", "collisions_custom.bin"),
   (.dileptons, "Dileptons_oscar2013.bin", "Dileptons_oscar2013_extended.bin", "Dileptons_custom.bin"),
   (.photons, "Photons_oscar2013.bin", "Photons_oscar2013_extended.bin", "Photons_custom.bin"),
   (.initialConditions, "SMASH_IC_oscar2013.bin", "SMASH_IC_oscar2013_extended.bin", "SMASH_IC_custom.bin")]

/-- The columns of the Oscar2013 formats in the user guide. -/
def columns (extended : Bool) : List String :=
  ["t", "x", "y", "z", "mass", "p0", "px", "py", "pz", "pdg", "ID", "charge"] ++
  if extended then ["ncoll", "form_time", "xsecfac", "proc_id_origin", "proc_type_origin", "time_last_coll",
    "pdg_mother1", "pdg_mother2", "baryon_number", "strangeness"] else []

/-- The file of a list of quantities. -/
def forQuantities (q : List String) (n : String × String × String) : String :=
  if q = columns false then n.1 else if q = columns true then n.2.1 else n.2.2

/-- The quantities of the Oscar2013 formats for a content. -/
def standard (S : Setup) (c : Content) : List String := columns (S.extended c)

/-- The quantities of the two binary formats: `Binary` uses the ones given by the user, if any. -/
def binaryQ (S : Setup) (c : Content) (f : String) : List String :=
  if f = "Binary" ∧ S.quantities c ≠ [] then S.quantities c else standard S c

/-- What the build has to contain for a format. -/
def Built (S : Setup) (f : String) : Prop :=
  (f = "Root" → S.hasRoot = true) ∧
  (f = "HepMC" ∨ f = "HepMC_asciiv3" ∨ f = "HepMC_treeroot" → S.hasHepmc = true) ∧
  (f = "HepMC_treeroot" → S.hasHepmcRoot = true) ∧ (f = "YODA" ∨ f = "YODA-full" → S.hasRivet = true)

/-- The output of a content in a format exists and writes to this place. -/
def Writes (S : Setup) (c : Content) (f : String) (t : Target) : Prop :=
  ((c, f, t) ∈ plain ∧ Built S f) ∨
    ((f = "Binary" ∨ f = "Oscar2013_bin") ∧ ∃ n, (c, n) ∈ binaryFiles ∧ t = .file (forQuantities (binaryQ S c f) n))

/-- What the rest of the input file has to fulfil for an output. -/
def Allowed (S : Setup) (c : Content) (f : String) : Prop :=
  ¬(S.ensembles > 1 ∧
    (c = .initialConditions ∨ c = .rivet ∨ f = "HepMC" ∨ f = "HepMC_asciiv3" ∨ f = "HepMC_treeroot")) ∧
  (f = "For_vHLLE" → S.dynamicIC = false) ∧
  (f = "ASCII" ∧ c.custom = true → S.validQuantities (S.quantities c) = true) ∧
  (f = "Binary" ∧ S.quantities c ≠ [] → S.validQuantities (S.quantities c) = true)

/-- The rules for the formats of one content. -/
structure Legal (S : Setup) (c : Content) (fs : List String) : Prop where
  some : fs ≠ []
  none_alone : "None" ∈ fs → fs = ["None"]
  /-- quantities are given exactly if a format uses them -/
  quantities : c.custom = true → (S.quantities c ≠ [] ↔ "ASCII" ∈ fs ∨ "Binary" ∈ fs)
  /-- no two files with the same contents -/
  ascii_twice : c.custom = true → S.quantities c = standard S c → ¬("ASCII" ∈ fs ∧ "Oscar2013" ∈ fs)
  binary_twice : c.custom = true → S.quantities c = standard S c → ¬("Binary" ∈ fs ∧ "Oscar2013_bin" ∈ fs)
  exist : ∀ f ∈ fs, f ≠ "None" → (∃ t, Writes S c f t) ∧ Allowed S c f
  rivet : ¬("YODA" ∈ fs ∧ "YODA-full" ∈ fs)

end Verif.Req
