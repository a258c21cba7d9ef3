import Mathlib.Algebra.BigOperators.Group.List.Basic
/-
Model of the end of hard string processes, `StringProcess::next_NDiffHard`, stringprocess.cc:659-775: particles that are not partons are taken out of the
event, the strings of the partons are fragmented one after the other and the final state is put together. PYTHIA is given by what it returns.
Simplified: a particle is its momentum, in the axes of `reorient`; `append_final_state` (formation times and scaling factors) appends the hadrons of a string
as they are; PDG codes that are no valid number throw and are left out.
-/
namespace Verif.Ndh

/-- An entry of the event record: final state or not, parton (or octet hadron) or not, and whether SMASH knows the particle. -/
structure Entry (M : Type) where
  isFinal : Bool
  isParton : Bool
  isOctet : Bool
  known : Bool
  mom : M

/-- A particle from the fragmentation of a string. -/
structure Frag (M : Type) where
  isFinal : Bool
  isHadron : Bool
  known : Bool
  mom : M

variable {M : Type}

/-- `append_intermediate_list`, stringprocess.h:815-829: only known particles are appended. -/
def append (known : Bool) (m : M) (l : List M) : List M × Bool := if known then (l ++ [m], true) else (l, false)

/-- Whether an entry is taken out, stringprocess.cc:663-665. -/
def takenOut (e : Entry M) : Bool := e.isFinal && !e.isParton && !e.isOctet

/-- The loop over the event, stringprocess.cc:659-681: `ipart`, the event and the list of particles that are not hadrons. The variable
`final_state_success` is set there but not read any more, so it has no place in the model. `npart` is the size of the event. -/
def takeOut (ipart : ℕ) (ev : List (Entry M)) (non : List M) : List (Entry M) × List M :=
  if h : ipart < ev.length then
    let e := ev[ipart]
    if takenOut e then takeOut ipart (ev.eraseIdx ipart) (append e.known e.mom non).1
    else takeOut (ipart + 1) ev non
  else (ev, non)
termination_by 2 * ev.length - ipart
decreasing_by
  · rw [List.length_eraseIdx_of_lt h]; omega
  · omega

/-- The particles of one string, stringprocess.cc:707-746: hadrons, particles that are not hadrons, success. -/
def collect (fs : List (Frag M)) (had non : List M) (ok : Bool) : List M × List M × Bool :=
  match fs with
  | [] => (had, non, ok)
  | f :: fs =>
    if f.isFinal then
      if f.isHadron then
        let r := append f.known f.mom had
        collect fs r.1 non (ok && r.2)
      else
        let r := append f.known f.mom non
        collect fs had r.1 (ok && r.2)
    else collect fs had non ok

/-- The loop over the strings, stringprocess.cc:683-762: one entry per string, `none` if PYTHIA fails. Returns success, the final state and the particles
that are not hadrons. -/
def strings (frags : List (Option (List (Frag M)))) (final non : List M) (ok : Bool) : Bool × List M × List M :=
  match frags with
  | [] => (ok, final, non)
  | none :: _ => (false, final, non)
  | some fs :: rest =>
    let r := collect fs [] non true
    if r.2.2 then strings rest (final ++ r.1) r.2.1 true else (false, final, r.2.1)

/-- From the event to the final state, stringprocess.cc:659-775. -/
def finish (ev : List (Entry M)) (frags : List (Option (List (Frag M)))) : Bool × List M :=
  let t := takeOut 0 ev []
  let r := strings frags [] t.2 false
  if r.1 then (true, r.2.1 ++ r.2.2) else (false, [])

end Verif.Ndh
