import Verif.Text.Model
import Verif.Stream.Model
/-
Model of the list modus, listmodus.cc, and of the creation of particles from external data,
particledata.cc.  Files are byte strings; a reading error of the operating system is not modelled.
-/
namespace Verif.Lst
open Verif.Text Verif.Kin Verif.Stream

/-- Repeated `std::getline` on a stream: the lines that end in '\n' and what follows the last one.
Reading what follows, even if empty, meets the end of the file. -/
def splitTerm : Str → List Str × Str
  | [] => ([], [])
  | c :: s =>
    if c = 10 then ([] :: (splitTerm s).1, (splitTerm s).2)
    else match (splitTerm s).1 with
      | [] => ([], c :: (splitTerm s).2)
      | l :: ls => ((c :: l) :: ls, (splitTerm s).2)

/-- The state of a `ListModus` while reading, listmodus.h:259-267: the number of the file, if files
are numbered, and the position in it (`none`: -1, the end was reached). -/
structure St where
  fileId : Option Int
  pos : Option Nat := some 0
deriving DecidableEq

inductive Err
  | noFile     -- "External particle list does not exist!", listmodus.cc:326
  | noEvents   -- "... no further data found in single provided file", listmodus.cc:345-348
  | fuel       -- not an outcome of the program: more files were skipped than allowed here
deriving DecidableEq

/-- The loop of `file_has_events_`, listmodus.cc:386-397, on the complete lines that follow the
position; `k` is `skipped_lines`.  When there are no more complete lines, the next `getline` meets
the end of the file. -/
def hasEventsLoop : Nat → List Str → Bool
  | _, [] => false
  | k, l :: ls => if l.head? = some 35 then true else if k < 4 then hasEventsLoop (k + 1) ls else true

/-- `file_has_events_`, listmodus.cc:373-409. -/
def fileHasEvents (content : Str) : Option Nat → Bool
  | none => false
  | some pos => hasEventsLoop 0 (splitTerm (content.drop pos)).1

/-- `" end "` -/
def needle : Str := [32, 101, 110, 100, 32]

/-- The loop that reads one event, listmodus.cc:354-361: the event and the number of bytes read
(`none` if the end of the file was met, `tellg` is then -1). -/
def readLoop : List Str → Str → Str × Option Nat
  | [], tail =>
    if tail = [] then ([], none)
    else if (find tail needle).isNone then (tail ++ [10], none)
    else ([], none)
  | l :: ls, tail =>
    if (find l needle).isNone then
      (l ++ [10] ++ (readLoop ls tail).1, (readLoop ls tail).2.map (· + (l.length + 1)))
    else ([], some (l.length + 1))

/-- `next_event_`, listmodus.cc:332-371, with `fs` the files by number (`none`: the file given by its
full name); `fuel` bounds the number of skipped files. -/
def nextEvent (fs : Option Int → Option Str) : Nat → St → St × Except Err Str
  | fuel, st =>
    match fs st.fileId with
    | none => (st, .error .noFile)
    | some content =>
      if fileHasEvents content st.pos then
        let r := readLoop (splitTerm (content.drop (st.pos.getD 0))).1
          (splitTerm (content.drop (st.pos.getD 0))).2
        ({ st with pos := r.2.map (· + st.pos.getD 0) }, .ok r.1)
      else match st.fileId, fuel with
        | none, _ => (st, .error .noEvents)
        | some _, 0 => (st, .error .fuel)
        | some i, fuel + 1 => nextEvent fs fuel ⟨some (i + 1), some 0⟩

/-- What `n` calls of `next_event_` return. -/
def calls (fs : Option Int → Option Str) (fuel : Nat) : Nat → St → List (Except Err Str)
  | 0, _ => []
  | n + 1, st => (nextEvent fs fuel st).2 :: calls fs fuel n (nextEvent fs fuel st).1

/-- What becomes of one line of the event. -/
inductive LineResult (P E : Type) | particle (p : P) | unknown | failure (e : E)

/-- The loop of `read_particles_from_next_event_`, listmodus.cc:280-309, with the conversion of a
line as a function: unknown particles are skipped (try_create_particle, listmodus.cc:135-152), a
failing conversion ends the reading. -/
def readLines {P E : Type} (conv : Str → LineResult P E) : List (Nat × Str) → Except E (List P)
  | [] => .ok []
  | (_, l) :: ls => match conv l with
    | .failure e => .error e
    | .unknown => readLines conv ls
    | .particle p => match readLines conv ls with
      | .error e => .error e
      | .ok ps => .ok (p :: ps)

/-- `read_particles_from_next_event_`, listmodus.cc:269-310, for the text of the event. -/
def readEvent {P E : Type} (conv : Str → LineResult P E) (text : Str) : Except E (List P) :=
  readLines conv (lineParser text)

/-! ### Particles from external data -/

/-- The particle type as used here. -/
structure Ty where
  poleMass : ℝ
  stable : Bool

/-- A four-vector of doubles, `none` for NaN. -/
structure D4 where
  t : Option ℝ
  x : Option ℝ
  y : Option ℝ
  z : Option ℝ

/-- `is_any_nan`, algorithms.h:153-160 (negated), together with reading the values. -/
def D4.get (v : D4) : Option V4 :=
  match v.t, v.x, v.y, v.z with
  | some t, some x, some y, some z => some ⟨t, x, y, z⟩
  | _, _, _, _ => none

/-- The part of a new particle that is set. -/
structure New where
  pos : V4
  mom : V4
  formation : ℝ
  scaling : ℝ

inductive CreateErr | nan | pdgNotFound
deriving DecidableEq

/-- `set_4momentum(mass, mom)`, particledata.h:186-188. -/
noncomputable def onShell (mass : ℝ) (p : V3) : V4 := V4.mk' (Real.sqrt (mass * mass + p.dot p)) p

/-- The momentum chosen by `create_valid_smash_particle_matching_provided_quantities`,
particledata.cc:273-285. -/
noncomputable def chooseMom (ty : Ty) (mass : ℝ) (mom : V4) : V4 :=
  if ty.stable ∧ |mass - ty.poleMass| > 1 / 1000000 then onShell ty.poleMass mom.vec
  else if |mom.sqr - mass * mass| > 1 / 1000000 then onShell mass mom.vec
  else mom

/-- `create_valid_smash_particle_matching_provided_quantities`, particledata.cc:210-293, without the
warnings; `ty` is what `ParticleType::find` returns. -/
noncomputable def create (ty : Option Ty) (mass : ℝ) (pos mom : D4) : Except CreateErr New :=
  match pos.get, mom.get with
  | some x, some p => match ty with
    | none => .error .pdgNotFound
    | some ty => .ok ⟨x, chooseMom ty mass p, x.t, 1⟩
  | _, _ => .error .nan

/-! ### Start time -/

/-- The loop of `backpropagate_to_same_time_if_needed_`, listmodus.cc:110-126: the earliest time and
the sum of the differences to the first particle; `none`: no particle yet. -/
noncomputable def timeLoop : Option (ℝ × ℝ × ℝ) → List SP → Option (ℝ × ℝ × ℝ)
  | acc, [] => acc
  | none, p :: ps => timeLoop (some (p.pos.t, p.pos.t, 0)) ps
  | some (first, earliest, diff), p :: ps =>
    timeLoop (some (first, if p.pos.t < earliest then p.pos.t else earliest,
      diff + |p.pos.t - first|)) ps

/-- `initial_conditions` after reading, listmodus.cc:256-267, with
`backpropagate_to_same_time_if_needed_`, listmodus.cc:107-133: the particles and the start time. -/
noncomputable def startTogether (ps : List SP) : List SP × ℝ :=
  match timeLoop none ps with
  | none => (ps, 0)
  | some (_, earliest, diff) =>
    if diff > 1 / 1000000 then (backpropagate earliest ps, earliest) else (ps, earliest)

/-! ### Validation -/

/-- `is_list_of_particles_invalid`, listmodus.cc:520-558, for the positions printed with six
decimals. -/
def tooMany {K : Type} [DecidableEq K] (keys : List K) : Bool :=
  keys.dedup.any fun k => keys.count k > 2

end Verif.Lst
