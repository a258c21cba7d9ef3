/-
Model of the particle container `smash::Particles`.
  /repo/src/include/smash/particles.h, /repo/src/particles.cc and the parts of
  /repo/src/include/smash/particledata.h it relies on.
-/
namespace Verif.Particles
set_option linter.unusedVariables false

/-- `ParticleData` (particledata.h:505 `id_`, :515 `index_`, :535 `hole_`,
`type_`, :35 `history_.id_process`).  Momentum, position, spin vector, formation
data, origin label, core flag, weight and the rest of the history are the opaque
payload `pay`: the container only copies them as a block (`copy_to`).
`ty` stands for the pointer to the particle type. -/
structure PData (P : Type) where
  id : Int
  index : Nat
  hole : Bool
  ty : Nat
  proc : Int
  pay : P

/-- What can go wrong: a violated `assert` on the arguments, an access outside
the allocated array, a fixed-width overflow. -/
inductive Fault where
  | contract | oob | overflow
  deriving DecidableEq, Repr

/-- The data members, particles.h:446-504.  `data` is total for convenience;
every access goes through `rd`/`wr`, which fault outside `[0, cap)`.
The head of `dirty` is the back of the vector `dirty_`. -/
structure State (P : Type) where
  data : Nat → PData P
  cap : Nat
  size : Nat
  dirty : List Nat
  idMax : Int

variable {P : Type}

/-- Array read `data_[i]`. -/
def rd (s : State P) (i : Nat) : Except Fault (PData P) :=
  if i < s.cap then .ok (s.data i) else .error .oob

/-- Array write `data_[i] = p`. -/
def wr (s : State P) (i : Nat) (p : PData P) : Except Fault (State P) :=
  if i < s.cap then .ok { s with data := fun j => if j = i then p else s.data j }
  else .error .oob

/-- `++id_max_` on an `int` (particles.cc:45): overflow is a fault. -/
def nextId (s : State P) : Except Fault (State P) :=
  if s.idMax + 1 < 2 ^ 31 then .ok { s with idMax := s.idMax + 1 } else .error .overflow

/-- `ParticleData::copy_to`, particledata.h:484-495: everything but `id_`,
`index_`, `type_`, `hole_`. -/
def copyTo (src dst : PData P) : PData P := { dst with proc := src.proc, pay := src.pay }

/-- Default constructed array element (particledata.h:505,535) with `index_` set,
particles.cc:18-20 and :38-40. -/
def fresh [Inhabited P] (i : Nat) : PData P :=
  { id := -1, index := i, hole := false, ty := 0, proc := 0, pay := default }

/-- `Particles::Particles`, particles.cc:17-21; initial capacity particles.h:492. -/
def init [Inhabited P] : State P :=
  { data := fresh, cap := 100, size := 0, dirty := [], idMax := -1 }

/-- `Particles::increase_capacity`, particles.cc:30-42. -/
def increaseCapacity [Inhabited P] (s : State P) (newCap : Nat) : State P :=
  { s with cap := newCap, data := fun i => if i < s.size then s.data i else fresh i }

/-- `Particles::ensure_capacity`, particles.cc:23-28.  The sums are `unsigned`
(32 bit); a result that does not fit is a fault. -/
def ensureCapacity [Inhabited P] (s : State P) (toAdd : Nat) : Except Fault (State P) :=
  if s.size + toAdd ≥ 2 ^ 32 then .error .overflow
  else if s.size + toAdd ≥ s.cap then
    if (s.cap + toAdd) * 2 ≥ 2 ^ 32 then .error .overflow
    else .ok (increaseCapacity s ((s.cap + toAdd) * 2))
  else .ok s

/-- `Particles::copy_in(data_[i], p)`, particles.cc:44-48. -/
def copyIn (s : State P) (i : Nat) (p : PData P) : Except Fault (State P) := do
  let s ← nextId s
  let slot ← rd s i
  wr s i (copyTo p { slot with id := s.idMax, ty := p.ty })

/-- `Particles::is_valid`, particles.h:120-131.  Its array access is guarded by
`data_size_ <= index_`; it is inside the array because `data_size_` is at most
the capacity (part of the invariant proved in `Lemmas`). -/
def isValid (s : State P) (c : PData P) : Bool :=
  if s.size ≤ c.index then false
  else (s.data c.index).id == c.id && (s.data c.index).proc == c.proc

/-- The contract of functions that take a copy of a particle: `assert(is_valid(p))`
(particles.h:177, particles.cc:109,123) and, implicit in "copy of a particle of
the list", that it carries an id handed out by the container. -/
def needValid (s : State P) (c : PData P) : Except Fault Unit :=
  if isValid s c && decide (0 ≤ c.id) then .ok () else .error .contract

/-- `Particles::insert`, particles.cc:50-64. Returns the stored particle. -/
def insert [Inhabited P] (s : State P) (p : PData P) : Except Fault (State P × PData P) :=
  match s.dirty with
  | [] => do
    let s ← ensureCapacity s 1
    let i := s.size
    let s ← copyIn s i p
    let s := { s with size := s.size + 1 }
    let r ← rd s i
    return (s, r)
  | offset :: rest => do
    let s := { s with dirty := rest }
    let s ← copyIn s offset p
    let slot ← rd s offset
    let s ← wr s offset { slot with hole := false }
    let r ← rd s offset
    return (s, r)

/-- First loop of `Particles::create(n, pdg)`, particles.cc:68-76.
`pd` is the default particle of the type; the id/type/payload writes are those of
`copy_in` in another order. Returns the state and what is left of `number`. -/
def createHoles (s : State P) (pd : PData P) : Nat → Except Fault (State P × Nat)
  | 0 => .ok (s, 0)
  | n + 1 =>
    match s.dirty with
    | [] => .ok (s, n + 1)
    | offset :: rest => do
      let s := { s with dirty := rest }
      let s ← copyIn s offset pd
      let slot ← rd s offset
      let s ← wr s offset { slot with hole := false }
      createHoles s pd n

/-- Second loop of `Particles::create(n, pdg)`, particles.cc:80-84: slots
`i, …, i+n-1`. -/
def createTail (s : State P) (pd : PData P) (i : Nat) : Nat → Except Fault (State P)
  | 0 => .ok s
  | n + 1 => do
    let s ← copyIn s i pd
    createTail s pd (i + 1) n

/-- `Particles::create(size_t, PdgCode)`, particles.cc:66-87. -/
def createN [Inhabited P] (s : State P) (n : Nat) (pd : PData P) : Except Fault (State P) := do
  let (s, rest) ← createHoles s pd n
  if rest = 0 then return s
  else
    let s ← ensureCapacity s rest
    let s ← createTail s pd s.size rest
    return { s with size := s.size + rest }

/-- `Particles::create(PdgCode)`, particles.cc:89-106. -/
def create1 [Inhabited P] (s : State P) (pd : PData P) : Except Fault (State P × PData P) := do
  let (s, i) ←
    match s.dirty with
    | [] => do
      let s ← ensureCapacity s 1
      let i := s.size
      pure ({ s with size := s.size + 1 }, i)
    | offset :: rest => do
      let s := { s with dirty := rest }
      let slot ← rd s offset
      let s ← wr s offset { slot with hole := false }
      pure (s, offset)
  let s ← copyIn s i pd
  let r ← rd s i
  return (s, r)

/-- `Particles::remove`, particles.cc:108-118. -/
def remove (s : State P) (c : PData P) : Except Fault (State P) := do
  needValid s c
  let index := c.index
  if index = s.size - 1 then return { s with size := s.size - 1 }
  else
    let slot ← rd s index
    let s ← wr s index { slot with id := -1, hole := true }
    return { s with dirty := index :: s.dirty }

/-- Last loop of `Particles::replace`, particles.cc:132-136. -/
def insertAll [Inhabited P] (s : State P) :
    List (PData P) → Except Fault (State P × List (PData P))
  | a :: add => do
    let (s, p) ← insert s a
    let (s, out) ← insertAll s add
    return (s, { a with id := p.id, index := p.index } :: out)
  | [] => .ok (s, [])

/-- `Particles::replace`, particles.cc:120-137.  The recursion follows the index
`i` of the three loops: both lists, then the rest of `to_remove`, then the rest of
`to_add`.  Returns the updated `to_add`. -/
def replace [Inhabited P] (s : State P) :
    List (PData P) → List (PData P) → Except Fault (State P × List (PData P))
  | r :: rm, a :: add => do
    needValid s r
    let s ← copyIn s r.index a
    let slot ← rd s r.index
    let (s, out) ← replace s rm add
    return (s, { a with id := slot.id, index := r.index } :: out)
  | r :: rm, [] => do
    let s ← remove s r
    replace s rm []
  | [], add => insertAll s add

/-- `Particles::update_particle`, particles.h:175-182. -/
def updateParticle (s : State P) (c new : PData P) : Except Fault (State P) := do
  needValid s c
  if c.ty ≠ new.ty then .error .contract
  else
    let original ← rd s c.index
    wr s c.index (copyTo new original)

/-- `Particles::reset`, particles.cc:139-146. -/
def reset (s : State P) : State P :=
  { s with
    idMax := -1, size := 0, dirty := [],
    data := fun i => if i ∈ s.dirty then { s.data i with hole := false } else s.data i }

/-- `Particles::size`, particles.h:87. -/
def sizeOf (s : State P) : Nat := s.size - s.dirty.length

/-- `Particles::is_empty`, particles.h:90. -/
def isEmpty (s : State P) : Bool := s.size == 0

/-- The loop `while (ptr->hole_) ++ptr` of `begin()` and `operator++`,
particles.h:286-291 and :395-401. Running off the array is a fault. -/
def skipHoles (s : State P) (i : Nat) : Except Fault Nat :=
  if h : i < s.cap then
    if (s.data i).hole then skipHoles s (i + 1) else .ok i
  else .error .oob
termination_by s.cap - i

theorem skipHoles_ge (s : State P) (i j : Nat) (h : skipHoles s i = .ok j) : i ≤ j := by
  induction i using skipHoles.induct (s := s) with
  | case1 i hi hh ih =>
    rw [skipHoles] at h; simp only [hi, hh, dite_true, if_true] at h
    have := ih h; omega
  | case2 i hi hh =>
    rw [skipHoles] at h; simp [hi, hh] at h; omega
  | case3 i hi => rw [skipHoles] at h; simp [hi] at h

theorem skipHoles_lt (s : State P) (i j : Nat) (h : skipHoles s i = .ok j) : j < s.cap := by
  induction i using skipHoles.induct (s := s) with
  | case1 i hi hh ih =>
    rw [skipHoles] at h; simp only [hi, hh, dite_true, if_true] at h
    exact ih h
  | case2 i hi hh =>
    rw [skipHoles] at h; simp [hi, hh] at h; omega
  | case3 i hi => rw [skipHoles] at h; simp [hi] at h

/-- The range-for loop from an iterator at slot `i` to `end()`
(particles.h:286-291, :342-348, :419): visits `*it`, advances, stops at
`&data_[data_size_]`. -/
def iterFrom (s : State P) (i : Nat) : Except Fault (List (PData P)) :=
  if i = s.size then .ok []
  else if hc : i < s.cap then
    match h : skipHoles s (i + 1) with
    | .error e => .error e
    | .ok j => do
      let rest ← iterFrom s j
      return s.data i :: rest
  else .error .oob
termination_by s.cap - i
decreasing_by
  have h1 := skipHoles_ge s _ _ h
  have h2 := skipHoles_lt s _ _ h
  omega

/-- The whole loop `for (const ParticleData &p : particles)`, particles.h:395-425. -/
def iterate (s : State P) : Except Fault (List (PData P)) := do
  let i ← skipHoles s 0
  iterFrom s i

/-- The mutating calls of the public interface. -/
inductive Op (P : Type) where
  | insert (p : PData P)
  | createN (n : Nat) (pd : PData P)
  | create1 (pd : PData P)
  | remove (c : PData P)
  | replace (rm add : List (PData P))
  | update (c new : PData P)
  | reset

/-- One call. -/
def step [Inhabited P] (s : State P) : Op P → Except Fault (State P)
  | .insert p => do return (← insert s p).1
  | .createN n pd => createN s n pd
  | .create1 pd => do return (← create1 s pd).1
  | .remove c => remove s c
  | .replace rm add => do return (← replace s rm add).1
  | .update c new => updateParticle s c new
  | .reset => .ok (reset s)

/-- A history of calls. -/
def run [Inhabited P] (s : State P) : List (Op P) → Except Fault (State P)
  | [] => .ok s
  | op :: ops => do
    let s ← step s op
    run s ops

end Verif.Particles
