import Verif.Particles.Model
/-
What a user of the particle container may rely on: a map from ids to particles.
Nothing here mentions slots, holes or capacities.
-/
namespace Verif.Particles

/-- What is visible of a stored particle besides its id. -/
structure Content (P : Type) where
  ty : Nat
  proc : Int
  pay : P

/-- The content of a particle object. -/
def PData.content {P : Type} (p : PData P) : Content P := ⟨p.ty, p.proc, p.pay⟩

/-- The abstract container: the next id to hand out and the live particles. -/
structure Bag (P : Type) where
  next : Int
  live : Int → Option (Content P)

namespace Bag
variable {P : Type}

/-- No particle, first id 0. -/
def empty : Bag P := ⟨0, fun _ => none⟩

/-- Store one particle under the next id. -/
def add (b : Bag P) (c : Content P) : Bag P :=
  ⟨b.next + 1, fun i => if i = b.next then some c else b.live i⟩

/-- Forget one id. -/
def del (b : Bag P) (id : Int) : Bag P :=
  ⟨b.next, fun i => if i = id then none else b.live i⟩

/-- Overwrite the content of one id. -/
def set (b : Bag P) (id : Int) (c : Content P) : Bag P :=
  ⟨b.next, fun i => if i = id then some c else b.live i⟩

/-- The effect every call is supposed to have. -/
def step (b : Bag P) : Op P → Bag P
  | .insert p => b.add p.content
  | .createN n pd => (List.replicate n pd.content).foldl add b
  | .create1 pd => b.add pd.content
  | .remove c => b.del c.id
  | .replace rm new => (new.map PData.content).foldl add ((rm.map PData.id).foldl del b)
  | .update c new => b.set c.id new.content
  | .reset => empty

/-- The effect of a history of calls. -/
def run (b : Bag P) (ops : List (Op P)) : Bag P := ops.foldl step b

end Bag

/-- The number of ids a call hands out. -/
def Op.idsUsed {P : Type} : Op P → Nat
  | .insert _ => 1
  | .createN n _ => n
  | .create1 _ => 1
  | .replace _ add => add.length
  | _ => 0

/-- Is the call a reset? -/
def Op.isReset {P : Type} : Op P → Bool
  | .reset => true
  | _ => false

/-- What the caller has to guarantee (the `assert`s in particles.h:177-178 and
particles.cc:109,123): every particle that is passed as "present in the list" is
a valid copy, and a list of particles to be removed names no particle twice. -/
def Op.Pre {P : Type} (s : State P) : Op P → Prop
  | .remove c => isValid s c = true ∧ 0 ≤ c.id
  | .update c new => isValid s c = true ∧ 0 ≤ c.id ∧ c.ty = new.ty ∧ (s.data c.index).ty = c.ty
  | .replace rm _ => (∀ r ∈ rm, isValid s r = true ∧ 0 ≤ r.id) ∧ (rm.map PData.id).Nodup
  | _ => True

/-- `Hist s₀ ops s`: the history of calls `ops`, each made with its
preconditions fulfilled and completed without fault, leads from `s₀` to `s`. -/
inductive Hist {P : Type} [Inhabited P] (s₀ : State P) : List (Op P) → State P → Prop where
  | start : Hist s₀ [] s₀
  | call {ops s op t} : Hist s₀ ops s → op.Pre s → step s op = .ok t → Hist s₀ (ops ++ [op]) t

end Verif.Particles
