import Verif.Fluid.Model
import Mathlib.Tactic.Linarith
import Mathlib.Tactic.NormNum
import Mathlib.Tactic.SplitIfs
import Mathlib.Tactic.FieldSimp
import Mathlib.Tactic.Ring
import Mathlib.Data.List.Perm.Basic
/-
C134: the end of a run with dynamic initial conditions: the core is taken out, the other particles
are moved back to their last collision.
-/
namespace Verif.Fluid
open Verif.Kin Verif.Act

/-! ## Specification -/

/-- Particles are compared without their ids. -/
def forget (p : FP) : FP := { p with id := 0 }

/-- A particle took part in a collision, and some time ago. -/
def Collided (p : FP) : Prop := p.ncoll ≠ 0 ∧ p.pos.t ≠ p.tLast

/-- `q` is `p` moved along its straight line to the time of its last collision, and a little
later (0.01 fm) to keep the products of one collision apart. -/
structure MovedBack (p q : FP) : Prop where
  type : q.type = p.type
  pole : q.pole = p.pole
  mom : q.mom = p.mom
  time : q.pos.t = p.tLast + 1 / 100
  lineX : (p.pos.x - q.pos.x) * p.mom.t = p.mom.x * (p.pos.t - q.pos.t)
  lineY : (p.pos.y - q.pos.y) * p.mom.t = p.mom.y * (p.pos.t - q.pos.t)
  lineZ : (p.pos.z - q.pos.z) * p.mom.t = p.mom.z * (p.pos.t - q.pos.t)
  core : q.core = false
  last : q.tLast = q.pos.t
  once : q.ncoll = 1
  ptype : q.ptype = .freeforall

/-- The order of the queue: any order. -/
def AnyOrder (order : List Free → List Free) : Prop := ∀ l, (order l).Perm l

/-! ## Lemmas -/

/-- Outgoing particles of an action, without their ids. -/
noncomputable def outs (a : Free) : List FP :=
  (a.finalState.map (performed .freeforall a.time)).map forget

theorem forget_id (p : FP) (n : Nat) : forget { p with id := n } = forget p := rfl

theorem perform_out (n : Nat) (l : List FP) :
    ((l.mapIdx fun i p => { p with id := n + i }).map forget) = l.map forget := by
  apply List.ext_getElem (by simp)
  intro i h1 h2
  simp [forget]

theorem mem_mapIdx_id (n : Nat) (l : List FP) (q : FP)
    (h : q ∈ l.mapIdx fun i p => { p with id := n + i }) : n ≤ q.id := by
  obtain ⟨i, hi, rfl⟩ := List.mem_mapIdx.1 h
  simp

theorem fold_perform (acts : List Free) : ∀ (l : List FP) (n : Nat),
    (∀ a ∈ acts, ∀ q ∈ a.inc, q.id < n) →
    (acts.foldl perform (l, n)).1.map forget =
      (l.filter fun p => !(acts.any fun a => a.inc.any fun q => q.id == p.id)).map forget ++
        acts.flatMap outs := by
  induction acts with
  | nil => intro l n _; simp
  | cons a as ih =>
    intro l n h
    rw [List.foldl_cons]
    set out := (a.finalState.map (performed .freeforall a.time)).mapIdx
      fun i p => { p with id := n + i } with hout
    have hp : perform (l, n) a =
      ((l.filter fun p => !(a.inc.any fun q => q.id == p.id)) ++ out, n + out.length) := rfl
    rw [hp, ih _ _ (fun b hb q hq => Nat.lt_of_lt_of_le (h b (by simp [hb]) q hq) (Nat.le_add_right _ _)),
      List.filter_append, List.map_append, List.filter_filter]
    have ho : (out.filter fun p => !(as.any fun a => a.inc.any fun q => q.id == p.id)) = out := by
      rw [List.filter_eq_self]
      intro p hpm
      simp only [Bool.not_eq_true', List.any_eq_false, beq_iff_eq]
      intro b hb hq
      obtain ⟨q, hq1, hq2⟩ := List.any_eq_true.1 hq
      have h1 := h b (by simp [hb]) q hq1
      have h2 := mem_mapIdx_id n _ p hpm
      simp at hq2
      omega
    rw [ho, hout, perform_out, List.flatMap_cons, ← List.append_assoc]
    congr 2
    congr 1
    apply List.filter_congr
    intro p _
    simp [List.any_cons, Bool.not_or, Bool.and_comm]

theorem round_perm (order : List Free → List Free) (ho : AnyOrder order) (l : List FP) (n : Nat)
    (acts : List Free) (h : ∀ a ∈ acts, ∀ q ∈ a.inc, q.id < n) :
    (((order acts).foldl perform (l, n)).1.map forget).Perm
      ((l.filter fun p => !(acts.any fun a => a.inc.any fun q => q.id == p.id)).map forget ++
        acts.flatMap outs) := by
  have hp := ho acts
  rw [fold_perform _ _ _ (fun a ha => h a (hp.mem_iff.1 ha))]
  have : (l.filter fun p => !((order acts).any fun a => a.inc.any fun q => q.id == p.id)) =
      (l.filter fun p => !(acts.any fun a => a.inc.any fun q => q.id == p.id)) := by
    apply List.filter_congr
    intro p _
    congr 1
    rw [Bool.eq_iff_iff, List.any_eq_true, List.any_eq_true]
    exact ⟨fun ⟨a, ha, h⟩ => ⟨a, hp.mem_iff.1 ha, h⟩, fun ⟨a, ha, h⟩ => ⟨a, hp.mem_iff.2 ha, h⟩⟩
  rw [this]
  exact List.Perm.append_left _ (hp.flatMap_right _)

theorem split_perm {α β : Type} (m : α → Bool) (g f : α → β) (l : List α) :
    ((l.filter fun p => !m p).map g ++ (l.filter m).map f).Perm
      (l.map fun p => if m p = true then f p else g p) := by
  induction l with
  | nil => simp
  | cons a as ih =>
    by_cases h : m a = true
    · simp only [List.filter_cons, h, Bool.not_true, Bool.false_eq_true, if_false, if_true,
        List.map_cons]
      exact List.perm_middle.trans (ih.cons _)
    · simp only [List.filter_cons, h, Bool.not_eq_true, if_false, List.map_cons]
      simp only [Bool.not_eq_true] at h
      simp only [h, Bool.not_false, if_true, List.map_cons, List.cons_append]
      exact ih.cons _

theorem id_unique {l : List FP} (hl : (l.map (·.id)).Nodup) {p q : FP} (hp : p ∈ l) (hq : q ∈ l)
    (h : p.id = q.id) : p = q := List.inj_on_of_nodup_map hl hp hq h

/-! ## Theorems -/

/-- While there are core particles: exactly these are taken out, whatever the order of the queue;
the others stay as they are, in their order. -/
theorem C134_core (order : List Free → List Free) (ho : AnyOrder order) (l : List FP) (n : Nat)
    (count : Nat × ℝ) (hl : (l.map (·.id)).Nodup) (hn : ∀ p ∈ l, p.id < n)
    (hc : ∃ p ∈ l, p.core = true) :
    ((finalRound order ((l, n), count)).1.1.map forget).Perm
        ((l.filter fun p => !p.core).map forget) ∧
    (finalRound order ((l, n), count)).2 =
      (count.1 + (l.filter (·.core)).length, count.2 + ((l.filter (·.core)).map (·.mom.t)).sum) := by
  have ha : l.any (·.core) = true := by simpa using hc
  have hf : findFinal count l = ((l.filter (·.core)).map fun p => ⟨[p], [], p.pos.t⟩,
      (l.filter (·.core)).foldl (fun s p => (s.1 + 1, s.2 + p.mom.t)) count) := by
    unfold findFinal; rw [if_pos ha]
  constructor
  · unfold finalRound
    simp only [hf]
    refine (round_perm order ho l n _ ?_).trans ?_
    · intro a ha q hq
      obtain ⟨p, hp, rfl⟩ := List.mem_map.1 ha
      simp at hq
      subst hq
      exact hn _ (List.mem_filter.1 hp).1
    · have : ((l.filter (·.core)).map fun p => (⟨[p], [], p.pos.t⟩ : Free)).flatMap outs = [] := by
        rw [List.flatMap_eq_nil_iff]
        intro a ha
        obtain ⟨p, hp, rfl⟩ := List.mem_map.1 ha
        simp [outs, Free.finalState]
      rw [this, List.append_nil]
      refine List.Perm.of_eq (congrArg _ (List.filter_congr fun p hp => ?_))
      congr 1
      rw [Bool.eq_iff_iff, List.any_eq_true]
      constructor
      · rintro ⟨a, ha, h⟩
        obtain ⟨q, hq, rfl⟩ := List.mem_map.1 ha
        have hq' := List.mem_filter.1 hq
        simp at h
        rw [id_unique hl hp hq'.1 h.symm]
        exact hq'.2
      · intro h
        exact ⟨_, List.mem_map.2 ⟨p, List.mem_filter.2 ⟨hp, h⟩, rfl⟩, by simp⟩
  · unfold finalRound
    simp only [hf]
    generalize l.filter (·.core) = k
    induction k generalizing count with
    | nil => simp
    | cons a as ih =>
      have hx : (l.any fun x => x.core) = true := ha
      have : ∀ (k : List FP) (c : Nat × ℝ),
          k.foldl (fun s p => (s.1 + 1, s.2 + p.mom.t)) c =
            (c.1 + k.length, c.2 + (k.map (·.mom.t)).sum) := by
        intro k
        induction k with
        | nil => intro c; simp
        | cons b bs ihb =>
          intro c
          rw [List.foldl_cons, ihb]
          simp only [List.length_cons, List.map_cons, List.sum_cons, Prod.mk.injEq]
          exact ⟨by omega, by ring⟩
      exact this _ _

theorem outs_removal (p : FP) (t : ℝ) : outs ⟨[p], [], t⟩ = [] := by simp [outs, Free.finalState]

/-- What arrives for a particle that is moved back. -/
noncomputable def arrived (o : FP) : FP :=
  forget (performed .freeforall (o.tLast + 0.01)
    { (backpropagated o).setFormation (o.tLast + 0.01) with
      pos := (backpropagated o).pos.add ⟨1 * (o.tLast + 0.01 - (o.tLast + 0.01)),
        o.mom.velocity.x * (o.tLast + 0.01 - (o.tLast + 0.01)),
        o.mom.velocity.y * (o.tLast + 0.01 - (o.tLast + 0.01)),
        o.mom.velocity.z * (o.tLast + 0.01 - (o.tLast + 0.01))⟩ })

theorem outs_arrival (o : FP) : outs ⟨[], [backpropagated o], o.tLast + 0.01⟩ = [arrived o] := rfl

theorem arrived_moved (o : FP) (hE : o.mom.t ≠ 0) : MovedBack o (arrived o) := by
  refine ⟨rfl, rfl, rfl, ?_, ?_, ?_, ?_, rfl, ?_, rfl, rfl⟩ <;>
  simp [arrived, forget, performed, backpropagated, FP.setFormation, V4.add, V4.mk', V3.sub,
    V3.smul, V4.velocity, V3.div, V4.vec] <;> try norm_num
  all_goals field_simp

open Classical in
/-- Without core particles: every particle that collided some time ago is replaced by one moved
back to that collision; all others, the spectators among them, stay as they are. Whatever the
order of the queue. -/
theorem C134_corona (order : List Free → List Free) (ho : AnyOrder order) (l : List FP) (n : Nat)
    (count : Nat × ℝ) (hl : (l.map (·.id)).Nodup) (hn : ∀ p ∈ l, p.id < n)
    (hE : ∀ p ∈ l, p.mom.t ≠ 0) (hc : ∀ p ∈ l, p.core = false) :
    ∃ back : FP → FP, (∀ p ∈ l, Collided p → MovedBack p (back p)) ∧
      ((finalRound order ((l, n), count)).1.1.map forget).Perm
        (l.map fun p => if Collided p then back p else forget p) := by
  refine ⟨arrived, fun p hp _ => arrived_moved p (hE p hp), ?_⟩
  have ha : l.any (·.core) = false := by simpa using hc
  have hf : findFinal count l = (l.flatMap coronaActions, count) := by
    unfold findFinal; rw [if_neg (by simp [ha])]
  have hcor : ∀ p : FP, coronaActions p =
      if Collided p then [⟨[p], [], p.pos.t⟩, ⟨[], [backpropagated p], p.tLast + 0.01⟩] else [] := by
    intro p
    unfold coronaActions Collided
    by_cases h1 : p.ncoll = 0
    · simp [h1]
    · by_cases h2 : p.pos.t = p.tLast
      · simp [h1, h2]
      · simp [h1, h2]
  unfold finalRound
  simp only [hf]
  refine (round_perm order ho l n _ ?_).trans ?_
  · intro a ha q hq
    obtain ⟨p, hp, hp'⟩ := List.mem_flatMap.1 ha
    rw [hcor] at hp'
    split_ifs at hp' with h
    · simp at hp'
      rcases hp' with rfl | rfl
      · simp at hq; subst hq; exact hn _ hp
      · simp at hq
    · simp at hp'
  · have h1 : (l.filter fun p =>
        !((l.flatMap coronaActions).any fun a => a.inc.any fun q => q.id == p.id)) =
        l.filter fun p => !(decide (Collided p)) := by
      apply List.filter_congr
      intro p hp
      congr 1
      rw [Bool.eq_iff_iff, List.any_eq_true, decide_eq_true_iff]
      constructor
      · rintro ⟨a, ha, h⟩
        obtain ⟨q, hq, hq'⟩ := List.mem_flatMap.1 ha
        rw [hcor] at hq'
        split_ifs at hq' with hm
        · simp at hq'
          rcases hq' with rfl | rfl
          · simp at h
            rw [id_unique hl hp hq h.symm]
            exact hm
          · simp at h
        · simp at hq'
      · intro h
        refine ⟨⟨[p], [], p.pos.t⟩, List.mem_flatMap.2 ⟨p, hp, ?_⟩, by simp⟩
        rw [hcor, if_pos h]; simp
    have h2 : (l.flatMap coronaActions).flatMap outs =
        (l.filter fun p => decide (Collided p)).map arrived := by
      clear ha hf hl hn hE hc h1
      induction l with
      | nil => rfl
      | cons p ps ih =>
        rw [List.flatMap_cons, List.flatMap_append, ih, hcor, List.filter_cons]
        by_cases h : Collided p
        · simp [h, outs_removal, outs_arrival]
        · simp [h]
    rw [h1, h2]
    refine (split_perm (fun p => decide (Collided p)) forget arrived l).trans ?_
    refine List.Perm.of_eq (List.map_congr_left fun p _ => ?_)
    simp

theorem findFinal_forget_nil (count : Nat × ℝ) (l : List FP)
    (h : ∀ p ∈ l.map forget, p.core = false ∧ ¬ Collided p) : (findFinal count l).1 = [] := by
  have h' : ∀ p ∈ l, p.core = false ∧ ¬ Collided p := fun p hp =>
    h (forget p) (List.mem_map_of_mem hp)
  unfold findFinal
  rw [if_neg (by simpa using fun p hp => (h' p hp).1), List.flatMap_eq_nil_iff]
  intro p hp
  have := (h' p hp).2
  unfold Collided at this
  unfold coronaActions
  by_cases h1 : p.ncoll = 0
  · simp [h1]
  · by_cases h2 : p.pos.t = p.tLast
    · simp [h1, h2]
    · exact absurd ⟨h1, h2⟩ this

/-- After that round the finder has nothing left to do: the loop over the final interactions
ends, and no particle is moved twice. -/
theorem C134_ends (order : List Free → List Free) (ho : AnyOrder order) (l : List FP) (n : Nat)
    (count : Nat × ℝ) (hl : (l.map (·.id)).Nodup) (hn : ∀ p ∈ l, p.id < n)
    (hE : ∀ p ∈ l, p.mom.t ≠ 0) (hc : ∀ p ∈ l, p.core = false) :
    (findFinal (finalRound order ((l, n), count)).2 (finalRound order ((l, n), count)).1.1).1 = [] := by
  classical
  obtain ⟨back, hb, hp⟩ := C134_corona order ho l n count hl hn hE hc
  apply findFinal_forget_nil
  intro p hpm
  obtain ⟨q, hq, rfl⟩ := List.mem_map.1 (hp.mem_iff.1 hpm)
  by_cases h : Collided q
  · simp only [h, if_true]
    have hm := hb q hq h
    exact ⟨hm.core, fun hh => hh.2 hm.last.symm⟩
  · simp only [h, if_false]
    exact ⟨hc q hq, h⟩

/-- The total four-momentum of the particles outside of the core does not change. -/
theorem C134_momentum (order : List Free → List Free) (ho : AnyOrder order) (l : List FP) (n : Nat)
    (count : Nat × ℝ) (hl : (l.map (·.id)).Nodup) (hn : ∀ p ∈ l, p.id < n)
    (hE : ∀ p ∈ l, p.mom.t ≠ 0) (hc : ∀ p ∈ l, p.core = false) :
    ((finalRound order ((l, n), count)).1.1.map (·.mom)).Perm (l.map (·.mom)) := by
  classical
  obtain ⟨back, hb, hp⟩ := C134_corona order ho l n count hl hn hE hc
  have h1 := hp.map (·.mom)
  rw [List.map_map, List.map_map] at h1
  have e1 : (FP.mom ∘ forget) = FP.mom := rfl
  have e2 : ∀ p ∈ l, ((fun p => p.mom) ∘ fun p => if Collided p then back p else forget p) p = p.mom := by
    intro p hp
    simp only [Function.comp]
    split_ifs with h
    · exact (hb p hp h).mom
    · rfl
  rw [List.map_congr_left e2] at h1
  exact h1

/-- Finding: the finder gives the particle the end of the evolution as formation time and 0 as
scaling factor, "so no further actions can be found for this particle"; performing the action
overwrites the formation time, and the particle counts as fully formed. -/
theorem C134_formation_false (o : FP) (power : ℝ) :
    (backpropagated o).tForm = o.pos.t ∧ (backpropagated o).scale = 0 ∧
    (arrived o).tForm = (arrived o).pos.t ∧
    xsecScaling (arrived o).scale (arrived o).tBegin (arrived o).tForm power (arrived o).pos.t = 1 := by
  have h : (arrived o).tForm = (arrived o).pos.t := by
    simp [arrived, forget, performed, backpropagated, FP.setFormation, V4.add, V4.mk']
  refine ⟨rfl, rfl, h, ?_⟩
  rw [h]
  simp [xsecScaling]

/-- Finding: a particle whose last collision is less than 0.01 fm ago is not moved back but
forward. -/
theorem C134_forward_false : ∃ o : FP, Collided o ∧ o.tLast < o.pos.t ∧ o.pos.t < (arrived o).pos.t := by
  refine ⟨⟨0, 0, 1, ⟨10, 0, 0, 0⟩, ⟨1, 0, 0, 0⟩, 0, 0, 1, false, 1, .twoToTwo, 9.995⟩, ?_, ?_, ?_⟩
  · exact ⟨by norm_num, by norm_num⟩
  · norm_num
  · rw [(arrived_moved _ (by norm_num)).time]
    norm_num

/-- The usual case: it arrives earlier. -/
theorem C134_back_partial (o : FP) (hE : o.mom.t ≠ 0) (h : o.tLast + 1 / 100 < o.pos.t) :
    (arrived o).pos.t < o.pos.t := by
  rw [(arrived_moved o hE).time]; exact h

/-- A removal and an addition in one action are refused. -/
theorem C134_two_lists (inc out : List FP) (t : ℝ) :
    (mkFree inc out t = .error .twoLists ↔ inc ≠ [] ∧ out ≠ []) := by
  unfold mkFree
  split_ifs with h <;> simp [h]

/-- The hypotheses hold for a list with a core particle, a spectator and a particle that
collided. -/
example : ∃ l : List FP, ∃ n, (l.map (·.id)).Nodup ∧ (∀ p ∈ l, p.id < n) ∧ (∀ p ∈ l, p.mom.t ≠ 0) ∧
    (∃ p ∈ l, p.core = true) ∧ (∃ p ∈ l, Collided p) ∧ ∃ p ∈ l, p.ncoll = 0 := by
  refine ⟨[⟨0, 0, 1, ⟨10, 0, 0, 0⟩, ⟨1, 0, 0, 0⟩, 0, 0, 1, true, 1, .twoToTwo, 3⟩,
    ⟨1, 0, 1, ⟨10, 0, 0, 0⟩, ⟨1, 0, 0, 0⟩, 0, 0, 1, false, 1, .twoToTwo, 3⟩,
    ⟨2, 0, 1, ⟨10, 0, 0, 0⟩, ⟨1, 0, 0, 0⟩, 0, 0, 1, false, 0, .none, 0⟩], 3, ?_⟩
  simp [Collided]

end Verif.Fluid
