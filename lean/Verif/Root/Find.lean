import Verif.Root.Runs

/-!
C152: examples and deviations.
-/

namespace Verif.Root

open Verif.Bin (W64)

/-- A particle with a given number. -/
def demo (n : ℤ) : RPart := ⟨n, 211, 1, 0, 0, (1, 2, 3, 4), (5, 6, 7, 8), 0, 0, 0, 0, 0, 0, 0, 0⟩

/-- Properties of an event with two ensembles and impact parameter `b`. -/
def demoInfo (b : W64) : Info := ⟨b, 0, 0, 0, 0, 0, 1, 2, false⟩

/-- The output of particles at all times. -/
def allTimes : Opts := ⟨.particles, .no, false, false, false⟩

/-- The value of a branch of an entry. -/
def look (e : Entry) (name : String) : Option Leaf := e.lookup name

/-- An event of one ensemble meets the hypotheses of `C152_event`; its three outputs have the numbers 0, 1 and 2. -/
example : (⟨3, [([demo 0], demoInfo 9)], [[([demo 0, demo 1], demoInfo 9)]], [([demo 1], demoInfo 9)]⟩ : Event).starts ≠ [] ∧
    ((⟨3, [([demo 0], demoInfo 9)], [[([demo 0, demo 1], demoInfo 9)]], [([demo 1], demoInfo 9)]⟩ : Event).entries bufferSize allTimes).map
      (fun e => (look e "ev", look e "tcounter", look e "npart")) =
    [(some (.one (.int 3)), some (.one (.int 0)), some (.one (.int 1))), (some (.one (.int 3)), some (.one (.int 1)), some (.one (.int 2))),
      (some (.one (.int 3)), some (.one (.int 2)), some (.one (.int 1)))] := by
  refine ⟨by simp, ?_⟩
  have h1 : ∀ h a, entries bufferSize false h [a] = [block false h [a]] := fun h a => by
    rw [entries, C152_blocks_small _ (by simp [bufferSize]) (by simp)]; rfl
  have h2 : ∀ h a b, entries bufferSize false h [a, b] = [block false h [a, b]] := fun h a b => by
    rw [entries, C152_blocks_small _ (by simp [bufferSize]) (by simp)]; rfl
  simp only [Event.entries, allTimes, if_true, Bool.or_self, startEntries, allInter, interEntries, endEntries, h1, h2]
  decide +kernel

/-- C152: when there are more particles than the buffer holds, particles are missing: of every `B + 1` particles one is not written. -/
theorem C152_lost_false (st : St) (e : Info) (impact : W64) (empty : Bool) (hr : Ready st e impact empty) (o : Opts) (ps : List RPart)
    (h : bufferSize < ps.length) :
    (particlesToTree bufferSize o st ps).ptree = st.ptree ++ (blocks bufferSize ps).map
      (block (o.partExt || o.icExt) (headOf st.event st.ens st.counter e impact empty)) ∧
    ((blocks bufferSize ps).map List.length).sum = ps.length - ps.length / 500001 ∧
    ((blocks bufferSize ps).map List.length).sum < ps.length := by
  have h1 := C152_blocks_count (B := bufferSize) ps.length ps rfl
  refine ⟨(toTree_spec (by decide) o st ps hr).1, h1, ?_⟩
  rw [h1]
  have : 0 < ps.length / (bufferSize + 1) := Nat.div_pos (by omega) (by omega)
  omega

/-- C152: a buffer of two particles and the particles 0 to 4: the entries have 0, 1 and 3, 4. -/
example : (blocks 2 [demo 0, demo 1, demo 2, demo 3, demo 4]).map (List.map RPart.id) = [[0, 1], [3, 4]] := by
  rw [blocks, dif_neg (by simp)]
  show (_ :: (blocks 2 [demo 3, demo 4])).map _ = _
  rw [C152_blocks_small _ (by simp) (by simp)]
  decide +kernel

/-- C152: with two ensembles, outputs at the same time have different numbers. -/
theorem C152_ensemble_number_false (ev : ℕ) (a b c d : Snap) (ha : a.1.length = 1) (hb : b.1.length = 1) (hc : c.1.length = 1)
    (hd : d.1.length = 1) : ∃ s1 s2 m1 m2, (⟨ev, [a, b], [[c, d]], []⟩ : Event).entries bufferSize allTimes = [s1, s2, m1, m2] ∧
      look s1 "tcounter" = some (.one (.int 0)) ∧ look s2 "tcounter" = some (.one (.int 0)) ∧
      look m1 "tcounter" = some (.one (.int 1)) ∧ look m2 "tcounter" = some (.one (.int 2)) := by
  have h1 : ∀ (h : Head) (x : Snap), x.1.length = 1 → entries bufferSize false h x.1 = [block false h x.1] := fun h x hx => by
    rw [entries, C152_blocks_small _ (by rw [hx]; decide) (by intro h0; rw [h0] at hx; simp at hx)]; rfl
  refine ⟨block false (headOf ev 0 0 a.2 minusOne false) a.1, block false (headOf ev 1 0 b.2 minusOne false) b.1,
    block false (headOf ev 0 1 c.2 minusOne false) c.1, block false (headOf ev 1 2 d.2 minusOne false) d.1, ?_, ?_⟩
  · simp only [Event.entries, allTimes, if_true, Bool.or_self, startEntries, allInter, interEntries, endEntries, h1 _ a ha, h1 _ b hb, h1 _ c hc,
      h1 _ d hd]
    rfl
  · exact ⟨rfl, rfl, rfl, rfl⟩

/-- C152: an output without particles leaves no entry, so that neither the event nor its impact parameter are in the file. -/
theorem C152_empty_false {B : ℕ} (hB : 0 < B) {o : Opts} (hk : o.kind = .particles) (ho : o.only = .yes) (ev : ℕ) (e : Info) :
    ∃ st', run B o .init (⟨ev, [([], e)], [], [([], e)]⟩ : Event).calls = .ok st' ∧ st'.ptree = [] := by
  obtain ⟨st', h1, h2, _⟩ := C152_event hB hk ⟨ev, [([], e)], [], [([], e)]⟩ (by simp) .init (.inr rfl)
  refine ⟨st', h1, ?_⟩
  rw [h2]
  have : blocks B [] = [] := by rw [blocks]; simp
  simp [Event.entries, ho, endEntries, entries, this, St.init]

/-- C152: the ensemble of an interaction is not known to the output: after the start of two ensembles all interactions get the number of the
second one, whichever ensemble they are in. -/
theorem C152_interaction_ensemble_false (i1 i2 : Info) (p q : List RPart) (inc out : List RPart) (w pw : W64) :
    collisions false 0 0 [.start 0 0 p i1, .start 0 1 q i2, .act false inc out w pw] = [collision false 0 1 inc out w pw] := rfl

/-- C152: the entries of the initial conditions have the impact parameter of the event before. -/
theorem C152_initial_impact_false (B : ℕ) (i : Info) (e0 e1 : Info) (ps inc : List RPart) :
    initials B false 0 0 i 0 false [.start 0 0 ps e0, .fin 0 ps e0, .start 1 0 ps e1, .act true inc [] 0 0] =
      entries B false (headOf 1 0 0 e1 e0.impact e0.empty) inc := by
  simp [initials]

/-- The state after construction meets the hypotheses of `C152_initial`. -/
example : St.init.counter = 0 ∧ Ready St.init ⟨0, 0, 0, 0, 0, 0, 0, 1, false⟩ 0 false := by
  refine ⟨rfl, ?_⟩
  constructor <;> rfl

/-- C152: an interaction with more particles than the buffer holds is written beyond the arrays. -/
theorem C152_collision_overflow_false {B : ℕ} (o : Opts) (hk : o.kind = .collisions) (st : St) (out : List RPart) (w pw : W64)
    (h : B < out.length) : run B o st [.act false [] out w pw] = .error .outOfBuffer := by
  have key : ∀ (ps : List RPart) (i : ℕ) (m : Mem), i ≤ B → B < i + ps.length → putAll B o.collExt ps i m = .error .outOfBuffer := by
    intro ps
    induction ps with
    | nil => intro i m h1 h2; simp at h2; omega
    | cons p ps ih =>
      intro i m h1 h2
      simp only [List.length_cons] at h2
      rw [putAll]
      split_ifs with hi
      · rfl
      · exact ih _ _ (by omega) (by omega)
  rw [run, step, interaction, hk]
  simp only
  unfold collisionsToTree
  simp only
  rw [List.nil_append, key _ _ _ (Nat.zero_le _) (by omega)]

end Verif.Root
