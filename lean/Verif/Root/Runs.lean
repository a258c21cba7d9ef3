import Verif.Root.Props

/-!
C152: events, collisions, initial conditions, saving.
-/

namespace Verif.Root

open Verif.Bin (W64)

theorem run_append (B : ℕ) (o : Opts) (l r : List Call) : ∀ st, run B o st (l ++ r) = (match run B o st l with
    | .error e => .error e
    | .ok st' => run B o st' r) := by
  induction l with
  | nil => intro st; rfl
  | cons c l ih =>
    intro st
    rw [List.cons_append, run, run]
    cases step B o st c with
    | error e => rfl
    | ok st1 => exact ih st1

theorem common_s (m : Mem) (e : Info) (v : SVar) : (m.common e).s v = match v with
    | .modusL => .dbl e.length
    | .testP => .int e.testP
    | .currentT => .dbl e.time
    | .eKin => .dbl e.eKin
    | .eField => .dbl e.eField
    | .eTot => .dbl e.eTot
    | _ => m.s v := by
  cases v <;> rfl

/-! ### Particles at all output times -/

section AllTimes

variable {B : ℕ} {o : Opts}

theorem start_spec (hB : 0 < B) (hk : o.kind = .particles) (ho : o.only = .no) (st : St) (ev ens : ℕ) (ps : List RPart) (e : Info) :
    (eventStart B o st ev ens ps e).ptree = st.ptree ++ entries B (o.partExt || o.icExt) (headOf ev ens 0 e minusOne false) ps ∧
    (eventStart B o st ev ens ps e).counter = 1 ∧ (eventStart B o st ev ens ps e).event = ev ∧
    (eventStart B o st ev ens ps e).mem.s .impactB = .dbl minusOne ∧ (eventStart B o st ev ens ps e).mem.s .emptyEvent = .bool false := by
  have hr : Ready { st with
      event := ev
      ens := ens
      counter := 0
      mem := ((st.mem.common e).set .impactB (.dbl minusOne)).set .emptyEvent (.bool false) } e minusOne false := by
    constructor <;> simp [Mem.set, common_s]
  obtain ⟨h1, h2, h3, h4, _, _, _, _, h9⟩ := toTree_spec hB o _ ps hr
  unfold eventStart
  simp only
  rw [if_pos ⟨hk, ho⟩]
  simp only
  refine ⟨h1, by rw [h2], h3, ?_, ?_⟩
  · rw [h9 .impactB (by decide) (by decide) (by decide) (by decide)]; simp [Mem.set]
  · rw [h9 .emptyEvent (by decide) (by decide) (by decide) (by decide)]; simp [Mem.set]

theorem inter_spec (hB : 0 < B) (hk : o.kind = .particles) (ho : o.only = .no) (st : St) (ens : ℕ) (ps : List RPart) (e : Info)
    (hi : st.mem.s .impactB = .dbl minusOne) (he : st.mem.s .emptyEvent = .bool false) :
    (intermediate B o st ens ps e).ptree =
      st.ptree ++ entries B (o.partExt || o.icExt) (headOf st.event ens st.counter e minusOne false) ps ∧
    (intermediate B o st ens ps e).counter = st.counter + 1 ∧ (intermediate B o st ens ps e).event = st.event ∧
    (intermediate B o st ens ps e).mem.s .impactB = .dbl minusOne ∧ (intermediate B o st ens ps e).mem.s .emptyEvent = .bool false := by
  have hr : Ready { st with ens := ens, mem := st.mem.common e } e minusOne false := by
    constructor <;> simp [common_s, hi, he]
  obtain ⟨h1, h2, h3, h4, _, _, _, _, h9⟩ := toTree_spec hB o _ ps hr
  unfold intermediate
  simp only
  rw [if_pos ⟨hk, ho⟩]
  simp only
  refine ⟨h1, by rw [h2], h3, ?_, ?_⟩
  · rw [h9 .impactB (by decide) (by decide) (by decide) (by decide)]; simp [common_s, hi]
  · rw [h9 .emptyEvent (by decide) (by decide) (by decide) (by decide)]; simp [common_s, he]

theorem autosave_same (o : Opts) (st : St) : (autosave o st).ptree = st.ptree ∧ (autosave o st).ctree = st.ctree ∧
    (autosave o st).counter = st.counter ∧ (autosave o st).event = st.event ∧ (autosave o st).mem = st.mem ∧
    (autosave o st).ens = st.ens ∧ (autosave o st).freq = st.freq := by
  unfold autosave
  split_ifs <;> exact ⟨rfl, rfl, rfl, rfl, rfl, rfl, rfl⟩

theorem saveNow_same (o : Opts) (st : St) : (saveNow o st).ptree = st.ptree ∧ (saveNow o st).ctree = st.ctree ∧
    (saveNow o st).counter = st.counter ∧ (saveNow o st).event = st.event ∧ (saveNow o st).mem = st.mem ∧
    (saveNow o st).ens = st.ens ∧ (saveNow o st).freq = st.freq := by
  unfold saveNow
  split_ifs
  · exact autosave_same o st
  · exact ⟨rfl, rfl, rfl, rfl, rfl, rfl, rfl⟩

theorem end_spec (hB : 0 < B) (hk : o.kind = .particles) (st : St) (ens : ℕ) (ps : List RPart) (e : Info) :
    (eventEnd B o st ens ps e).ptree = st.ptree ++
      (if e.empty && decide (o.only = .ifNotEmpty) then [] else
        entries B (o.partExt || o.icExt) (headOf st.event ens st.counter e e.impact e.empty) ps) ∧
    (eventEnd B o st ens ps e).counter = st.counter ∧ (eventEnd B o st ens ps e).event = st.event := by
  have hr : Ready { st with ens := ens, mem := (((st.mem.common e).set .impactB (.dbl e.impact)).set .emptyEvent (.bool e.empty)) } e
      e.impact e.empty := by
    constructor <;> simp [Mem.set, common_s]
  obtain ⟨h1, h2, h3, h4, _, _, _, _, h9⟩ := toTree_spec hB o _ ps hr
  have e1 : endWrite B o st ens ps e = if o.kind = .particles ∧ ¬ (e.empty = true ∧ o.only = .ifNotEmpty) then
      particlesToTree B o { st with ens := ens, mem := (((st.mem.common e).set .impactB (.dbl e.impact)).set .emptyEvent (.bool e.empty)) } ps
      else { st with ens := ens, mem := (((st.mem.common e).set .impactB (.dbl e.impact)).set .emptyEvent (.bool e.empty)) } := rfl
  obtain ⟨k1, _, k3, k4, _⟩ := saveNow_same o (withFreq (endWrite B o st ens ps e) e.nEns)
  unfold eventEnd
  rw [k1, k3, k4]
  show (endWrite B o st ens ps e).ptree = _ ∧ (endWrite B o st ens ps e).counter = _ ∧ (endWrite B o st ens ps e).event = _
  rw [e1]
  by_cases hc : e.empty = true ∧ o.only = .ifNotEmpty
  · rw [if_neg (fun h => h.2 hc), if_pos (by simp [hc])]
    exact ⟨by simp, rfl, rfl⟩
  · rw [if_pos ⟨hk, hc⟩, if_neg (by simpa using hc)]
    exact ⟨h1, h2, h3⟩

theorem starts_run (hB : 0 < B) (hk : o.kind = .particles) (ho : o.only = .no) (ev : ℕ) (l : List Snap) (hl : l ≠ []) :
    ∀ (st : St) (i : ℕ), ∃ st', run B o st (startCalls ev i l) = .ok st' ∧
      st'.ptree = st.ptree ++ startEntries B (o.partExt || o.icExt) ev i l ∧ st'.counter = 1 ∧ st'.event = ev ∧
      st'.mem.s .impactB = .dbl minusOne ∧ st'.mem.s .emptyEvent = .bool false := by
  induction l with
  | nil => exact absurd rfl hl
  | cons x l ih =>
    intro st i
    obtain ⟨h1, h2, h3, h4, h5⟩ := start_spec hB hk ho st ev i x.1 x.2
    rw [startCalls, run, step]
    simp only
    cases l with
    | nil => exact ⟨_, rfl, by simpa [startEntries] using h1, h2, h3, h4, h5⟩
    | cons y l =>
      obtain ⟨st', g1, g2, g3⟩ := ih (by simp) (eventStart B o st ev i x.1 x.2) (i + 1)
      refine ⟨st', g1, ?_, g3⟩
      rw [g2, h1, List.append_assoc]
      rfl

theorem inters_run (hB : 0 < B) (hk : o.kind = .particles) (ho : o.only = .no) (l : List Snap) :
    ∀ (st : St) (i : ℕ), st.mem.s .impactB = .dbl minusOne → st.mem.s .emptyEvent = .bool false →
      ∃ st', run B o st (interCalls i l) = .ok st' ∧
      st'.ptree = st.ptree ++ interEntries B (o.partExt || o.icExt) st.event st.counter i l ∧ st'.counter = st.counter + l.length ∧
      st'.event = st.event ∧ st'.mem.s .impactB = .dbl minusOne ∧ st'.mem.s .emptyEvent = .bool false := by
  induction l with
  | nil => intro st i hi he; exact ⟨st, rfl, by simp [interEntries], rfl, rfl, hi, he⟩
  | cons x l ih =>
    intro st i hi he
    obtain ⟨h1, h2, h3, h4, h5⟩ := inter_spec hB hk ho st i x.1 x.2 hi he
    rw [interCalls, run, step]
    simp only
    obtain ⟨st', g1, g2, g3, g4, g5⟩ := ih (intermediate B o st i x.1 x.2) (i + 1) h4 h5
    refine ⟨st', g1, ?_, ?_, g4.trans h3, g5⟩
    · rw [g2, h1, h2, h3, interEntries, List.append_assoc]
    · rw [g3, h2, List.length_cons]; omega

theorem mids_run (hB : 0 < B) (hk : o.kind = .particles) (ho : o.only = .no) (ls : List (List Snap)) :
    ∀ (st : St), st.mem.s .impactB = .dbl minusOne → st.mem.s .emptyEvent = .bool false →
      ∃ st', run B o st (ls.flatMap (interCalls 0)) = .ok st' ∧
      st'.ptree = st.ptree ++ allInter B (o.partExt || o.icExt) st.event st.counter ls ∧
      st'.counter = st.counter + (ls.map List.length).sum ∧ st'.event = st.event := by
  induction ls with
  | nil => intro st _ _; exact ⟨st, rfl, by simp [allInter], rfl, rfl⟩
  | cons l ls ih =>
    intro st hi he
    obtain ⟨s1, h1, h2, h3, h4, h5, h6⟩ := inters_run hB hk ho l st 0 hi he
    obtain ⟨s2, g1, g2, g3, g4⟩ := ih s1 h5 h6
    refine ⟨s2, ?_, ?_, ?_, g4.trans h4⟩
    · rw [List.flatMap_cons, run_append, h1]; exact g1
    · rw [g2, h2, h3, h4, allInter, List.append_assoc]
    · rw [g3, h3, List.map_cons, List.sum_cons]; omega

theorem ends_run (hB : 0 < B) (hk : o.kind = .particles) (l : List Snap) :
    ∀ (st : St) (i : ℕ), ∃ st', run B o st (endCalls i l) = .ok st' ∧
      st'.ptree = st.ptree ++ endEntries B (o.partExt || o.icExt) (o.only = .ifNotEmpty) st.event st.counter i l ∧
      st'.counter = st.counter ∧ st'.event = st.event := by
  induction l with
  | nil => intro st i; exact ⟨st, rfl, by simp [endEntries], rfl, rfl⟩
  | cons x l ih =>
    intro st i
    obtain ⟨h1, h2, h3⟩ := end_spec hB hk st i x.1 x.2
    rw [endCalls, run, step]
    simp only
    obtain ⟨st', g1, g2, g3, g4⟩ := ih (eventEnd B o st i x.1 x.2) (i + 1)
    refine ⟨st', g1, ?_, g3.trans h2, g4.trans h3⟩
    rw [g2, h1, h2, h3, endEntries, List.append_assoc]

end AllTimes

/-! ### Only final particles -/

section Final

variable {B : ℕ} {o : Opts}

theorem startsF (ho : o.only ≠ .no) (ev : ℕ) (l : List Snap) (hl : l ≠ []) :
    ∀ (st : St) (i : ℕ), ∃ st', run B o st (startCalls ev i l) = .ok st' ∧ st'.ptree = st.ptree ∧ st'.counter = st.counter ∧ st'.event = ev := by
  induction l with
  | nil => exact absurd rfl hl
  | cons x l ih =>
    intro st i
    have hs : eventStart B o st ev i x.1 x.2 = { st with event := ev, ens := i, mem := st.mem.common x.2 } := by
      unfold eventStart
      simp only
      rw [if_neg (fun h => ho h.2)]
    rw [startCalls, run, step]
    simp only
    cases l with
    | nil => exact ⟨_, rfl, by rw [hs], by rw [hs], by rw [hs]⟩
    | cons y l =>
      obtain ⟨st', g1, g2, g3, g4⟩ := ih (by simp) (eventStart B o st ev i x.1 x.2) (i + 1)
      exact ⟨st', g1, by rw [g2, hs], by rw [g3, hs], g4⟩

theorem intersF (ho : o.only ≠ .no) (l : List Snap) :
    ∀ (st : St) (i : ℕ), ∃ st', run B o st (interCalls i l) = .ok st' ∧ st'.ptree = st.ptree ∧ st'.counter = st.counter ∧ st'.event = st.event := by
  induction l with
  | nil => intro st i; exact ⟨st, rfl, rfl, rfl, rfl⟩
  | cons x l ih =>
    intro st i
    have hs : intermediate B o st i x.1 x.2 = { st with ens := i, mem := st.mem.common x.2 } := by
      unfold intermediate
      simp only
      rw [if_neg (fun h => ho h.2)]
    rw [interCalls, run, step]
    simp only
    obtain ⟨st', g1, g2, g3, g4⟩ := ih (intermediate B o st i x.1 x.2) (i + 1)
    exact ⟨st', g1, by rw [g2, hs], by rw [g3, hs], by rw [g4, hs]⟩

theorem midsF (ho : o.only ≠ .no) (ls : List (List Snap)) :
    ∀ st : St, ∃ st', run B o st (ls.flatMap (interCalls 0)) = .ok st' ∧ st'.ptree = st.ptree ∧ st'.counter = st.counter ∧ st'.event = st.event := by
  induction ls with
  | nil => intro st; exact ⟨st, rfl, rfl, rfl, rfl⟩
  | cons l ls ih =>
    intro st
    obtain ⟨s1, h1, h2, h3, h4⟩ := intersF ho l st 0
    obtain ⟨s2, g1, g2, g3, g4⟩ := ih s1
    refine ⟨s2, ?_, g2.trans h2, g3.trans h3, g4.trans h4⟩
    rw [List.flatMap_cons, run_append, h1]; exact g1

end Final

/-- C152: one event adds exactly the entries of the specification to the tree of the particles. -/
theorem C152_event {B : ℕ} (hB : 0 < B) {o : Opts} (hk : o.kind = .particles) (e : Event) (he : e.starts ≠ []) (st : St)
    (hc : o.only = .no ∨ st.counter = 0) :
    ∃ st', run B o st e.calls = .ok st' ∧ st'.ptree = st.ptree ++ e.entries B o ∧ (o.only = .no ∨ st'.counter = 0) := by
  unfold Event.calls Event.entries
  by_cases ho : o.only = .no
  · obtain ⟨s1, h1, h2, h3, h4, h5, h6⟩ := starts_run hB hk ho e.ev e.starts he st 0
    obtain ⟨s2, g1, g2, g3, g4⟩ := mids_run hB hk ho e.mids s1 h5 h6
    obtain ⟨s3, f1, f2, f3, f4⟩ := ends_run hB hk e.ends s2 0
    refine ⟨s3, ?_, ?_, .inl ho⟩
    · rw [run_append, h1]
      simp only
      rw [run_append, g1]
      exact f1
    · simp only
      rw [if_pos ho, f2, g2, h2, g3, g4, h3, h4]
      have : decide (o.only = .ifNotEmpty) = false := by simp [ho]
      rw [this]
      simp only [List.append_assoc]
  · have hc0 : st.counter = 0 := hc.resolve_left ho
    obtain ⟨s1, h1, h2, h3, h4⟩ := startsF (B := B) ho e.ev e.starts he st 0
    obtain ⟨s2, g1, g2, g3, g4⟩ := midsF (B := B) ho e.mids s1
    obtain ⟨s3, f1, f2, f3, f4⟩ := ends_run hB hk e.ends s2 0
    refine ⟨s3, ?_, ?_, .inr (by rw [f3, g3, h3, hc0])⟩
    · rw [run_append, h1]
      simp only
      rw [run_append, g1]
      exact f1
    · simp only
      rw [if_neg ho, f2, g2, h2, g3, g4, h3, h4, hc0]

/-- C152: a run of events. -/
theorem C152_run {B : ℕ} (hB : 0 < B) {o : Opts} (hk : o.kind = .particles) (es : List Event) (he : ∀ e ∈ es, e.starts ≠ []) :
    ∃ st', run B o .init (es.flatMap Event.calls) = .ok st' ∧ st'.ptree = es.flatMap (Event.entries B o) := by
  have key : ∀ (es : List Event), (∀ e ∈ es, e.starts ≠ []) → ∀ st : St, (o.only = .no ∨ st.counter = 0) →
      ∃ st', run B o st (es.flatMap Event.calls) = .ok st' ∧ st'.ptree = st.ptree ++ es.flatMap (Event.entries B o) := by
    intro es
    induction es with
    | nil => intro _ st _; exact ⟨st, rfl, by simp⟩
    | cons e es ih =>
      intro he st hc
      obtain ⟨s1, h1, h2, h3⟩ := C152_event hB hk e (he e (by simp)) st hc
      obtain ⟨s2, g1, g2⟩ := ih (fun x hx => he x (by simp [hx])) s1 h3
      refine ⟨s2, ?_, ?_⟩
      · rw [List.flatMap_cons, run_append, h1]; exact g1
      · rw [g2, h2, List.flatMap_cons, List.append_assoc]
  obtain ⟨st', h1, h2⟩ := key es he .init (.inr rfl)
  exact ⟨st', h1, by rw [h2]; rfl⟩

/-- C152: interactions do not touch the tree of the particles: a history may contain them anywhere. -/
theorem C152_actions_ignored {B : ℕ} {o : Opts} (hk : o.kind = .particles) (cs : List Call) :
    ∀ st, run B o st cs = run B o st (cs.filter fun c => match c with | .act .. => false | _ => true) := by
  induction cs with
  | nil => intro st; rfl
  | cons c cs ih =>
    intro st
    cases c with
    | act f i u w pw =>
      rw [List.filter_cons_of_neg (by simp), ← ih, run, step, interaction, hk]
    | start ev ens ps e => rw [List.filter_cons_of_pos (by simp), run, run]; exact ih _
    | inter ens ps e => rw [List.filter_cons_of_pos (by simp), run, run]; exact ih _
    | fin ens ps e => rw [List.filter_cons_of_pos (by simp), run, run]; exact ih _

/-! ### Collisions -/

/-- An entry of the tree of the collisions. -/
def collision (ext : Bool) (ev ens : ℕ) (inc out : List RPart) (w pw : W64) : Entry :=
  [("ev", .one (.int ev)), ("ens", .one (.int ens)), ("nin", .one (.int inc.length)), ("nout", .one (.int out.length)),
    ("npart", .one (.int (inc.length + out.length))), ("weight", .one (.dbl w)), ("partial_weight", .one (.dbl pw))] ++
  partLeaves (inc ++ out) ++ (if ext then extLeaves (inc ++ out) else [])

/-- The entries of a history: every interaction, with the event of the last start and the ensemble of the last output. -/
def collisions (ext : Bool) : ℕ → ℕ → List Call → List Entry
  | _, _, [] => []
  | _, _, .start ev ens _ _ :: cs => collisions ext ev ens cs
  | ev, _, .inter ens _ _ :: cs => collisions ext ev ens cs
  | ev, _, .fin ens _ _ :: cs => collisions ext ev ens cs
  | ev, ens, .act _ inc out w pw :: cs => collision ext ev ens inc out w pw :: collisions ext ev ens cs

theorem putAll_ok {B : ℕ} (ext : Bool) (ps : List RPart) : ∀ i m, i + ps.length ≤ B → putAll B ext ps i m = .ok (putMany ext m i ps) := by
  induction ps with
  | nil => intro i m _; rfl
  | cons p ps ih =>
    intro i m h
    simp only [List.length_cons] at h
    rw [putAll, if_neg (by omega), ih _ _ (by omega)]
    rfl

theorem set_same (m : Mem) (v : SVar) : m.set v (m.s v) = m := by
  cases m
  simp [Mem.set]

theorem collision_spec {B : ℕ} {o : Opts} (st : St) (inc out : List RPart) (w pw : W64) (h : inc.length + out.length ≤ B) :
    ∃ m, collisionsToTree B o st inc out w pw =
      .ok { st with mem := m, ctree := st.ctree ++ [collision o.collExt st.event st.ens inc out w pw] } := by
  unfold collisionsToTree
  simp only
  rw [putAll_ok _ _ _ _ (by rw [List.length_append]; omega)]
  simp only
  generalize hm : ((((((st.mem.set .ev (.int st.event)).set .ens (.int st.ens)).set .nin (.int inc.length)).set .nout (.int out.length)).set
    .npart (.int (inc.length + out.length))).set .wgt (.dbl w)).set .parWgt (.dbl pw) = m
  refine ⟨putMany o.collExt m 0 (inc ++ out), ?_⟩
  have goal : fill (collisionBranches o.collExt) (putMany o.collExt m 0 (inc ++ out)) = collision o.collExt st.event st.ens inc out w pw := by
    have hs : ∀ v, (putMany o.collExt m 0 (inc ++ out)).s v = m.s v := fun v => by rw [putMany_s]
    have hnp : m.s .npart = .int ((inc ++ out).length : ℕ) := by rw [← hm]; simp [Mem.set]
    have hself : (putMany o.collExt m 0 (inc ++ out)).set .npart (.int ((inc ++ out).length : ℕ)) = putMany o.collExt m 0 (inc ++ out) := by
      rw [← hnp, ← hs .npart, set_same]
    have hp := partBranches_read o.collExt m (inc ++ out) _ rfl (.int ((inc ++ out).length : ℕ)) rfl
    rw [hself] at hp
    unfold fill collisionBranches collision
    rw [List.map_append, List.map_append, hp]
    have e1 : m.s .ev = .int st.event := by rw [← hm]; simp [Mem.set]
    have e2 : m.s .ens = .int st.ens := by rw [← hm]; simp [Mem.set]
    have e3 : m.s .nin = .int inc.length := by rw [← hm]; simp [Mem.set]
    have e4 : m.s .nout = .int out.length := by rw [← hm]; simp [Mem.set]
    have e5 : m.s .npart = .int (inc.length + out.length) := by rw [← hm]; simp [Mem.set]
    have e6 : m.s .wgt = .dbl w := by rw [← hm]; simp [Mem.set]
    have e7 : m.s .parWgt = .dbl pw := by rw [← hm]; simp [Mem.set]
    simp only [List.map_cons, List.map_nil, Branch.read, hs, e1, e2, e3, e4, e5, e6, e7]
    cases hx : o.collExt with
    | false => rfl
    | true =>
      rw [hx] at hself
      have he := extBranches_read m (inc ++ out) _ rfl (.int ((inc ++ out).length : ℕ)) rfl
      rw [hself] at he
      rw [if_pos rfl, if_pos rfl, he]
  rw [goal]

theorem end_labels {B : ℕ} {o : Opts} (hk : o.kind ≠ .particles) (st : St) (ens : ℕ) (ps : List RPart) (e : Info) :
    (eventEnd B o st ens ps e).event = st.event ∧ (eventEnd B o st ens ps e).ens = ens ∧ (eventEnd B o st ens ps e).ctree = st.ctree ∧
    (eventEnd B o st ens ps e).ptree = st.ptree ∧ (eventEnd B o st ens ps e).counter = st.counter ∧
    (eventEnd B o st ens ps e).mem = (((st.mem.common e).set .impactB (.dbl e.impact)).set .emptyEvent (.bool e.empty)) := by
  have e1 : endWrite B o st ens ps e =
      { st with ens := ens, mem := (((st.mem.common e).set .impactB (.dbl e.impact)).set .emptyEvent (.bool e.empty)) } := by
    unfold endWrite
    simp only
    exact if_neg (fun h => hk h.1)
  obtain ⟨k1, k2, k3, k4, k5, k6, _⟩ := saveNow_same o (withFreq (endWrite B o st ens ps e) e.nEns)
  unfold eventEnd
  rw [k1, k2, k3, k4, k5, k6, e1]
  exact ⟨rfl, rfl, rfl, rfl, rfl, rfl⟩

theorem start_labels {B : ℕ} {o : Opts} (hk : o.kind ≠ .particles) (st : St) (ev ens : ℕ) (ps : List RPart) (e : Info) :
    eventStart B o st ev ens ps e = { st with event := ev, ens := ens, mem := st.mem.common e } := by
  unfold eventStart
  simp only
  rw [if_neg (fun h => hk h.1)]

theorem inter_labels {B : ℕ} {o : Opts} (hk : o.kind ≠ .particles) (st : St) (ens : ℕ) (ps : List RPart) (e : Info) :
    intermediate B o st ens ps e = { st with ens := ens, mem := st.mem.common e } := by
  unfold intermediate
  simp only
  rw [if_neg (fun h => hk h.1)]

/-- C152: every interaction becomes one entry with all its particles, weights and the number of the event. -/
theorem C152_collisions {B : ℕ} {o : Opts} (hk : o.kind = .collisions) (cs : List Call)
    (hb : ∀ c ∈ cs, match c with | .act _ inc out _ _ => inc.length + out.length ≤ B | _ => True) :
    ∀ st, ∃ st', run B o st cs = .ok st' ∧ st'.ctree = st.ctree ++ collisions o.collExt st.event st.ens cs := by
  have hk' : o.kind ≠ .particles := by rw [hk]; decide
  induction cs with
  | nil => intro st; exact ⟨st, rfl, by simp [collisions]⟩
  | cons c cs ih =>
    intro st
    have ih' := ih fun d hd => hb d (by simp [hd])
    cases c with
    | start ev ens ps e =>
      obtain ⟨st', h1, h2⟩ := ih' (eventStart B o st ev ens ps e)
      refine ⟨st', h1, ?_⟩
      rw [h2, start_labels hk', collisions]
    | inter ens ps e =>
      obtain ⟨st', h1, h2⟩ := ih' (intermediate B o st ens ps e)
      refine ⟨st', h1, ?_⟩
      rw [h2, inter_labels hk', collisions]
    | fin ens ps e =>
      obtain ⟨st', h1, h2⟩ := ih' (eventEnd B o st ens ps e)
      obtain ⟨a1, a2, a3, _⟩ := end_labels (B := B) hk' st ens ps e
      refine ⟨st', h1, ?_⟩
      rw [h2, a1, a2, a3, collisions]
    | act f inc out w pw =>
      obtain ⟨m, hm⟩ := collision_spec (o := o) st inc out w pw (hb (.act f inc out w pw) (by simp))
      obtain ⟨st', h1, h2⟩ := ih' { st with mem := m, ctree := st.ctree ++ [collision o.collExt st.event st.ens inc out w pw] }
      refine ⟨st', ?_, ?_⟩
      · rw [run, step, interaction, hk]
        simp only
        rw [hm]
        exact h1
      · rw [h2, collisions, List.append_assoc]
        rfl

/-! ### Initial conditions -/

/-- The entries of a history: every fluidization, with the properties of the event from the last output, and the impact parameter of the last
end of an event. -/
def initials (B : ℕ) (ext : Bool) : ℕ → ℕ → Info → W64 → Bool → List Call → List Entry
  | _, _, _, _, _, [] => []
  | _, _, _, b, z, .start ev ens _ e :: cs => initials B ext ev ens e b z cs
  | ev, _, _, b, z, .inter ens _ e :: cs => initials B ext ev ens e b z cs
  | ev, _, _, _, _, .fin ens _ e :: cs => initials B ext ev ens e e.impact e.empty cs
  | ev, ens, e, b, z, .act fluid inc _ _ _ :: cs =>
    (if fluid then entries B ext (headOf ev ens 0 e b z) inc else []) ++ initials B ext ev ens e b z cs

/-- C152: every fluidization becomes an entry of the tree of the initial conditions. -/
theorem C152_initial {B : ℕ} (hB : 0 < B) {o : Opts} (hk : o.kind = .initial) (cs : List Call) :
    ∀ (st : St) (e : Info) (b : W64) (z : Bool), st.counter = 0 → Ready st e b z →
      ∃ st', run B o st cs = .ok st' ∧ st'.ptree = st.ptree ++ initials B (o.partExt || o.icExt) st.event st.ens e b z cs := by
  have hk' : o.kind ≠ .particles := by rw [hk]; decide
  induction cs with
  | nil => intro st e b z _ _; exact ⟨st, rfl, by simp [initials]⟩
  | cons c cs ih =>
    intro st e b z hc hr
    cases c with
    | start ev ens ps e' =>
      have hr' : Ready (eventStart B o st ev ens ps e') e' b z := by
        rw [start_labels hk']
        constructor <;> simp [common_s, hr.impact, hr.empty]
      obtain ⟨st', h1, h2⟩ := ih (eventStart B o st ev ens ps e') e' b z (by rw [start_labels hk']; exact hc) hr'
      refine ⟨st', h1, ?_⟩
      rw [h2, start_labels hk', initials]
    | inter ens ps e' =>
      have hr' : Ready (intermediate B o st ens ps e') e' b z := by
        rw [inter_labels hk']
        constructor <;> simp [common_s, hr.impact, hr.empty]
      obtain ⟨st', h1, h2⟩ := ih (intermediate B o st ens ps e') e' b z (by rw [inter_labels hk']; exact hc) hr'
      refine ⟨st', h1, ?_⟩
      rw [h2, inter_labels hk', initials]
    | fin ens ps e' =>
      obtain ⟨a1, a2, a3, a4, a5, a6⟩ := end_labels (B := B) hk' st ens ps e'
      have hr' : Ready (eventEnd B o st ens ps e') e' e'.impact e'.empty := by
        constructor <;> (rw [a6]; simp [common_s, Mem.set])
      obtain ⟨st', h1, h2⟩ := ih (eventEnd B o st ens ps e') e' e'.impact e'.empty (by rw [a5, hc]) hr'
      refine ⟨st', h1, ?_⟩
      rw [h2, a1, a2, a4, initials]
    | act f inc out w pw =>
      cases f with
      | false =>
        obtain ⟨st', h1, h2⟩ := ih st e b z hc hr
        refine ⟨st', ?_, ?_⟩
        · rw [run, step, interaction, hk]
          exact h1
        · rw [h2, initials]; rfl
      | true =>
        obtain ⟨t1, t2, t3, t4, _, _, _, _, t9⟩ := toTree_spec hB o st inc hr
        have hr' : Ready (particlesToTree B o st inc) e b z := by
          constructor <;> (rw [t9 _ (by decide) (by decide) (by decide) (by decide)]) <;> first
            | exact hr.testP | exact hr.length | exact hr.time | exact hr.impact | exact hr.empty | exact hr.eKin | exact hr.eField | exact hr.eTot
        obtain ⟨st', h1, h2⟩ := ih (particlesToTree B o st inc) e b z (by rw [t2, hc]) hr'
        refine ⟨st', ?_, ?_⟩
        · rw [run, step, interaction, hk]
          exact h1
        · rw [h2, t1, t3, t4, hc, initials, if_pos rfl, List.append_assoc]

/-! ### Saving -/

/-- C152: when the number of the event is a multiple of the frequency, everything written so far is saved at the end of each ensemble. -/
theorem C152_autosave {B : ℕ} {o : Opts} (st : St) (ens : ℕ) (ps : List RPart) (e : Info) {f : ℕ} (hf : st.freq.getD (frequency e.nEns) = f)
    (h0 : 0 < (eventEnd B o st ens ps e).event) (h1 : (eventEnd B o st ens ps e).event % f = 0) :
    (o.kind = .collisions → (eventEnd B o st ens ps e).csaved = (eventEnd B o st ens ps e).ctree) ∧
    (o.kind ≠ .collisions → (eventEnd B o st ens ps e).psaved = (eventEnd B o st ens ps e).ptree) := by
  have hfr : (endWrite B o st ens ps e).freq = st.freq := by
    unfold endWrite particlesToTree
    simp only
    split_ifs <;> rfl
  unfold eventEnd at h0 h1 ⊢
  rw [(saveNow_same o _).2.2.2.1] at h0 h1
  unfold saveNow
  rw [if_pos ⟨h0, by unfold withFreq at h1 ⊢; simp only [Option.getD_some]; rw [hfr, hf]; exact h1⟩]
  unfold autosave
  constructor
  · intro hk; rw [if_pos hk]
  · intro hk; rw [if_neg hk]

/-- C152: the frequency is at least one event, and at most 1000. -/
theorem C152_frequency (n : ℕ) (hn : 0 < n) : 1 ≤ frequency n ∧ frequency n ≤ 1000 := by
  unfold frequency
  have : 1000 / n ≤ 1000 := Nat.div_le_self _ _
  generalize 1000 / n = k at this ⊢
  split_ifs <;> omega

end Verif.Root
