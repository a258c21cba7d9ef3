import Verif.Root.Model
import Mathlib.Tactic.SplitIfs
import Mathlib.Data.List.Basic

/-!
C152: the ROOT output.

The specification: an output of particles is one entry (more, if there are more particles than the buffer holds) which contains event,
ensemble, number of the output, properties of the event and the properties of all particles under the names of the user guide.
-/

namespace Verif.Root

open Verif.Bin (W64)

/-! ### Specification -/

/-- The properties of the particles which are always written. -/
def partLeaves (ps : List RPart) : Entry :=
  [("id", .many (ps.map fun p => .int p.id)), ("pdgcode", .many (ps.map fun p => .int p.pdg)), ("charge", .many (ps.map fun p => .int p.charge)),
    ("formation_time", .many (ps.map fun p => .dbl p.formation)), ("time_last_collision", .many (ps.map fun p => .dbl p.lastColl)),
    ("p0", .many (ps.map fun p => .dbl p.mom.1)), ("px", .many (ps.map fun p => .dbl p.mom.2.1)),
    ("py", .many (ps.map fun p => .dbl p.mom.2.2.1)), ("pz", .many (ps.map fun p => .dbl p.mom.2.2.2)),
    ("t", .many (ps.map fun p => .dbl p.pos.1)), ("x", .many (ps.map fun p => .dbl p.pos.2.1)),
    ("y", .many (ps.map fun p => .dbl p.pos.2.2.1)), ("z", .many (ps.map fun p => .dbl p.pos.2.2.2))]

/-- The properties of the particles in the extended output. -/
def extLeaves (ps : List RPart) : Entry :=
  [("ncoll", .many (ps.map fun p => .int p.ncoll)), ("xsecfac", .many (ps.map fun p => .dbl p.xsec)),
    ("proc_id_origin", .many (ps.map fun p => .int p.procId)), ("proc_type_origin", .many (ps.map fun p => .int p.procType)),
    ("pdg_mother1", .many (ps.map fun p => .int p.mother1)), ("pdg_mother2", .many (ps.map fun p => .int p.mother2)),
    ("baryon_number", .many (ps.map fun p => .int p.baryon)), ("strangeness", .many (ps.map fun p => .int p.strange))]

/-- What an entry says about the event. -/
structure Head where
  ev : ℤ
  ens : ℤ
  tcounter : ℤ
  testP : ℤ
  length : W64
  time : W64
  impact : W64
  empty : Bool
  eKin : W64
  eField : W64
  eTot : W64

/-- An entry of the tree of the particles. -/
def block (ext : Bool) (h : Head) (ps : List RPart) : Entry :=
  [("ev", .one (.int h.ev)), ("ens", .one (.int h.ens)), ("tcounter", .one (.int h.tcounter)), ("npart", .one (.int ps.length)),
    ("test_p", .one (.int h.testP)), ("modus_l", .one (.dbl h.length)), ("current_t", .one (.dbl h.time)), ("impact_b", .one (.dbl h.impact)),
    ("empty_event", .one (.bool h.empty))] ++ partLeaves ps ++
  [("E_kinetic_tot", .one (.dbl h.eKin)), ("E_fields_tot", .one (.dbl h.eField)), ("E_tot", .one (.dbl h.eTot))] ++
  (if ext then extLeaves ps else [])

/-- The groups of particles which share an entry: `B` particles per entry, and after a full entry one particle is left out. -/
def blocks (B : ℕ) (ps : List RPart) : List (List RPart) :=
  if _h : ps.length ≤ B then (if ps = [] then [] else [ps]) else ps.take B :: blocks B (ps.drop (B + 1))
termination_by ps.length
decreasing_by simp only [List.length_drop]; omega

/-- The head of an entry for the output of a snapshot. -/
def headOf (ev ens tc : ℕ) (e : Info) (impact : W64) (empty : Bool) : Head :=
  ⟨ev, ens, tc, e.testP, e.length, e.time, impact, empty, e.eKin, e.eField, e.eTot⟩

/-- The entries of an output of particles. -/
def entries (B : ℕ) (ext : Bool) (h : Head) (ps : List RPart) : List Entry := (blocks B ps).map (block ext h)

/-- Particles and properties of an ensemble at some time. -/
abbrev Snap := List RPart × Info

/-- An event: the ensembles at the start, at the output times, and at the end. -/
structure Event where
  ev : ℕ
  starts : List Snap
  mids : List (List Snap)
  ends : List Snap

/-- The calls at the start, for the ensembles `i`, `i + 1`, ... -/
def startCalls (ev : ℕ) : ℕ → List Snap → List Call
  | _, [] => []
  | i, x :: l => .start ev i x.1 x.2 :: startCalls ev (i + 1) l

/-- The calls at an output time. -/
def interCalls : ℕ → List Snap → List Call
  | _, [] => []
  | i, x :: l => .inter i x.1 x.2 :: interCalls (i + 1) l

/-- The calls at the end. -/
def endCalls : ℕ → List Snap → List Call
  | _, [] => []
  | i, x :: l => .fin i x.1 x.2 :: endCalls (i + 1) l

/-- The calls of an event, without the interactions. -/
def Event.calls (e : Event) : List Call := startCalls e.ev 0 e.starts ++ (e.mids.flatMap (interCalls 0) ++ endCalls 0 e.ends)

/-- The entries at the start of an event: number 0, no impact parameter. -/
def startEntries (B : ℕ) (ext : Bool) (ev : ℕ) : ℕ → List Snap → List Entry
  | _, [] => []
  | i, x :: l => entries B ext (headOf ev i 0 x.2 minusOne false) x.1 ++ startEntries B ext ev (i + 1) l

/-- The entries at an output time: the numbers go on from ensemble to ensemble. -/
def interEntries (B : ℕ) (ext : Bool) (ev : ℕ) : ℕ → ℕ → List Snap → List Entry
  | _, _, [] => []
  | tc, i, x :: l => entries B ext (headOf ev i tc x.2 minusOne false) x.1 ++ interEntries B ext ev (tc + 1) (i + 1) l

/-- The entries at all output times. -/
def allInter (B : ℕ) (ext : Bool) (ev : ℕ) : ℕ → List (List Snap) → List Entry
  | _, [] => []
  | tc, l :: r => interEntries B ext ev tc 0 l ++ allInter B ext ev (tc + l.length) r

/-- The entries at the end: with the impact parameter; empty events can be left out. -/
def endEntries (B : ℕ) (ext : Bool) (skip : Bool) (ev tc : ℕ) : ℕ → List Snap → List Entry
  | _, [] => []
  | i, x :: l => (if x.2.empty && skip then [] else entries B ext (headOf ev i tc x.2 x.2.impact x.2.empty) x.1) ++
      endEntries B ext skip ev tc (i + 1) l

/-- All entries of an event. -/
def Event.entries (B : ℕ) (o : Opts) (e : Event) : List Entry :=
  let ext := o.partExt || o.icExt
  if o.only = .no then
    startEntries B ext e.ev 0 e.starts ++ (allInter B ext e.ev 1 e.mids ++
      endEntries B ext false e.ev (1 + (e.mids.map List.length).sum) 0 e.ends)
  else endEntries B ext (o.only = .ifNotEmpty) e.ev 0 0 e.ends

/-! ### The buffer -/

/-- Writing of particles from place `i`. -/
def putMany (ext : Bool) : Mem → ℕ → List RPart → Mem
  | m, _, [] => m
  | m, i, p :: ps => putMany ext (put ext m i p) (i + 1) ps

theorem putMany_s (ext : Bool) (ps : List RPart) : ∀ m i, (putMany ext m i ps).s = m.s := by
  induction ps with
  | nil => intro m i; rfl
  | cons p ps ih => intro m i; rw [putMany, ih]; rfl

theorem putMany_a (ext : Bool) {v : AVar} (hv : (v.isExt && !ext) = false) (ps : List RPart) :
    ∀ m i j, (putMany ext m i ps).a v j = if h : i ≤ j ∧ j - i < ps.length then (ps[j - i]'h.2).field v else m.a v j := by
  induction ps with
  | nil => intro m i j; simp [putMany]
  | cons p ps ih =>
    intro m i j
    rw [putMany, ih]
    by_cases h1 : i + 1 ≤ j ∧ j - (i + 1) < ps.length
    · rw [dif_pos h1, dif_pos ⟨by omega, by simp only [List.length_cons]; omega⟩]
      have : j - i = (j - (i + 1)) + 1 := by omega
      simp only [this, List.getElem_cons_succ]
    · rw [dif_neg h1]
      simp only [put, hv, Bool.false_eq_true, if_false]
      by_cases hij : j = i
      · subst hij
        rw [dif_pos ⟨Nat.le_refl _, by simp⟩]
        simp
      · rw [Function.update_of_ne hij, dif_neg]
        simp only [List.length_cons]
        omega

theorem arr_eq (ext : Bool) {v : AVar} (hv : (v.isExt && !ext) = false) (ps : List RPart) (m : Mem) :
    (List.range ps.length).map ((putMany ext m 0 ps).a v) = ps.map fun p => p.field v := by
  refine List.ext_getElem (by simp) ?_
  intro j h1 h2
  simp only [List.length_map, List.length_range] at h1
  simp only [List.getElem_map, List.getElem_range]
  rw [putMany_a ext hv, dif_pos ⟨Nat.zero_le _, by omega⟩]
  simp

/-- The scalars of a memory say what a head says. -/
structure Says (s : SVar → Val) (h : Head) : Prop where
  ev : s .ev = .int h.ev
  ens : s .ens = .int h.ens
  tcounter : s .tcounter = .int h.tcounter
  testP : s .testP = .int h.testP
  length : s .modusL = .dbl h.length
  time : s .currentT = .dbl h.time
  impact : s .impactB = .dbl h.impact
  empty : s .emptyEvent = .bool h.empty
  eKin : s .eKin = .dbl h.eKin
  eField : s .eField = .dbl h.eField
  eTot : s .eTot = .dbl h.eTot

theorem says_npart {s : SVar → Val} {h : Head} (hs : Says s h) (x : Val) : Says (Function.update s .npart x) h := by
  constructor <;> (rw [Function.update_of_ne (by decide)]) <;> first
    | exact hs.ev | exact hs.ens | exact hs.tcounter | exact hs.testP | exact hs.length | exact hs.time | exact hs.impact | exact hs.empty
    | exact hs.eKin | exact hs.eField | exact hs.eTot

theorem partBranches_read (ext : Bool) (m : Mem) (ps : List RPart) (n : ℕ) (hn : n = ps.length) (x : Val) (hx : x = .int n) :
    partBranches.map (Branch.read ((putMany ext m 0 ps).set .npart x)) = partLeaves ps := by
  subst hn hx
  have hc : count ((putMany ext m 0 ps).set .npart (.int ps.length)) = ps.length := by simp [count, Mem.set]
  have key : ∀ v : AVar, v.isExt = false →
      (List.range (count ((putMany ext m 0 ps).set .npart (.int ps.length)))).map (((putMany ext m 0 ps).set .npart (.int ps.length)).a v) =
        ps.map fun p => p.field v := by
    intro v hv
    rw [hc]
    exact arr_eq ext (by simp [hv]) ps m
  simp only [partBranches, List.map_cons, List.map_nil, Branch.read, partLeaves]
  rw [key .id rfl, key .pdg rfl, key .charge rfl, key .formation rfl, key .lastColl rfl, key .p0 rfl, key .px rfl, key .py rfl, key .pz rfl,
    key .t rfl, key .x rfl, key .y rfl, key .z rfl]
  rfl

theorem extBranches_read (m : Mem) (ps : List RPart) (n : ℕ) (hn : n = ps.length) (x : Val) (hx : x = .int n) :
    extBranches.map (Branch.read ((putMany true m 0 ps).set .npart x)) = extLeaves ps := by
  subst hn hx
  have hc : count ((putMany true m 0 ps).set .npart (.int ps.length)) = ps.length := by simp [count, Mem.set]
  have key : ∀ v : AVar,
      (List.range (count ((putMany true m 0 ps).set .npart (.int ps.length)))).map (((putMany true m 0 ps).set .npart (.int ps.length)).a v) =
        ps.map fun p => p.field v := by
    intro v
    rw [hc]
    exact arr_eq true (by simp) ps m
  simp only [extBranches, List.map_cons, List.map_nil, Branch.read, extLeaves]
  rw [key .ncoll, key .xsec, key .procId, key .procType, key .mother1, key .mother2, key .baryon, key .strange]
  rfl

/-- One `Fill` after the particles have been written to the buffer. -/
theorem fill_block (ext : Bool) (m : Mem) (ps : List RPart) {h : Head} (hs : Says m.s h) (n : ℕ) (hn : n = ps.length) :
    fill (particleBranches ext) ((putMany ext m 0 ps).set .npart (.int n)) = block ext h ps := by
  have hs' : Says ((putMany ext m 0 ps).set .npart (.int n)).s h := by
    rw [show ((putMany ext m 0 ps).set .npart (.int n)).s = Function.update m.s .npart (.int n) by rw [← putMany_s ext ps m 0]; rfl]
    exact says_npart hs _
  have hnp : ((putMany ext m 0 ps).set .npart (.int n)).s .npart = .int ps.length := by simp [Mem.set, hn]
  unfold fill particleBranches block
  rw [List.map_append, List.map_append, List.map_append, partBranches_read ext m ps n hn _ rfl]
  simp only [List.map_cons, List.map_nil, Branch.read, hs'.ev, hs'.ens, hs'.tcounter, hs'.testP, hs'.length, hs'.time, hs'.impact, hs'.empty,
    hs'.eKin, hs'.eField, hs'.eTot, hnp]
  cases ext with
  | false => rfl
  | true => rw [if_pos rfl, if_pos rfl, extBranches_read m ps n hn _ rfl]

theorem loop_small (B : ℕ) (ext : Bool) (ps : List RPart) :
    ∀ i m t, i + ps.length ≤ B → fillLoop B ext ps i m t = (i + ps.length, putMany ext m i ps, t) := by
  induction ps with
  | nil => intro i m t _; rfl
  | cons p ps ih =>
    intro i m t h
    simp only [List.length_cons] at h ⊢
    rw [fillLoop, if_neg (by omega), ih _ _ _ (by omega)]
    rw [show i + 1 + ps.length = i + (ps.length + 1) by omega]
    rfl

theorem loop_long (B : ℕ) (ext : Bool) (ps : List RPart) :
    ∀ i m t, i ≤ B → B < i + ps.length → fillLoop B ext ps i m t =
      fillLoop B ext (ps.drop (B - i + 1)) 0 ((putMany ext m i (ps.take (B - i))).set .npart (.int B))
        (t ++ [fill (particleBranches ext) ((putMany ext m i (ps.take (B - i))).set .npart (.int B))]) := by
  induction ps with
  | nil => intro i m t h1 h2; simp at h2; omega
  | cons p ps ih =>
    intro i m t h1 h2
    simp only [List.length_cons] at h2
    rw [fillLoop]
    by_cases h : B ≤ i
    · have : B - i = 0 := by omega
      rw [if_pos h, this]
      rfl
    · rw [if_neg h, ih _ _ _ (by omega) (by omega)]
      obtain ⟨d, hd⟩ : ∃ d, B - i = d + 1 := ⟨B - i - 1, by omega⟩
      rw [hd, show B - (i + 1) = d by omega]
      rfl

theorem loop_blocks {B : ℕ} (hB : 0 < B) (ext : Bool) {h : Head} (n : ℕ) :
    ∀ (ps : List RPart) (m : Mem) (t : List Entry), ps.length = n → Says m.s h →
      let r := fillLoop B ext ps 0 m t
      (if 0 < r.1 then r.2.2 ++ [fill (particleBranches ext) (r.2.1.set .npart (.int r.1))] else r.2.2) = t ++ (blocks B ps).map (block ext h) ∧
      ∀ v, v ≠ .npart → r.2.1.s v = m.s v := by
  induction n using Nat.strongRecOn with
  | ind n ih =>
    intro ps m t hn hs
    by_cases hl : ps.length ≤ B
    · rw [loop_small B ext ps 0 m t (by omega)]
      simp only [Nat.zero_add]
      refine ⟨?_, fun v _ => by rw [putMany_s]⟩
      rw [blocks, dif_pos hl]
      by_cases he : ps = []
      · subst he; simp
      · have : 0 < ps.length := List.length_pos_iff.2 he
        rw [if_pos this, if_neg he, fill_block ext m ps hs ps.length rfl]
        rfl
    · rw [loop_long B ext ps 0 m t (Nat.zero_le _) (by omega), Nat.sub_zero]
      have htk : (ps.take B).length = B := by rw [List.length_take]; omega
      have hs1 : Says ((putMany ext m 0 (ps.take B)).set .npart (.int B)).s h := by
        rw [show ((putMany ext m 0 (ps.take B)).set .npart (.int B)).s = Function.update m.s .npart (.int B) by rw [← putMany_s ext (ps.take B) m 0]; rfl]
        exact says_npart hs _
      obtain ⟨h1, h2⟩ := ih (ps.drop (B + 1)).length (by rw [List.length_drop]; omega) (ps.drop (B + 1))
        ((putMany ext m 0 (ps.take B)).set .npart (.int B))
        (t ++ [fill (particleBranches ext) ((putMany ext m 0 (ps.take B)).set .npart (.int B))]) rfl hs1
      refine ⟨?_, ?_⟩
      · rw [h1, fill_block ext m _ hs B htk.symm, blocks.eq_def B ps, dif_neg hl]
        simp
      · intro v hv
        rw [h2 v hv]
        show Function.update (putMany ext m 0 (ps.take B)).s .npart _ v = _
        rw [Function.update_of_ne hv, putMany_s]

/-- The state has the scalars of a head, apart from event, ensemble and number. -/
structure Ready (st : St) (e : Info) (impact : W64) (empty : Bool) : Prop where
  testP : st.mem.s .testP = .int e.testP
  length : st.mem.s .modusL = .dbl e.length
  time : st.mem.s .currentT = .dbl e.time
  impact : st.mem.s .impactB = .dbl impact
  empty : st.mem.s .emptyEvent = .bool empty
  eKin : st.mem.s .eKin = .dbl e.eKin
  eField : st.mem.s .eField = .dbl e.eField
  eTot : st.mem.s .eTot = .dbl e.eTot

theorem toTree_spec {B : ℕ} (hB : 0 < B) (o : Opts) (st : St) (ps : List RPart) {e : Info} {impact : W64} {empty : Bool}
    (h : Ready st e impact empty) :
    (particlesToTree B o st ps).ptree = st.ptree ++ entries B (o.partExt || o.icExt) (headOf st.event st.ens st.counter e impact empty) ps ∧
    (particlesToTree B o st ps).counter = st.counter ∧ (particlesToTree B o st ps).event = st.event ∧
    (particlesToTree B o st ps).ens = st.ens ∧ (particlesToTree B o st ps).ctree = st.ctree ∧ (particlesToTree B o st ps).freq = st.freq ∧
    (particlesToTree B o st ps).psaved = st.psaved ∧ (particlesToTree B o st ps).csaved = st.csaved ∧
    ∀ v, v ≠ .npart → v ≠ .ev → v ≠ .ens → v ≠ .tcounter → (particlesToTree B o st ps).mem.s v = st.mem.s v := by
  have hs : Says (((st.mem.set .ev (.int st.event)).set .ens (.int st.ens)).set .tcounter (.int st.counter)).s
      (headOf st.event st.ens st.counter e impact empty) := by
    constructor
    · simp [Mem.set, headOf]
    · simp [Mem.set, headOf]
    · simp [Mem.set, headOf]
    · simpa [Mem.set, headOf] using h.testP
    · simpa [Mem.set, headOf] using h.length
    · simpa [Mem.set, headOf] using h.time
    · simpa [Mem.set, headOf] using h.impact
    · simpa [Mem.set, headOf] using h.empty
    · simpa [Mem.set, headOf] using h.eKin
    · simpa [Mem.set, headOf] using h.eField
    · simpa [Mem.set, headOf] using h.eTot
  obtain ⟨h1, h2⟩ := loop_blocks hB (o.partExt || o.icExt) ps.length ps _ st.ptree rfl hs
  unfold particlesToTree
  simp only at h1 h2 ⊢
  split_ifs at h1 ⊢ with hr
  · refine ⟨h1, rfl, rfl, rfl, rfl, rfl, rfl, rfl, ?_⟩
    intro v v1 v2 v3 v4
    show Function.update _ .npart _ v = _
    rw [Function.update_of_ne v1, h2 v v1]
    simp [Mem.set, v2, v3, v4]
  · refine ⟨h1, rfl, rfl, rfl, rfl, rfl, rfl, rfl, ?_⟩
    intro v v1 v2 v3 v4
    rw [h2 v v1]
    simp [Mem.set, v2, v3, v4]

/-- C152: an output of at most as many particles as the buffer holds is one entry with all of them (none if there are no particles). -/
theorem C152_blocks_small {B : ℕ} (ps : List RPart) (h : ps.length ≤ B) (hp : ps ≠ []) : blocks B ps = [ps] := by
  rw [blocks, dif_pos h, if_neg hp]

/-- C152: the number of particles which are in the entries. -/
theorem C152_blocks_count {B : ℕ} (n : ℕ) : ∀ ps : List RPart, ps.length = n →
    ((blocks B ps).map List.length).sum = ps.length - ps.length / (B + 1) := by
  induction n using Nat.strongRecOn with
  | ind n ih =>
    intro ps hn
    by_cases hl : ps.length ≤ B
    · rw [blocks, dif_pos hl, Nat.div_eq_of_lt (by omega)]
      by_cases he : ps = []
      · subst he; simp
      · simp [he]
    · rw [blocks, dif_neg hl, List.map_cons, List.sum_cons, ih _ (by rw [List.length_drop]; omega) (ps.drop (B + 1)) rfl]
      rw [List.length_take, List.length_drop, Nat.min_eq_left (by omega)]
      have h1 : ps.length / (B + 1) = (ps.length - (B + 1)) / (B + 1) + 1 := by
        rw [Nat.div_eq_sub_div (by omega) (by omega)]
      have h2 : (ps.length - (B + 1)) / (B + 1) ≤ ps.length - (B + 1) := Nat.div_le_self _ _
      omega

end Verif.Root
