import Mathlib.Tactic.Ring
import Mathlib.Data.List.SplitOn
import Verif.Riv.Model
/-!
C184: the output of events to HepMC files and to Rivet.
-/
namespace Verif.Riv

theorem names_ne (name type : Name) : fileName name type ≠ unfinished name type := by
  intro h
  have := congrArg List.length h
  simp [unfinished] at this

theorem events_spec {E : Type} (name type : Name) (evs : List E) (fs : Name → Option (File E)) (f : File E)
    (h : fs (unfinished name type) = some f) :
    (evs.map Step.event).foldl (hepStep name type) fs =
      Function.update fs (unfinished name type) (some { f with events := f.events ++ evs }) := by
  induction evs generalizing fs f with
  | nil => simp [← h]
  | cons e es ih =>
    simp only [List.map_cons, List.foldl_cons]
    rw [ih (hepStep name type fs (.event e)) { f with events := f.events ++ [e] } (by simp [hepStep, h])]
    simp [hepStep, h]

/-- **C184**, HepMC files at every crash point: after any number of steps of a run that is not over, the final name is as it was before the run, the
unfinished file has the events so far in their order, and no other file has been touched. -/
theorem C184_crash {E : Type} (name type : Name) (evs : List E) (fs : Name → Option (File E)) (k : ℕ) (hk : k ≤ evs.length) :
    let fs' := ((life evs).take (k + 1)).foldl (hepStep name type) fs
    fs' (name ++ '.' :: type) = fs (name ++ '.' :: type) ∧
    fs' (name ++ '.' :: type ++ ".unfinished".toList) = some ⟨evs.take k, false⟩ ∧
    ∀ x, x ≠ name ++ '.' :: type ++ ".unfinished".toList → fs' x = fs x := by
  intro fs'
  have e : fs' = Function.update fs (unfinished name type) (some ⟨evs.take k, false⟩) := by
    have : (life evs).take (k + 1) = .open :: (evs.take k).map .event := by
      unfold life
      rw [List.cons_append, List.take_succ_cons, List.take_append_of_le_length (by simpa using hk), List.map_take]
    show ((life evs).take (k + 1)).foldl (hepStep name type) fs = _
    rw [this, List.foldl_cons, events_spec name type _ _ ⟨[], false⟩ (by simp [hepStep])]
    simp [hepStep]
  have hne : name ++ '.' :: type ≠ unfinished name type := names_ne name type
  rw [e]
  refine ⟨Function.update_of_ne hne _ _, Function.update_self .., fun x hx => Function.update_of_ne hx _ _⟩

/-- **C184**, HepMC files after a complete run: all events in their order under the final name, no unfinished file. -/
theorem C184_complete {E : Type} (name type : Name) (evs : List E) (fs : Name → Option (File E)) :
    let fs' := (life evs).foldl (hepStep name type) fs
    fs' (name ++ '.' :: type) = some ⟨evs, true⟩ ∧ fs' (name ++ '.' :: type ++ ".unfinished".toList) = none ∧
    ∀ x, x ≠ name ++ '.' :: type → x ≠ name ++ '.' :: type ++ ".unfinished".toList → fs' x = fs x := by
  intro fs'
  have hne : name ++ '.' :: type ≠ unfinished name type := names_ne name type
  have e : fs' = Function.update (Function.update fs (unfinished name type) none) (fileName name type) (some ⟨evs, true⟩) := by
    show (life evs).foldl (hepStep name type) fs = _
    unfold life
    rw [List.cons_append, List.foldl_cons, List.foldl_append, events_spec name type _ _ ⟨[], false⟩ (by simp [hepStep])]
    simp [hepStep]
  rw [e]
  refine ⟨Function.update_self .., ?_, ?_⟩
  · exact (Function.update_of_ne hne.symm _ _).trans (Function.update_self ..)
  · intro x h1 h2
    exact (Function.update_of_ne h1 _ _).trans (Function.update_of_ne h2 _ _)

/-- **C184**, finding: an exception in the middle of a run destroys the output, too, so that the final name can belong to a file without the last
events: nothing tells it from the file of a shorter run. -/
theorem C184_exception_false {E : Type} (name type : Name) (evs : List E) (k : ℕ) (fs : Name → Option (File E)) :
    ((Step.open :: (evs.take k).map Step.event ++ [Step.destroy]).foldl (hepStep name type) fs) (name ++ '.' :: type) =
      some ⟨evs.take k, true⟩ := (C184_complete name type (evs.take k) fs).1

/-- **C184**, the format of the file: text for "asciiv3", a ROOT tree for everything else if this is compiled in. -/
theorem C184_format (rootio : Bool) (type : Name) :
    textWriter rootio type = false ↔ rootio = true ∧ type ≠ ['a', 's', 'c', 'i', 'i', 'v', '3'] := by
  have : "asciiv3".toList = ['a', 's', 'c', 'i', 'i', 'v', '3'] := rfl
  unfold textWriter
  rw [this]
  cases rootio <;> simp

theorem riv_events {E : Type} (up : Char → Char) (p : Params) (file : Name) (evs : List E) (cs : List (Call E)) :
    (evs.map Step.event).foldl (rivStep up p file) ⟨false, cs⟩ = ⟨false, cs ++ evs.map .analyze⟩ := by
  induction evs generalizing cs with
  | nil => simp
  | cons e es ih => simp [rivStep, ih]

/-- **C184**, Rivet: it is set up first, initialised once with the first event, analyses every event once in their order, and at the end the results are
finalised and written. -/
theorem C184_rivet {E : Type} (up : Char → Char) (p : Params) (file : Name) (e : E) (es : List E) :
    ((life (e :: es)).foldl (rivStep up p file) ⟨true, []⟩).calls =
      setup up p ++ .init e :: (e :: es).map .analyze ++ [.finalize, .write file] := by
  simp [life, rivStep, riv_events]

/-- **C184**, finding: without any event the results are finalised although Rivet was never initialised. -/
theorem C184_rivet_empty_false {E : Type} (up : Char → Char) (p : Params) (file : Name) :
    ((life ([] : List E)).foldl (rivStep up p file) ⟨true, []⟩).calls = setup up p ++ [.finalize, .write file] := by
  simp [life, rivStep]

/-- The calls that tell Rivet where to look. -/
def isPlace {E : Type} : Call E → Prop
  | .libPath _ | .dataPath _ | .readData _ => True
  | _ => False

/-- **C184**, set-up of Rivet: all paths and preloaded files come before the analyses; each analysis given is added once and in the order given; the
weights are only touched if they have a section in the configuration. -/
theorem C184_setup {E : Type} (up : Char → Char) (p : Params) :
    (∃ a b : List (Call E), setup up p = a ++ b ∧ (∀ c ∈ a, isPlace c) ∧ (∀ c ∈ b, ¬ isPlace c)) ∧
    (setup (E := E) up p).filterMap (fun | .addAnalysis n => some n | _ => none) = p.analyses.getD [] ∧
    (setup (E := E) up p).filterMap (fun | .readData n => some n | _ => none) = p.preloads.getD [] ∧
    (setup (E := E) up p).filterMap (fun | .libPath n => some n | _ => none) = p.paths.getD [] ∧
    (setup (E := E) up p).filterMap (fun | .dataPath n => some n | _ => none) = p.paths.getD [] ∧
    (setup (E := E) up p).filterMap (fun | .ignoreBeams b => some b | _ => none) = [p.ignoreBeams] ∧
    (setup (E := E) up p).filterMap (fun | .crossSection a b => some (a, b) | _ => none) = p.crossSections.toList ∧
    (setup (E := E) up p).filterMap (fun | .nominal n => some n | _ => none) = (if p.anyWeight then p.nominal.toList else []) ∧
    (setup (E := E) up p).filterMap (fun | .cap n => some n | _ => none) = (if p.anyWeight then p.cap.toList else []) ∧
    (setup (E := E) up p).filterMap (fun | .smear n => some n | _ => none) = (if p.anyWeight then p.smear.toList else []) ∧
    (setup (E := E) up p).filterMap (fun | .skipMulti n => some n | _ => none) = (if p.anyWeight then p.noMulti.toList else []) := by
  refine ⟨⟨(p.paths.getD []).flatMap (fun x => [.libPath x, .dataPath x]) ++ (p.preloads.getD []).map .readData,
    (p.analyses.getD []).map .addAnalysis ++ ([.ignoreBeams p.ignoreBeams] ++
      ((p.crossSections.toList.map fun x => .crossSection x.1 x.2) ++
      (((p.logs.getD []).map fun x => .logLevel (logName x.1) (x.2.map up)) ++
      (if p.anyWeight then
        p.noMulti.toList.map .skipMulti ++ p.nominal.toList.map .nominal ++ p.cap.toList.map .cap ++ p.smear.toList.map .smear ++
        (p.enabled.toList.map fun l => .select (joinFrom false l)) ++ (p.disabled.toList.map fun l => .deselect (joinFrom false l))
      else [])))), by unfold setup; simp only [List.append_assoc], ?_, ?_⟩, ?_⟩
  · intro c hc
    simp only [List.mem_append, List.mem_flatMap, List.mem_map, List.mem_cons, List.not_mem_nil, or_false] at hc
    rcases hc with ⟨x, -, rfl | rfl⟩ | ⟨x, -, rfl⟩ <;> trivial
  · intro c hc hp
    cases c <;> simp [isPlace] at hp <;> cases hw : p.anyWeight <;> simp [hw] at hc
  · refine ⟨?_, ?_, ?_, ?_, ?_, ?_, ?_, ?_, ?_, ?_⟩ <;>
      cases hw : p.anyWeight <;>
      simp [setup, hw, List.filterMap_append, List.filterMap_flatMap, List.filterMap_map]

theorem join_true (ws : List Name) : joinFrom true ws = ws.flatMap fun w => ',' :: w := by
  induction ws with
  | nil => rfl
  | cons w ws ih => simp [joinFrom, ih]

theorem join_eq (ws : List Name) : joinFrom false ws = [','].intercalate ws := by
  cases ws with
  | nil => rfl
  | cons w ws =>
    induction ws generalizing w with
    | nil => simp [joinFrom, List.intercalate]
    | cons v vs ih =>
      have := ih v
      simp only [joinFrom] at this ⊢
      simp [List.intercalate, List.intersperse] at this ⊢
      exact this

/-- **C184**, selected and deselected weights, with commas between the names, and the log levels in capital letters under their full names. -/
theorem C184_select {E : Type} (up : Char → Char) (p : Params) :
    (setup (E := E) up p).filterMap (fun | .select n => some n | _ => none) =
      (if p.anyWeight then p.enabled.toList.map [','].intercalate else []) ∧
    (setup (E := E) up p).filterMap (fun | .deselect n => some n | _ => none) =
      (if p.anyWeight then p.disabled.toList.map [','].intercalate else []) ∧
    (setup (E := E) up p).filterMap (fun | .logLevel n l => some (n, l) | _ => none) =
      (p.logs.getD []).map fun x => (logName x.1, x.2.map up) := by
  have hj : joinFrom false = [','].intercalate := funext join_eq
  refine ⟨?_, ?_, ?_⟩ <;> cases hw : p.anyWeight <;>
    simp [setup, hw, hj, List.filterMap_append, List.filterMap_flatMap, List.filterMap_map]

/-- **C184**, weights: the names of the weights to select can be read back from the text handed to Rivet if none has a comma in it. -/
theorem C184_weights (ws : List Name) (h0 : ws ≠ []) (h : ∀ w ∈ ws, ',' ∉ w) : (joinFrom false ws).splitOn ',' = ws := by
  rw [join_eq]
  exact List.splitOn_intercalate _ h h0

/-- **C184**, finding: a name with a comma stands for two weights. -/
theorem C184_comma_false : joinFrom false ["a,b".toList] = joinFrom false ["a".toList, "b".toList] := by decide

/-- **C184**, loggers: a name is put under "Rivet." unless it starts with "Rivet". -/
theorem C184_log_name (n : Name) :
    (∃ r, logName n = ['R', 'i', 'v', 'e', 't'] ++ r) ∧ logName (logName n) = logName n ∧
      (logName n = n ∨ logName n = ['R', 'i', 'v', 'e', 't', '.'] ++ n) ∧
      (logName n = n ↔ ∃ r, n = ['R', 'i', 'v', 'e', 't'] ++ r) := by
  have e1 : "Rivet".toList = ['R', 'i', 'v', 'e', 't'] := rfl
  have e2 : "Rivet.".toList = ['R', 'i', 'v', 'e', 't', '.'] := rfl
  unfold logName
  rw [e1, e2]
  by_cases h : ['R', 'i', 'v', 'e', 't'].isPrefixOf n = true
  · obtain ⟨r, hr⟩ := List.isPrefixOf_iff_prefix.1 h
    refine ⟨⟨r, by rw [if_pos h, hr]⟩, by rw [if_pos h, if_pos h], .inl (by rw [if_pos h]), ?_⟩
    rw [if_pos h]
    exact ⟨fun _ => ⟨r, hr.symm⟩, fun _ => rfl⟩
  · have h' : ['R', 'i', 'v', 'e', 't'].isPrefixOf (['R', 'i', 'v', 'e', 't', '.'] ++ n) = true := by simp [List.isPrefixOf]
    rw [if_neg h]
    refine ⟨⟨'.' :: n, rfl⟩, by rw [if_pos h'], .inr rfl, ?_⟩
    constructor
    · intro hn
      have := congrArg List.length hn
      simp at this
      omega
    · rintro ⟨r, hr⟩
      exact absurd (List.isPrefixOf_iff_prefix.2 ⟨r, hr.symm⟩) h

/-- Two events and a weight section. -/
example : (setup (E := ℕ) id { analyses := some ["A".toList], anyWeight := true, enabled := some ["x".toList, "y".toList] }) =
    [.addAnalysis ['A'], .ignoreBeams true, .select ['x', ',', 'y']] := rfl

example : (((life [1, 2]).take 2).foldl (hepStep ['f'] ['t']) (fun _ => none)) ("f.t.unfinished".toList) =
    some ⟨[1], false⟩ := (C184_crash ['f'] ['t'] [1, 2] (fun _ => none) 1 (by decide)).2.1

end Verif.Riv
