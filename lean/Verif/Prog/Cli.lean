import Mathlib.Tactic.SplitIfs
import Verif.Prog.Model
import Verif.Config.Sections
/-! C160: what the command line asks for is what is done. -/
namespace Verif.Prog
open Verif.Config (Node State Key)
open Verif.Text (Str)

/-! ### Specification -/

/-- The last value among the options. -/
def lastOf {α : Type} (f : Opt → Option α) (os : List Opt) : Option α := (os.filterMap f).getLast?

/-- The options with which the program leaves at once: code and what is printed. -/
def leaving : Opt → Option (Nat × Job)
  | .h => some (0, .usage)
  | .v => some (0, .version)
  | .unknown => some (1, .usage)
  | _ => none

/-- The values of the single options. -/
def optO : Opt → Option Path | .o p => some p | _ => none
def optI : Opt → Option Path | .i p => some p | _ => none
def optP : Opt → Option Path | .p p => some p | _ => none
def optD : Opt → Option Path | .d p => some p | _ => none
def optC : Opt → Option String | .c y => some y | _ => none
def optM : Opt → Option String | .m v => some v | _ => none
def optE : Opt → Option String | .e t => some t | _ => none
def optR : Opt → Option String | .r p => some p | _ => none
def optXs : Opt → Option Str | .s a => some a | .S a => some a | _ => none
def isF : Opt → Bool | .f => true | _ => false
def isL : Opt → Bool | .l => true | _ => false
def isX : Opt → Bool | .x => true | _ => false
def isN : Opt → Bool | .n => true | _ => false
def isS : Opt → Bool | .S _ => true | _ => false

theorem lastOf_cons {α : Type} (f : Opt → Option α) (o : Opt) (os : List Opt) (d : Option α) :
    ((lastOf f (o :: os)).or d) = (lastOf f os).or ((f o).or d) := by
  unfold lastOf
  cases h : f o with
  | none => rw [List.filterMap_cons_none h]; rfl
  | some a =>
    rw [List.filterMap_cons_some h, List.getLast?_cons]
    cases (List.filterMap f os).getLast? <;> rfl

theorem lastOf_isSome {α : Type} (f : Opt → Option α) (o : Opt) (os : List Opt) :
    (lastOf f (o :: os)).isSome = ((f o).isSome || (lastOf f os).isSome) := by
  have h := lastOf_cons f o os none
  rw [Option.or_none, Option.or_none] at h
  rw [h]
  cases lastOf f os <;> cases f o <;> rfl

/-- **C160** (options): the first of `-h`, `-v` and an unknown option decides alone; without them every
option with a value has the value of its last use, all `-c` texts are kept in their order, and every switch
is on exactly if it was given. -/
theorem C160_options (s : Settings) (os : List Opt) :
    (∀ pre o post c j, os = pre ++ o :: post → (∀ x ∈ pre, leaving x = none) → leaving o = some (c, j) →
      parse s os = .stop c j) ∧
    ((∀ x ∈ os, leaving x = none) → ∃ t, parse s os = .go t ∧
      some t.output = (lastOf optO os).or (some s.output) ∧ some t.input = (lastOf optI os).or (some s.input) ∧
      some t.particles = (lastOf optP os).or (some s.particles) ∧
      some t.decaymodes = (lastOf optD os).or (some s.decaymodes) ∧
      t.extra = s.extra ++ os.filterMap optC ∧
      t.modus = (lastOf optM os).or s.modus ∧ t.endTime = (lastOf optE os).or s.endTime ∧
      t.pdg = (lastOf optR os).or s.pdg ∧ t.cs = (lastOf optXs os).or s.cs ∧
      t.force = (s.force || os.any isF) ∧ t.list2n = (s.list2n || os.any isL) ∧
      t.iss = (s.iss || os.any isX) ∧ t.cache = (s.cache && !os.any isN) ∧
      t.resonance = (s.resonance || (lastOf optR os).isSome) ∧ t.xs = (s.xs || (lastOf optXs os).isSome) ∧
      t.finalState = (s.finalState || os.any isS)) := by
  constructor
  · intro pre o post c j hos hpre ho
    subst hos
    induction pre generalizing s with
    | nil => cases o <;> simp_all [leaving, parse, applyOpt]
    | cons x xs ih =>
      have hx := hpre x (by simp)
      have hxs : ∀ y ∈ xs, leaving y = none := fun y hy => hpre y (by simp [hy])
      cases x <;> first
        | (simp only [leaving] at hx; cases hx; done)
        | (simp only [List.cons_append, parse, applyOpt]; exact ih _ hxs)
  · intro h
    induction os generalizing s with
    | nil => exact ⟨s, rfl, by simp [lastOf]⟩
    | cons x xs ih =>
      have hx := h x (by simp)
      have hxs : ∀ y ∈ xs, leaving y = none := fun y hy => h y (by simp [hy])
      obtain ⟨s', hs'⟩ : ∃ s', applyOpt s x = .go s' := by
        cases x <;> first
          | exact ⟨_, rfl⟩
          | (simp only [leaving] at hx; cases hx; done)
      obtain ⟨t, h0, h1, h2, h3, h4, h5, h6, h7, h8, h9, h10, h11, h12, h13, h14, h15, h16⟩ := ih s' hxs
      refine ⟨t, by rw [parse, hs']; exact h0, ?_⟩
      rw [h5, h6, h7, h8, h9, h10, h11, h12, h13, h14, h15, h16, h1, h2, h3, h4]
      simp only [lastOf_cons, lastOf_isSome]
      cases x <;> first
        | (simp only [leaving] at hx; cases hx; done)
        | (simp only [applyOpt, Step.go.injEq] at hs'
           subst hs'
           simp [optO, optI, optP, optD, optC, optM, optE, optR, optXs, isF, isL, isX, isN, isS, List.filterMap_cons])

/-- What the switches ask for, in their order of precedence; `nothing` stands for an error. -/
def Asked (env : Env) (s : Settings) : Job → Prop
  | .nothing => True
  | .usage => False
  | .version => False
  | .reactions => s.list2n = true
  | .iss => s.list2n = false ∧ s.iss = true
  | .widths p => s.list2n = false ∧ s.iss = false ∧ s.resonance = true ∧ s.pdg = some p
  | .crossSections _ _ _ _ fin _ =>
    s.list2n = false ∧ s.iss = false ∧ s.resonance = false ∧ s.xs = true ∧ fin = s.finalState
  | .simulation _ out =>
    s.list2n = false ∧ s.iss = false ∧ s.resonance = false ∧ s.xs = false ∧ out = s.output.loc env.cwd

/-- The outcome is an error, or the job `P` allows with one of the two exit codes. -/
def Fine (P : Job → Prop) (r : Outcome) : Prop :=
  P r.job ∧ (r.code = 0 ∨ r.code = 1) ∧ (r.job = .nothing → r.code = 1)

theorem fine_failed (P : Job → Prop) (fs : Fs) (h : P .nothing) : Fine P (failed fs) := ⟨h, Or.inr rfl, fun _ => rfl⟩

theorem fine_done (P : Job → Prop) (fs : Fs) (j : Job) (h : P j) (hj : j ≠ .nothing) : Fine P ⟨0, fs, j⟩ :=
  ⟨h, Or.inl rfl, fun h' => absurd h' hj⟩

theorem xsArgs_form (env : Env) (s : Settings) (text : Str) (job : Job) (h : xsArgs env s text = some job) :
    ∃ a b ma mb pl, job = .crossSections a b ma mb s.finalState pl := by
  unfold xsArgs at h
  simp only at h
  split at h
  · cases h
  · split at h
    · split at h
      · split at h
        · exact ⟨_, _, _, _, _, (Option.some.inj h).symm⟩
        · cases h
      · cases h
    · cases h

/-- **C160** (precedence): whatever happens, the program does what the first of `-l`, `-x`, `-r`, `-s`/`-S`
asks for, or a simulation in the chosen directory if none of them is given, or it reports an error; the exit
code is 0 or 1, and it is 1 if nothing was done. -/
theorem C160_job (env : Env) (s : Settings) (fs : Fs) : Fine (Asked env s) (body env s fs) := by
  unfold body
  split
  · exact fine_failed _ _ trivial
  split
  · exact fine_failed _ _ trivial
  by_cases h1 : s.list2n = true
  · rw [if_pos h1]
    unfold dumpReactions
    repeat' split
    all_goals first
      | exact fine_failed _ _ trivial
      | exact fine_done _ _ _ h1 (by simp)
  rw [if_neg h1]
  have h1' : s.list2n = false := by simpa using h1
  by_cases h2 : s.iss = true
  · rw [if_pos h2]
    unfold dumpIss
    repeat' split
    all_goals first
      | exact fine_failed _ _ trivial
      | exact fine_done _ _ _ ⟨h1', h2⟩ (by simp)
  rw [if_neg h2]
  have h2' : s.iss = false := by simpa using h2
  by_cases h3 : s.resonance = true
  · rw [if_pos h3]
    unfold dumpWidths
    split
    · exact fine_failed _ _ trivial
    split
    · exact fine_failed _ _ trivial
    split
    · exact fine_failed _ _ trivial
    split
    · exact fine_failed _ _ trivial
    · rename_i pdg hp
      split
      · exact fine_done _ _ _ ⟨h1', h2', h3, hp⟩ (by simp)
      · exact fine_failed _ _ trivial
  rw [if_neg h3]
  have h3' : s.resonance = false := by simpa using h3
  by_cases h4 : s.xs = true
  · rw [if_pos h4]
    unfold dumpXs
    split
    · exact fine_failed _ _ trivial
    split
    · exact fine_failed _ _ trivial
    split
    · exact fine_failed _ _ trivial
    rename_i job hj
    split
    · exact fine_failed _ _ trivial
    split
    · cases hc : s.cs with
      | none => rw [hc] at hj; cases hj
      | some text =>
        rw [hc] at hj
        obtain ⟨a, b, ma, mb, pl, rfl⟩ := xsArgs_form env s text job hj
        exact fine_done _ _ _ ⟨h1', h2', h3', h4, rfl⟩ (by simp)
    · exact fine_failed _ _ trivial
  rw [if_neg h4]
  have h4' : s.xs = false := by simpa using h4
  unfold simulate
  split
  · exact fine_failed _ _ trivial
  simp only
  split
  · exact fine_failed _ _ trivial
  split
  · exact fine_failed _ _ trivial
  have hc : ∀ (fs : Fs) (st : State), Fine (Asked env s) (conduct env s fs st) := by
    intro fs st
    unfold conduct
    simp only
    split
    · exact fine_failed _ _ trivial
    split
    · exact fine_failed _ _ trivial
    split
    · split
      · exact fine_failed _ _ trivial
      · refine ⟨⟨h1', h2', h3', h4', rfl⟩, ?_, by intro h; cases h⟩
        simp only
        split
        · exact Or.inl rfl
        · exact Or.inr rfl
    · exact fine_failed _ _ trivial
  exact ⟨(hc _ _).1, (hc _ _).2.1, (hc _ _).2.2⟩

/-- **C160** (nothing else happens): with `-h`, `-v`, an unknown option or left-over arguments no file is
touched; the exit code is 0 only for a requested help or version text. -/
theorem C160_leave (env : Env) (fs : Fs) (os : List Opt) (rest : Bool)
    (h : rest = true ∨ ∃ x ∈ os, leaving x ≠ none) :
    (main env fs os rest).fs = fs ∧ ((main env fs os rest).job = .usage ∨ (main env fs os rest).job = .version) ∧
    ((main env fs os rest).code = 0 → ∃ x ∈ os, x = .h ∨ x = .v) := by
  obtain ⟨h1, h2⟩ := C160_options { output := defaultOutput env fs } os
  by_cases hall : ∀ x ∈ os, leaving x = none
  · obtain ⟨t, ht, -⟩ := h2 hall
    have hr : rest = true := h.resolve_right (fun ⟨x, hx, hn⟩ => hn (hall x hx))
    unfold main
    rw [ht, hr]
    exact ⟨rfl, Or.inl rfl, by intro hc; cases hc⟩
  · -- the first leaving option
    have : ∃ pre o post, os = pre ++ o :: post ∧ (∀ x ∈ pre, leaving x = none) ∧ leaving o ≠ none := by
      clear h h1 h2
      induction os with
      | nil => exact absurd (by simp) hall
      | cons x xs ih =>
        by_cases hx : leaving x = none
        · obtain ⟨pre, o, post, h3, h4, h5⟩ := ih (fun h => hall (by
            intro y hy
            rcases List.mem_cons.1 hy with rfl | hy
            · exact hx
            · exact h y hy))
          exact ⟨x :: pre, o, post, by rw [h3]; rfl, by
            intro y hy
            rcases List.mem_cons.1 hy with rfl | hy
            · exact hx
            · exact h4 y hy, h5⟩
        · exact ⟨[], x, xs, rfl, by simp, hx⟩
    obtain ⟨pre, o, post, h3, h4, h5⟩ := this
    have hmem : o ∈ os := by rw [h3]; simp
    unfold main
    cases o with
    | h => rw [h1 pre _ post 0 .usage h3 h4 rfl]; exact ⟨rfl, Or.inl rfl, fun _ => ⟨_, hmem, Or.inl rfl⟩⟩
    | v => rw [h1 pre _ post 0 .version h3 h4 rfl]; exact ⟨rfl, Or.inr rfl, fun _ => ⟨_, hmem, Or.inr rfl⟩⟩
    | unknown => rw [h1 pre _ post 1 .usage h3 h4 rfl]; exact ⟨rfl, Or.inl rfl, by intro hc; cases hc⟩
    | _ => exact absurd rfl h5

/-- **C160** (arguments of `-s` and `-S`): with fewer than two comma-separated pieces or exactly three
nothing is done; otherwise the particles are the first two, a mass is the pole mass of a stable particle and
of one without given mass, else the given one, and the momenta are the remaining pieces in order. -/
theorem C160_cross_sections (env : Env) (s : Settings) (text : Str) :
    ((Text.split text 44).length < 2 ∨ (Text.split text 44).length = 3 → xsArgs env s text = none) ∧
    ∀ a b more, Text.split text 44 = a :: b :: more → ∀ job, xsArgs env s text = some job →
      ∃ ma mb pl pa sa pb sb, job = .crossSections a b ma mb s.finalState pl ∧
        env.particle a = some (pa, sa) ∧ env.particle b = some (pb, sb) ∧
        (sa = true ∨ more.headD [] = [] → ma = pa) ∧
        (sa = false → more.headD [] ≠ [] → env.stod (more.headD []) = some ma) ∧
        (sb = true ∨ more.tail.headD [] = [] → mb = pb) ∧
        (sb = false → more.tail.headD [] ≠ [] → env.stod (more.tail.headD []) = some mb) ∧
        pl.map some = (more.drop 2).map env.stod := by
  have hm : ∀ pole stable arg m, partnerMass env pole stable arg = some m →
      (stable = true ∨ arg = [] → m = pole) ∧ (stable = false → arg ≠ [] → env.stod arg = some m) := by
    intro pole stable arg m h
    unfold partnerMass at h
    split at h
    · rename_i ha
      exact ⟨fun _ => (Option.some.inj h).symm, fun _ hn => absurd ha hn⟩
    · rename_i ha
      split at h
      · cases h
      · rename_i m' hm'
        have h' := Option.some.inj h
        refine ⟨?_, ?_⟩
        · rintro (hs | hn)
          · rw [hs] at h'
            by_cases he : m' = pole
            · rw [if_neg (by simp [he])] at h'; rw [← h', he]
            · rw [if_pos (by simp [he])] at h'; exact h'.symm
          · exact absurd hn ha
        · intro hs _
          rw [hs] at h'
          rw [if_neg (by simp)] at h'
          rw [hm', h']
  have hp : ∀ l pl, momenta env l = some pl → pl.map some = l.map env.stod := by
    intro l
    induction l with
    | nil => intro pl h; rw [momenta] at h; cases h; rfl
    | cons a as ih =>
      intro pl h
      rw [momenta] at h
      split at h
      · cases h
      · rename_i x hx
        cases hq : momenta env as with
        | none => rw [hq] at h; cases h
        | some q =>
          rw [hq] at h
          cases h
          rw [List.map_cons, List.map_cons, ih q hq, hx]
  constructor
  · intro h
    unfold xsArgs
    simp only
    rw [if_pos (by omega)]
  · intro a b more hsp job h
    unfold xsArgs at h
    simp only [hsp] at h
    split at h
    · cases h
    · split at h
      · rename_i pa sa pb sb ha hb
        split at h
        · rename_i xa xb pl h1 h2 h3
          exact ⟨xa, xb, pl, pa, sa, pb, sb, (Option.some.inj h).symm, ha, hb, (hm _ _ _ _ h1).1, (hm _ _ _ _ h1).2,
            (hm _ _ _ _ h2).1, (hm _ _ _ _ h2).2, hp _ _ h3⟩
        · cases h
      · cases h

/-- The YAML text `General: {key: value}`. -/
def general (key value : String) : Node := .map (.cons "General" (.map (.cons key (.scalar value) .nil)) .nil)

/-- **C160** (`-m`): the option has the effect of a further `-c 'General: {Modus: ...}'` after all others. -/
theorem C160_modus (st : State) (v : String) :
    setOpt st ["General", "Modus"] (some (.scalar v)) = ofConfig (Config.mergeYaml st (general "Modus" v)) := by
  have h := Config.setAt_merge ["General", "Modus"] (some st.root) (.scalar v) rfl
  have hn : Config.nest ["General", "Modus"] (.scalar v) = general "Modus" v := rfl
  rw [hn] at h
  unfold setOpt Config.mergeYaml
  rw [h]
  cases hs : Config.setAt (some st.root) (.scalar v) ["General", "Modus"] <;> simp [hs, ofConfig]

/-- **C160** (`-e`, what holds): the option has the effect of a further `-c` with the absolute value of what
`atof` makes of the text. -/
theorem C160_endtime_partial (env : Env) (st : State) (t : String) :
    ∃ x : Rat, 0 ≤ x ∧ (x = env.atof t ∨ x = -env.atof t) ∧
      setOpt st ["General", "End_Time"] (some (endTimeNode env t)) =
        ofConfig (Config.mergeYaml st (general "End_Time" (env.num x))) := by
  have key : ∀ w, setOpt st ["General", "End_Time"] (some (.scalar w)) =
      ofConfig (Config.mergeYaml st (general "End_Time" w)) := by
    intro w
    have h := Config.setAt_merge ["General", "End_Time"] (some st.root) (.scalar w) rfl
    have hn : Config.nest ["General", "End_Time"] (.scalar w) = general "End_Time" w := rfl
    rw [hn] at h
    unfold setOpt Config.mergeYaml
    rw [h]
    cases hs : Config.setAt (some st.root) (.scalar w) ["General", "End_Time"] <;> simp [hs, ofConfig]
  unfold endTimeNode
  by_cases hx : env.atof t < 0
  · rw [if_pos hx]
    exact ⟨-env.atof t, by grind, Or.inr rfl, key _⟩
  · rw [if_neg hx]
    exact ⟨env.atof t, by grind, Or.inl rfl, key _⟩

/-- **C160** fails for `-e`: it is documented as a shortcut for `-c 'General: {End_Time: ...}'`, but `-e -5`
runs until 5 fm, and a text that is no number gives the end time 0, where `-c` keeps the text. -/
theorem C160_endtime_false (env : Env) (h5 : env.atof "-5" = -5) (hten : env.atof "ten" = 0) (hn : env.num 5 = "5")
    (h0 : env.num 0 = "0") :
    setOpt ⟨.map .nil, []⟩ ["General", "End_Time"] (some (endTimeNode env "-5")) = .ok ⟨general "End_Time" "5", []⟩ ∧
    setOpt ⟨.map .nil, []⟩ ["General", "End_Time"] (some (endTimeNode env "ten")) = .ok ⟨general "End_Time" "0", []⟩ ∧
    Config.mergeYaml ⟨.map .nil, []⟩ (general "End_Time" "-5") = .ok ⟨general "End_Time" "-5", []⟩ ∧
    Config.mergeYaml ⟨.map .nil, []⟩ (general "End_Time" "ten") = .ok ⟨general "End_Time" "ten", []⟩ := by
  have e5 : endTimeNode env "-5" = .scalar "5" := by
    unfold endTimeNode
    rw [h5, if_pos (by decide)]
    show Node.scalar (env.num 5) = _
    rw [hn]
  have e0 : endTimeNode env "ten" = .scalar "0" := by
    unfold endTimeNode
    rw [hten, if_neg (by decide), h0]
  rw [e5, e0]
  exact ⟨rfl, rfl, rfl, rfl⟩

end Verif.Prog
