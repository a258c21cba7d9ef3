import Verif.Prog.Cli
/-! C161: the output directory. -/
namespace Verif.Prog
open Verif.Config (Node State Key)
open Verif.Text (Str)

theorem freeId_spec (taken : Nat → Bool) (fuel id : Nat) (h : ∃ i, id ≤ i ∧ i < id + fuel ∧ taken i = false) :
    taken (freeId taken fuel id) = false ∧ id ≤ freeId taken fuel id ∧
      ∀ j, id ≤ j → j < freeId taken fuel id → taken j = true := by
  induction fuel generalizing id with
  | zero => obtain ⟨i, h1, h2, -⟩ := h; omega
  | succ fuel ih =>
    rw [freeId]
    by_cases ht : taken id = true
    · rw [if_pos ht]
      obtain ⟨i, h1, h2, h3⟩ := h
      have hne : i ≠ id := fun he => by rw [he, ht] at h3; cases h3
      obtain ⟨h4, h5, h6⟩ := ih (id + 1) ⟨i, by omega, by omega, h3⟩
      refine ⟨h4, by omega, fun j hj1 hj2 => ?_⟩
      rcases Nat.eq_or_lt_of_le hj1 with rfl | hlt
      · exact ht
      · exact h6 j hlt hj2
    · rw [if_neg ht]
      exact ⟨by simpa using ht, le_refl _, fun j h1 h2 => by omega⟩

theorem freeId_full (taken : Nat → Bool) (fuel id : Nat) (h : ∀ i, taken i = true) :
    freeId taken fuel id = id + fuel - 1 := by
  induction fuel generalizing id with
  | zero => rw [freeId]; omega
  | succ fuel ih => rw [freeId, if_pos (h id), ih]; omega

/-- The directory `data/<id>` below the working directory. -/
def dataDir (env : Env) (id : Nat) : Loc := env.cwd ++ ["data", toString id]

/-- **C161** (default directory): without `-o` the results go to `data/<id>` with the smallest number that
does not exist yet (0 if there is no `data`), as long as one of the numbers below 2³¹−1 is free. -/
theorem C161_default (env : Env) (fs : Fs)
    (hdata : fs (env.cwd ++ ["data"]) = none → fs (dataDir env 0) = none)
    (hfree : ∃ i < intMax, fs (dataDir env i) = none) :
    ∃ id, (defaultOutput env fs).loc env.cwd = dataDir env id ∧ fs (dataDir env id) = none ∧
      (fs (env.cwd ++ ["data"]) ≠ none → ∀ j < id, fs (dataDir env j) ≠ none) ∧
      (fs (env.cwd ++ ["data"]) = none → id = 0) := by
  have hcat : ∀ i : Nat, env.cwd ++ ["data"] ++ [toString i] = dataDir env i := by
    intro i; unfold dataDir; simp
  by_cases hd : fs (env.cwd ++ ["data"]) = none
  · refine ⟨0, ?_, hdata hd, fun h => absurd hd h, fun _ => rfl⟩
    simp only [defaultOutput, Path.loc, hd, Option.isNone_none, if_true, hcat]
  · have hsome : (fs (env.cwd ++ ["data"])).isNone = false := by
      cases h : fs (env.cwd ++ ["data"]) with
      | none => exact absurd h hd
      | some _ => rfl
    obtain ⟨i, hi, hf⟩ := hfree
    obtain ⟨h1, -, h3⟩ := freeId_spec (fun i => (fs (dataDir env i)).isSome) intMax 0
      ⟨i, Nat.zero_le _, by omega, by simp [hf]⟩
    refine ⟨freeId (fun i => (fs (dataDir env i)).isSome) intMax 0, ?_, by simpa using h1, fun _ j hj => ?_,
      fun h => absurd h hd⟩
    · simp only [defaultOutput, Path.loc, hsome, if_true, hcat]
      rfl
    · have := h3 j (Nat.zero_le _) hj
      intro hn
      simp [hn] at this

/-- **C161** fails when the numbers are used up: the exception announced for that case is never thrown, the
last existing directory is used instead. -/
theorem C161_out_of_ids_false (env : Env) :
    ∃ fs : Fs, (∀ i : Nat, fs (dataDir env i) = some .dir) ∧
      (defaultOutput env fs).loc env.cwd = dataDir env (intMax - 1) ∧
      ensure env fs (defaultOutput env fs) = some fs := by
  refine ⟨fun _ => some .dir, fun _ => rfl, ?_, ?_⟩
  · simp only [defaultOutput, Path.loc, Option.isNone_some, Bool.false_eq_true, if_false, if_true]
    rw [freeId_full (fun _ => (some Obj.dir).isSome) intMax 0 (fun _ => rfl)]
    unfold dataDir
    simp
  · unfold ensure
    rw [if_neg (by simp [Path.isEmpty, defaultOutput])]

/-- Where the copy of the configuration and the lock file are. -/
def copyLoc (env : Env) (s : Settings) : Loc := s.output.loc env.cwd ++ ["config.yaml"]
def lockLoc (env : Env) (s : Settings) : Loc := s.output.loc env.cwd ++ ["smash.lock"]

theorem put_put_none (fs : Fs) (l : Loc) (o : Option Obj) (h : fs l = none) : put (put fs l o) l none = fs := by
  funext x
  unfold put
  by_cases hx : x = l
  · rw [if_pos hx, hx, h]
  · rw [if_neg hx, if_neg hx]

theorem copy_ne_lock (env : Env) (s : Settings) : copyLoc env s ≠ lockLoc env s := by
  unfold copyLoc lockLoc
  intro h
  have := List.append_cancel_left h
  simp at this

theorem simulate_no_overwrite (env : Env) (s : Settings) (fs : Fs) (st : State) (hf : s.force = false)
    (hc : fs (copyLoc env s) ≠ none) :
    (simulate env s fs st).code = 1 ∧ (simulate env s fs st).fs = fs ∧ (simulate env s fs st).job = .nothing := by
  have hcs : (fs (copyLoc env s)).isSome = true := by
    cases h : fs (copyLoc env s) with
    | none => exact absurd h hc
    | some _ => rfl
  unfold simulate
  split
  · exact ⟨rfl, rfl, rfl⟩
  · simp only
    by_cases hl : (fs (s.output.loc env.cwd ++ ["smash.lock"])).isSome = true
    · rw [if_pos hl]; exact ⟨rfl, rfl, rfl⟩
    · rw [if_neg hl]
      have hl' : fs (s.output.loc env.cwd ++ ["smash.lock"]) = none := by simpa using hl
      have hcopy : put fs (s.output.loc env.cwd ++ ["smash.lock"]) (some (.file "")) (s.output.loc env.cwd ++ ["config.yaml"])
          = fs (copyLoc env s) := by
        have hne : s.output.loc env.cwd ++ ["config.yaml"] ≠ s.output.loc env.cwd ++ ["smash.lock"] := copy_ne_lock env s
        unfold put
        rw [if_neg hne]
        rfl
      rw [if_pos (by rw [hcopy, hf, hcs]; rfl)]
      exact ⟨rfl, put_put_none _ _ _ hl', rfl⟩

theorem simulate_locked (env : Env) (s : Settings) (fs : Fs) (st : State) (hl : fs (lockLoc env s) ≠ none) :
    (simulate env s fs st).code = 1 ∧ (simulate env s fs st).fs = fs ∧ (simulate env s fs st).job = .nothing := by
  have hls : (fs (s.output.loc env.cwd ++ ["smash.lock"])).isSome = true := by
    cases h : fs (s.output.loc env.cwd ++ ["smash.lock"]) with
    | none => exact absurd h hl
    | some _ => rfl
  unfold simulate
  split
  · exact ⟨rfl, rfl, rfl⟩
  · simp only
    rw [if_pos hls]
    exact ⟨rfl, rfl, rfl⟩

/-- No list, table or cross section was asked for. -/
def Simulation (s : Settings) : Prop := s.list2n = false ∧ s.iss = false ∧ s.resonance = false ∧ s.xs = false

theorem body_simulation (env : Env) (s : Settings) (fs : Fs) (hs : Simulation s) :
    body env s fs = failed fs ∨ ∃ st fs1, setup env fs s = .ok st ∧ ensure env fs s.output = some fs1 ∧
      body env s fs = simulate env s fs1 st := by
  obtain ⟨h1, h2, h3, h4⟩ := hs
  unfold body
  cases hst : setup env fs s with
  | error e => exact Or.inl rfl
  | ok st =>
    cases he : ensure env fs s.output with
    | none => exact Or.inl rfl
    | some fs1 =>
      refine Or.inr ⟨st, fs1, rfl, rfl, ?_⟩
      simp only
      rw [if_neg (by simp [h1]), if_neg (by simp [h2]), if_neg (by simp [h3]), if_neg (by simp [h4])]

theorem ensure_existing (env : Env) (fs fs1 : Fs) (p : Path) (hd : fs (p.loc env.cwd) = some .dir)
    (h : ensure env fs p = some fs1) : fs1 = fs := by
  unfold ensure at h
  rw [hd] at h
  split at h
  · cases h
  · exact (Option.some.inj h).symm

/-- **C161** (existing results): a simulation without `-f` in a directory with the `config.yaml` of a
previous run ends with an error and leaves every file as it was. -/
theorem C161_no_overwrite (env : Env) (s : Settings) (fs : Fs) (hs : Simulation s) (hf : s.force = false)
    (hd : fs (s.output.loc env.cwd) = some .dir) (hc : fs (copyLoc env s) ≠ none) :
    (body env s fs).code = 1 ∧ (body env s fs).fs = fs ∧ (body env s fs).job = .nothing := by
  rcases body_simulation env s fs hs with h | ⟨st, fs1, -, h2, h3⟩
  · rw [h]; exact ⟨rfl, rfl, rfl⟩
  · rw [ensure_existing env fs fs1 _ hd h2] at h3
    rw [h3]
    exact simulate_no_overwrite env s fs st hf hc

/-- **C161** (lock): while another instance holds the lock of the directory, a simulation there ends with an
error and leaves every file as it was, with or without `-f`. -/
theorem C161_locked (env : Env) (s : Settings) (fs : Fs) (hs : Simulation s)
    (hd : fs (s.output.loc env.cwd) = some .dir) (hl : fs (lockLoc env s) ≠ none) :
    (body env s fs).code = 1 ∧ (body env s fs).fs = fs ∧ (body env s fs).job = .nothing := by
  rcases body_simulation env s fs hs with h | ⟨st, fs1, -, h2, h3⟩
  · rw [h]; exact ⟨rfl, rfl, rfl⟩
  · rw [ensure_existing env fs fs1 _ hd h2] at h3
    rw [h3]
    exact simulate_locked env s fs st hl

/-- The experiment leaves a given file alone. -/
def Keeps (env : Env) (l : Loc) : Prop :=
  (∀ out st fs, (env.create out st fs).2 l = fs l) ∧ (∀ out st fs, (env.run out st fs).2 l = fs l) ∧
  (∀ t fs, env.tables t fs l = fs l)

theorem mkdirs_keeps (fs fs' : Fs) (l x : Loc) (h : mkdirs fs l = some fs') (hx : fs x ≠ none) : fs' x = fs x := by
  unfold mkdirs at h
  split at h
  · cases h
  · cases h
    cases hf : fs x with
    | none => exact absurd hf hx
    | some o => simp [hf]

theorem tabulate_keeps (env : Env) (s : Settings) (fs fs' : Fs) (x : Loc) (hk : Keeps env x)
    (h : tabulate env s fs = some fs') (hx : fs x ≠ none) : fs' x = fs x := by
  unfold tabulate at h
  split at h
  · cases h; rfl
  · rename_i l hl
    cases hm : mkdirs fs l with
    | none => rw [hm] at h; cases h
    | some f =>
      rw [hm] at h
      cases h
      rw [hk.2.2]
      exact mkdirs_keeps fs f l x hm hx

theorem conduct_keeps (env : Env) (s : Settings) (fs : Fs) (st : State) (x : Loc) (hk : Keeps env x)
    (hx : fs x ≠ none) : (conduct env s fs st).fs x = fs x := by
  unfold conduct
  simp only
  split
  · rfl
  rename_i st1 _
  have hcr := hk.1 (s.output.loc env.cwd) st1 fs
  split
  · rename_i fs1 h1; rw [h1] at hcr; exact hcr
  rename_i left fs1 h1
  rw [h1] at hcr
  simp only at hcr
  split
  · split
    · exact hcr
    · rename_i fs2 h2
      have ht := tabulate_keeps env s fs1 fs2 x hk h2 (by rw [hcr]; exact hx)
      simp only
      rw [hk.2.1, ht, hcr]
  · exact hcr

theorem simulate_copy (env : Env) (s : Settings) (fs : Fs) (st : State) (hk : Keeps env (copyLoc env s)) (cfg : Node)
    (out : Loc) (h : (simulate env s fs st).job = .simulation cfg out) :
    out = s.output.loc env.cwd ∧ (simulate env s fs st).fs (lockLoc env s) = none ∧
    (simulate env s fs st).fs (copyLoc env s) = some (.file (env.header ++ env.text cfg)) ∧
    ∃ st1, adjust env s st = .ok st1 ∧ st1.root = cfg := by
  unfold simulate at h ⊢
  cases ha : adjust env s st with
  | error e => rw [ha] at h; cases h
  | ok st1 =>
    rw [ha] at h
    simp only at h ⊢
    split at h
    · cases h
    · rename_i hl
      rw [if_neg hl]
      split at h
      · cases h
      · rename_i hc
        rw [if_neg hc]
        simp only at h ⊢
        generalize hfs2 : put (put fs (s.output.loc env.cwd ++ ["smash.lock"]) (some (.file "")))
          (s.output.loc env.cwd ++ ["config.yaml"]) (some (.file (env.header ++ env.text st1.root))) = fs2 at h ⊢
        have hroot : st1.root = cfg ∧ s.output.loc env.cwd = out := by
          unfold conduct at h
          simp only at h
          repeat' split at h
          all_goals first
            | (cases h; done)
            | exact ⟨(Job.simulation.inj h).1, (Job.simulation.inj h).2⟩
        refine ⟨hroot.2.symm, by simp [put, lockLoc], ?_, st1, rfl, hroot.1⟩
        have hne := copy_ne_lock env s
        have h2 : fs2 (copyLoc env s) = some (.file (env.header ++ env.text cfg)) := by
          rw [← hfs2, ← hroot.1]
          unfold put copyLoc
          rw [if_pos rfl]
        show put (conduct env s fs2 st1).fs (lockLoc env s) none (copyLoc env s) = _
        unfold put
        rw [if_neg hne, conduct_keeps env s fs2 st1 _ hk (by rw [h2]; simp), h2]

/-- **C161** (copy and lock of a run): a simulation that was started leaves no lock file behind, whether it
ends well or not, and the `config.yaml` in its directory is the text of exactly the configuration that was
simulated: the input with the changes of the command line. -/
theorem C161_copy (env : Env) (s : Settings) (fs : Fs) (hk : Keeps env (copyLoc env s)) (cfg : Node)
    (out : Loc) (h : (body env s fs).job = .simulation cfg out) :
    out = s.output.loc env.cwd ∧ (body env s fs).fs (lockLoc env s) = none ∧
    (body env s fs).fs (copyLoc env s) = some (.file (env.header ++ env.text cfg)) ∧
    ∃ st st1, setup env fs s = .ok st ∧ adjust env s st = .ok st1 ∧ st1.root = cfg := by
  have hj := (C160_job env s fs).1
  rw [h] at hj
  rcases body_simulation env s fs ⟨hj.1, hj.2.1, hj.2.2.1, hj.2.2.2.1⟩ with hb | ⟨st, fs1, h1, h2, h3⟩
  · rw [hb] at h; cases h
  · rw [h3] at h ⊢
    obtain ⟨h4, h5, h6, st1, h7, h8⟩ := simulate_copy env s fs1 st hk cfg out h
    exact ⟨h4, h5, h6, st, st1, h1, h7, h8⟩

/-- **C161** (order of the checks): if the input cannot be read, is invalid or names missing tables, no file
and no directory is created. -/
theorem C161_bad_input (env : Env) (s : Settings) (fs : Fs) (e : Err) (h : setup env fs s = .error e) :
    (body env s fs).code = 1 ∧ (body env s fs).fs = fs ∧ (body env s fs).job = .nothing := by
  unfold body
  rw [h]
  exact ⟨rfl, rfl, rfl⟩

/-- **C161** (tabulations): with `-n` there is no directory for the tabulated integrals; otherwise it lies
next to the output directory, if its name was given without a slash at the end. -/
theorem C161_tabulations_partial (env : Env) (s : Settings) (hne : s.output.parts ≠ []) (hs : s.output.slash = false) :
    tabLoc env s = if s.cache then some ((s.output.loc env.cwd).dropLast ++ ["tabulations"]) else none := by
  unfold tabLoc
  by_cases hc : s.cache = true
  · rw [if_pos hc, if_pos hc]
    congr 2
    unfold Path.hasParent Path.parent Path.loc
    rw [hs]
    simp only [Bool.or_false, Bool.false_and, Bool.false_eq_true, if_false]
    by_cases ha : s.output.abs = true
    · simp [ha]
    · have ha' : s.output.abs = false := by simpa using ha
      simp only [ha', Bool.false_or, Bool.false_eq_true, if_false]
      rw [List.dropLast_append_of_ne_nil hne]
      by_cases hl : 2 ≤ s.output.parts.length
      · rw [if_pos (by simpa using hl)]
      · rw [if_neg (by simpa using hl)]
        have : s.output.parts.dropLast = [] := by
          cases hp : s.output.parts with
          | nil => rfl
          | cons x xs =>
            cases xs with
            | nil => rfl
            | cons y ys => rw [hp] at hl; simp at hl
        rw [this]
        simp
  · rw [if_neg hc, if_neg hc]

/-- **C161** fails for a directory name with a slash at the end: the tabulations go into the output directory
itself. -/
theorem C161_tabulations_false (env : Env) :
    tabLoc env { output := ⟨false, ["out"], true⟩ } = some (env.cwd ++ ["out", "tabulations"]) ∧
    tabLoc env { output := ⟨false, ["out"], false⟩ } = some (env.cwd ++ ["tabulations"]) := by
  constructor
  · simp [tabLoc, Path.hasParent, Path.parent, Path.loc]
  · simp [tabLoc, Path.hasParent]

/-! ### An example -/

/-- A small configuration: `General: {Randomseed: -1}`. -/
def exConfig : Node := general "Randomseed" "-1"

/-- A program in the directory `w` whose run writes one file. -/
def exEnv : Env where
  cwd := ["w"]
  yaml := fun t => if t = "General: {Randomseed: -1}" then some exConfig else none
  text := fun _ => "the configuration"
  header := "# comment\n"
  valid := fun _ => true
  level := fun _ => some ()
  loggers := fun _ => true
  atof := fun t => if t = "-5" then -5 else 0
  num := fun x => if x = 5 then "5" else "0"
  seed := fun n => match n with
    | .scalar s => if s = "-1" then some (-1) else if s = "42" then some 42 else none
    | _ => none
  seedText := fun z => if z = 42 then "42" else "-1"
  newSeed := 42
  particlesTxt := "pions"
  decaymodesTxt := "decays"
  types := fun _ _ => true
  tables := fun _ fs => fs
  create := fun _ _ fs => (some ⟨.null, []⟩, fs)
  run := fun out _ fs => (true, put fs (out ++ ["particle_lists.oscar"]) (some (.file "new results")))
  finder := fun _ => some ⟨.null, []⟩
  particle := fun _ => some (1, true)
  resonance := fun _ => true
  stod := fun _ => none

/-- Its files: the input and a directory with results of another program. -/
def exFs : Fs := fun l =>
  if l = ["w", "config.yaml"] then some (.file "General: {Randomseed: -1}")
  else if l = ["w", "out"] then some .dir
  else if l = ["w", "out", "particle_lists.oscar"] then some (.file "old results")
  else if l = ["w"] then some .dir
  else none

/-- The path `out`. -/
def exOut : Path := ⟨false, ["out"], false⟩

/-- **C161** fails for the documented rule that the directory must be empty without `-f`: only a file called
`config.yaml` is looked for, so a run in a directory with other results replaces them. -/
theorem C161_empty_false :
    exFs (["w", "out", "particle_lists.oscar"]) = some (.file "old results") ∧
    (main exEnv exFs [.i ⟨false, ["config.yaml"], false⟩, .o exOut, .n] false).code = 0 ∧
    (main exEnv exFs [.i ⟨false, ["config.yaml"], false⟩, .o exOut, .n] false).fs
      ["w", "out", "particle_lists.oscar"] = some (.file "new results") := by
  refine ⟨by decide +kernel, by decide +kernel, by decide +kernel⟩

/-- The same program, where setting up an experiment opens a new output file. -/
def exEnvOpen : Env :=
  { exEnv with create := fun out _ fs => (some ⟨.null, []⟩, put fs (out ++ ["particle_lists.oscar.unfinished"]) (some (.file ""))) }

/-- The directory of a running simulation: lock, copied configuration and unfinished results. -/
def exBusy : Fs :=
  put (put (put exFs ["w", "out", "smash.lock"] (some (.file ""))) ["w", "out", "config.yaml"] (some (.file "copy")))
    ["w", "out", "particle_lists.oscar.unfinished"] (some (.file "half of the results"))

/-- **C161** fails for `-r`: it sets up an experiment in the output directory without looking at the lock or at
existing results, so it empties the output files of a running simulation and ends with exit code 0. -/
theorem C161_widths_false :
    (main exEnvOpen exBusy [.o exOut, .n, .r "113"] false).code = 0 ∧
    (main exEnvOpen exBusy [.o exOut, .n] false).code = 1 ∧
    exBusy ["w", "out", "particle_lists.oscar.unfinished"] = some (.file "half of the results") ∧
    (main exEnvOpen exBusy [.o exOut, .n, .r "113"] false).fs ["w", "out", "particle_lists.oscar.unfinished"]
      = some (.file "") := by
  refine ⟨by decide +kernel, by decide +kernel, by decide +kernel, by decide +kernel⟩

/-- The hypotheses of `C161_default` are met: without `data` the first number is taken. -/
example : (defaultOutput exEnv exFs).loc exEnv.cwd = dataDir exEnv 0 := by decide +kernel

/-- A finished run: no lock, a copy of the configuration with the new seed; a second one is refused. -/
example : (main exEnv exFs [.o exOut] false).fs ["w", "out", "smash.lock"] = none ∧
    (main exEnv exFs [.o exOut] false).fs ["w", "out", "config.yaml"] = some (.file "# comment\nthe configuration") ∧
    (main exEnv (main exEnv exFs [.o exOut] false).fs [.o exOut] false).code = 1 ∧
    (main exEnv (main exEnv exFs [.o exOut] false).fs [.o exOut, .f] false).code = 0 := by
  refine ⟨by decide +kernel, by decide +kernel, by decide +kernel, by decide +kernel⟩

/-- The lock of another instance. -/
example : (main exEnv (put exFs ["w", "out", "smash.lock"] (some (.file ""))) [.o exOut, .f] false).code = 1 := by
  decide +kernel

example : Simulation { output := exOut } ∧ Keeps exEnv (copyLoc exEnv { output := exOut }) := by
  refine ⟨⟨rfl, rfl, rfl, rfl⟩, fun _ _ _ => rfl, fun out _ fs => ?_, fun _ _ => rfl⟩
  show put fs (out ++ ["particle_lists.oscar"]) _ ["w", "out", "config.yaml"] = _
  unfold put
  rw [if_neg (by
    intro h
    have := congrArg List.getLast? h
    simp at this)]
  rfl

/-- The hypotheses of `C160_endtime_false` are met; options in any order. -/
example : exEnv.atof "-5" = -5 ∧ exEnv.atof "ten" = 0 ∧ exEnv.num 5 = "5" ∧ exEnv.num 0 = "0" := by
  refine ⟨by decide +kernel, by decide +kernel, by decide +kernel, by decide +kernel⟩

example : (match parse { output := exOut } [.m "Box", .c "a", .m "List", .f, .c "b"] with
    | .go t => (t.modus, t.extra, t.force)
    | .stop _ _ => (none, [], false)) = (some "List", ["a", "b"], true) := by decide +kernel

/-- Two, three and five pieces. -/
example : (xsArgs exEnv { output := exOut } "p,n".toUTF8.toList).isSome = true ∧
    (xsArgs exEnv { output := exOut } "p,n,1".toUTF8.toList).isSome = false := by
  refine ⟨by decide +kernel, by decide +kernel⟩

end Verif.Prog
