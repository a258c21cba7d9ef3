import Verif.Prog.Out
import Verif.Config.Take
/-! C162: what enters a simulation, and its reproduction from the copied configuration. -/
namespace Verif.Prog
open Verif.Config (Node State Key Related SectionOf findNode NoEmpty)

/-! ### Specification -/

/-- The keys with their values. -/
abbrev Entry := List String × Node

/-- The keys the program itself may set. -/
def special : List (List String) :=
  [["particles"], ["decaymodes"], ["General", "Modus"], ["General", "End_Time"], ["General", "Randomseed"]]

/-- No list in a place where a section is needed. -/
def Sound (root : Node) : Prop := ∀ l, (([], Node.seq l) : Entry) ∉ root.leaves ∧ (["General"], Node.seq l) ∉ root.leaves

/-- `L'` is `L` after setting a key, if there is a value for it. -/
def SetTo (L L' : List Entry) (labels : List String) (v : Option Node) : Prop :=
  ∀ e, e ∈ L' ↔ (∃ n, v = some n ∧ e = (labels, n)) ∨ (e ∈ L ∧ (v = none ∨ ¬Related e.1 labels))

/-- The table that is used: the given file, else the one in the configuration, else the compiled-in text. -/
def UsedTable (env : Env) (fs : Fs) (base : List Entry) (key : String) (given : Path) (builtin : String) (x : Node) : Prop :=
  (given.isEmpty = false ∧ ∃ t, readFile fs (given.loc env.cwd) = .ok t ∧ x = .scalar t) ∨
  (given.isEmpty = true ∧ (∃ n, n ≠ .null ∧ ([key], n) ∈ base) ∧ ([key], x) ∈ base) ∨
  (given.isEmpty = true ∧ (∀ n, ([key], n) ∈ base → n = .null) ∧ x = .scalar builtin)

theorem sectionOf_one (p : List String) (a : String) (h : SectionOf p [a]) : p = [] := by
  obtain ⟨k, r, h⟩ := h
  cases p with
  | nil => rfl
  | cons x xs => cases xs <;> simp at h

theorem sectionOf_two (p : List String) (a b : String) (h : SectionOf p [a, b]) : p = [] ∨ p = [a] := by
  obtain ⟨k, r, h⟩ := h
  cases p with
  | nil => exact Or.inl rfl
  | cons x xs =>
    cases xs with
    | nil => simp at h; exact Or.inr (by rw [h.1])
    | cons y ys => cases ys <;> simp at h

theorem setOpt_spec (st st' : State) (labels : List String) (v : Option Node) (hw : st.root.WF) (hs : Sound st.root)
    (hl : labels = ["particles"] ∨ labels = ["decaymodes"] ∨ ∃ k, k ≠ "" ∧ labels = ["General", k])
    (hv : ∀ n, v = some n → ∃ t, n = .scalar t) (h : setOpt st labels v = .ok st') :
    st'.root.WF ∧ Sound st'.root ∧ SetTo st.root.leaves st'.root.leaves labels v := by
  cases v with
  | none =>
    rw [setOpt] at h
    cases h
    exact ⟨hw, hs, fun e => by simp⟩
  | some n =>
    obtain ⟨t, rfl⟩ := hv n rfl
    have hne : ∀ k ∈ labels, k ≠ "" := by
      rcases hl with rfl | rfl | ⟨k, hk, rfl⟩
      · simp
      · simp
      · simp [hk]
    have hns : ∀ p l, (p, Node.seq l) ∈ st.root.leaves → ¬SectionOf p labels := by
      intro p l hp hsec
      rcases hl with rfl | rfl | ⟨k, hk, rfl⟩
      · rw [sectionOf_one _ _ hsec] at hp; exact (hs l).1 hp
      · rw [sectionOf_one _ _ hsec] at hp; exact (hs l).1 hp
      · rcases sectionOf_two _ _ _ hsec with rfl | rfl
        · exact (hs l).1 hp
        · exact (hs l).2 hp
    obtain ⟨h1, h2⟩ := Config.C72_set_value st.root labels (.scalar t) hw rfl hne hns
    simp only [setOpt] at h
    by_cases hc : ∃ p s, (p, Node.scalar s) ∈ st.root.leaves ∧ SectionOf p labels
    · obtain ⟨e, he⟩ := h1 hc
      rw [he] at h
      cases h
    · obtain ⟨n, h3, h4, h5⟩ := h2 (fun p s hp hsec => hc ⟨p, s, hp, hsec⟩)
      rw [h3] at h
      cases h
      refine ⟨h4, ?_, fun e => ?_⟩
      · intro l
        constructor
        · intro hm
          rcases (h5 _).1 hm with he | he
          · cases he
          · exact (hs l).1 he.1
        · intro hm
          rcases (h5 _).1 hm with he | he
          · cases he
          · exact (hs l).2 he.1
      · rw [h5 e]
        simp

/-- `setTable` sets the key or leaves the configuration as it is. -/
theorem setTable_spec (st st' : State) (label : String) (given : Bool) (text : String)
    (h : setTable st label given text = .ok st') :
    ∃ v : Option Node, setOpt st [label] v = .ok st' ∧ (v = none ∨ v = some (.scalar text)) ∧
      (given = true → v = some (.scalar text)) ∧
      (given = false → (v = none ↔ Config.hasValue st (textKey label) = .ok true)) := by
  unfold setTable at h
  split at h
  · cases h
  · rename_i has hh
    by_cases hc : (!has || given) = true
    · rw [if_pos hc] at h
      refine ⟨some (.scalar text), ?_, Or.inr rfl, fun _ => rfl, fun hg => ?_⟩
      · unfold setOpt
        exact h
      · constructor
        · intro hn; cases hn
        · intro ht
          rw [hh] at ht
          rw [hg] at hc
          cases ht
          cases hc
    · rw [if_neg hc] at h
      cases h
      have hb : has = true ∧ given = false := by
        cases has <;> cases given <;> simp_all
      exact ⟨none, rfl, Or.inl rfl, fun hg => (by rw [hb.2] at hg; cases hg),
        fun _ => ⟨fun _ => (by rw [hh, hb.1]), fun _ => rfl⟩⟩

theorem setupLogging_spec (env : Env) (st rest : State) (hw : st.root.WF) (h : setupLogging env st = .ok rest) :
    rest.root.WF ∧ (∀ e, e ∈ rest.root.leaves ↔ e ∈ st.root.leaves ∧ ¬["Logging"] <+: e.1) ∧
    findNode rest.root ["Logging"] = .ok none := by
  obtain ⟨ht1, -, -, ht4, -⟩ := Config.take_spec st (logDefault env) hw (by simp [logDefault])
  unfold setupLogging at h
  split at h
  · cases h
  rename_i u st1 htk
  rw [htk] at ht1 ht4
  simp only at ht1 ht4
  split at h
  · cases h
  rename_i sub rest' hex
  split at h
  swap
  · cases h
  cases h
  have hpre : ∀ e, Config.Takes (.take (logDefault env)) e → ["Logging"] <+: e.1 := by
    intro e he
    unfold Config.Takes at he
    have h2 : ["Logging", "default"] <+: e.1 := by
      simp only [logDefault] at he
      rcases he with he | he
      · rw [he.1]; exact List.prefix_rfl
      · cases he.1
    exact List.IsPrefix.trans (by decide) h2
  have hleaf : ∀ e, (e ∈ st1.root.leaves ∧ ¬["Logging"] <+: e.1) ↔ e ∈ st.root.leaves ∧ ¬["Logging"] <+: e.1 := by
    intro e
    rw [ht4 e]
    constructor
    · rintro ⟨⟨h1, -⟩, h3⟩; exact ⟨h1, h3⟩
    · rintro ⟨h1, h3⟩; exact ⟨⟨h1, fun h2 => h3 (hpre e h2)⟩, h3⟩
  cases hf : findNode st1.root ["Logging"] with
  | error e => unfold Config.extract at hex; rw [hf] at hex; cases hex
  | ok o =>
    cases o with
    | none =>
      unfold Config.extract at hex
      rw [hf] at hex
      simp only [if_true] at hex
      have h11 : st1 = rest := (Prod.mk.inj (Except.ok.inj hex)).2
      subst h11
      refine ⟨ht1, fun e => ?_, hf⟩
      rw [← hleaf e]
      refine ⟨fun he => ⟨he, fun hp => ?_⟩, fun he => he.1⟩
      obtain ⟨q, hq⟩ := hp
      have := Config.findNode_absent ["Logging"] st1.root ht1 (fun m hm => by rw [hf] at hm; cases hm) q e.2
      exact this (by rw [hq]; exact he)
    | some n =>
      obtain ⟨-, h2, -, h4, h5, -⟩ := Config.C72_extract st1 sub rest ["Logging"] true ht1 (by simp) n hf hex
      refine ⟨h4, fun e => by rw [h2 e]; exact hleaf e, ?_⟩
      cases hr : findNode rest.root ["Logging"] with
      | error e =>
        obtain ⟨p, q, l, h6, h7, h8⟩ := Config.findNode_error ["Logging"] rest.root h4 e hr
        have hp : p = [] := sectionOf_one p "Logging" (by
          cases q with
          | nil => exact absurd rfl h7
          | cons k r => exact ⟨k, r, h6⟩)
        subst hp
        have h9 := (Config.findNode_leaf [] st1.root (.seq l) ht1 rfl).2 ((h2 _).1 h8).1
        rw [findNode] at h9
        have h10 : st1.root = .seq l := Option.some.inj (Except.ok.inj h9)
        rw [h10] at hf
        cases l <;> simp [findNode, Config.descend] at hf
      | ok o =>
        cases o with
        | none => rfl
        | some m =>
          exfalso
          have hne := h5 ["Logging"] m (by simp) hr
          obtain ⟨⟨p, v⟩, hp⟩ := List.exists_mem_of_ne_nil _ hne
          have := (Config.findNode_below ["Logging"] rest.root m h4 hr p v).2 hp
          exact ((h2 (["Logging"] ++ p, v)).1 this).2 ⟨p, rfl⟩

theorem SetTo.other {L L' : List Entry} {k : List String} {v : Option Node} (h : SetTo L L' k v) (e : Entry)
    (hn : ¬Related e.1 k) : e ∈ L' ↔ e ∈ L := by
  rw [h e]
  constructor
  · rintro (⟨n, -, rfl⟩ | h1)
    · exact absurd (Or.inl List.prefix_rfl) hn
    · exact h1.1
  · exact fun h1 => Or.inr ⟨h1, Or.inr hn⟩

theorem SetTo.self {L L' : List Entry} {k : List String} {v : Option Node} (h : SetTo L L' k v) (x : Node) :
    (k, x) ∈ L' ↔ v = some x ∨ (v = none ∧ (k, x) ∈ L) := by
  rw [h (k, x)]
  constructor
  · rintro (⟨n, h1, h2⟩ | ⟨h1, h2⟩)
    · exact Or.inl (by rw [h1, (Prod.mk.inj h2).2])
    · rcases h2 with h2 | h2
      · exact Or.inr ⟨h2, h1⟩
      · exact absurd (Or.inl List.prefix_rfl) h2
  · rintro (h1 | ⟨h1, h2⟩)
    · exact Or.inl ⟨x, h1, rfl⟩
    · exact Or.inr ⟨h2, Or.inl h1⟩

theorem hasValue_iff (st : State) (label : String) (hw : st.root.WF) :
    Config.hasValue st (textKey label) = .ok true ↔ ∃ n, n ≠ .null ∧ ([label], n) ∈ st.root.leaves := by
  unfold Config.hasValue
  have hlab : (textKey label).labels = [label] := rfl
  rw [hlab]
  constructor
  · intro h
    split at h
    · cases h
    · cases h
    · rename_i n hn
      have hb := Except.ok.inj h
      cases n with
      | map f => cases hb
      | null => cases hb
      | scalar t => exact ⟨_, by simp, (Config.findNode_leaf [label] st.root _ hw rfl).1 hn⟩
      | seq l => exact ⟨_, by simp, (Config.findNode_leaf [label] st.root _ hw rfl).1 hn⟩
  · rintro ⟨n, hne, hm⟩
    have hv := Config.leaf_not_map [label] st.root n hw hm
    rw [(Config.findNode_leaf [label] st.root n hw hv).2 hm]
    cases n with
    | map f => cases hv
    | null => exact absurd rfl hne
    | scalar t => rfl
    | seq l => rfl

theorem read_seed (env : Env) (st : State) (hw : st.root.WF) (z : Int) (h : Config.read st (seedKey env) = .ok z) :
    ∃ n, n ≠ .null ∧ (["General", "Randomseed"], n) ∈ st.root.leaves ∧ env.seed n = some z := by
  have hlab : (seedKey env).labels = ["General", "Randomseed"] := rfl
  have hhas : Config.hasValue st (seedKey env) = .ok true := by
    cases hv : Config.hasValue st (seedKey env) with
    | error e => unfold Config.read at h; rw [hv] at h; cases h
    | ok b =>
      cases b with
      | true => rfl
      | false =>
        exfalso
        unfold Config.read at h
        rw [hv] at h
        simp only at h
        split at h
        · cases h
        · simp only [seedKey, Bool.false_eq_true, if_false] at h; cases h
        · simp only [Config.defaultOr, seedKey] at h; cases h
  unfold Config.read at h
  rw [hhas] at h
  simp only at h
  unfold Config.hasValue at hhas
  split at h
  · rename_i n hn
    rw [hn] at hhas
    simp only at hhas
    rw [hlab] at hn
    have hb := Except.ok.inj hhas
    have hconv : env.seed n = some z := by
      unfold Config.convert at h
      simp only [seedKey] at h
      split at h
      · cases h
      · rename_i v hv
        simp only [if_true] at h
        cases h
        exact hv
    cases n with
    | map f => cases hb
    | null => cases hb
    | scalar t => exact ⟨_, by simp, (Config.findNode_leaf _ st.root _ hw rfl).1 hn, hconv⟩
    | seq l => exact ⟨_, by simp, (Config.findNode_leaf _ st.root _ hw rfl).1 hn, hconv⟩
  · cases h

theorem leaf_unique (root : Node) (hw : root.WF) (k : List String) (x y : Node) (hx : (k, x) ∈ root.leaves)
    (hy : (k, y) ∈ root.leaves) : x = y := by
  have h1 := (Config.findNode_leaf k root x hw (Config.leaf_not_map k root x hw hx)).2 hx
  have h2 := (Config.findNode_leaf k root y hw (Config.leaf_not_map k root y hw hy)).2 hy
  rw [h1] at h2
  exact Option.some.inj (Except.ok.inj h2)

/-- The steps from the merged configuration to the one that is simulated. -/
theorem steps (env : Env) (fs : Fs) (s : Settings) (base st st' : State)
    (hb : createConfiguration env fs s = .ok base) (hw : base.root.WF) (hs : Sound base.root)
    (h1 : setup env fs s = .ok st) (h2 : adjust env s st = .ok st') :
    env.valid base.root = true ∧ ∃ (l p d m e : State) (pt dt : String) (vp vd vs : Option Node) (z : Int) (n : Node),
      setupLogging env base = .ok l ∧
      loadTable env fs s.particles env.particlesTxt = .ok pt ∧ loadTable env fs s.decaymodes env.decaymodesTxt = .ok dt ∧
      setOpt l ["particles"] vp = .ok p ∧ setOpt p ["decaymodes"] vd = .ok d ∧
      setOpt d ["General", "Modus"] (s.modus.map Node.scalar) = .ok m ∧
      setOpt m ["General", "End_Time"] (s.endTime.map (endTimeNode env)) = .ok e ∧
      setOpt e ["General", "Randomseed"] vs = .ok st' ∧
      l.root.WF ∧ p.root.WF ∧ d.root.WF ∧ m.root.WF ∧ e.root.WF ∧ st'.root.WF ∧
      (∀ x, x ∈ l.root.leaves ↔ x ∈ base.root.leaves ∧ ¬["Logging"] <+: x.1) ∧
      SetTo l.root.leaves p.root.leaves ["particles"] vp ∧ SetTo p.root.leaves d.root.leaves ["decaymodes"] vd ∧
      SetTo d.root.leaves m.root.leaves ["General", "Modus"] (s.modus.map Node.scalar) ∧
      SetTo m.root.leaves e.root.leaves ["General", "End_Time"] (s.endTime.map (endTimeNode env)) ∧
      SetTo e.root.leaves st'.root.leaves ["General", "Randomseed"] vs ∧
      (vp = none ∨ vp = some (.scalar pt)) ∧ (s.particles.isEmpty = false → vp = some (.scalar pt)) ∧
      (s.particles.isEmpty = true → (vp = none ↔ ∃ x, x ≠ .null ∧ (["particles"], x) ∈ l.root.leaves)) ∧
      (vd = none ∨ vd = some (.scalar dt)) ∧ (s.decaymodes.isEmpty = false → vd = some (.scalar dt)) ∧
      (s.decaymodes.isEmpty = true → (vd = none ↔ ∃ x, x ≠ .null ∧ (["decaymodes"], x) ∈ p.root.leaves)) ∧
      n ≠ .null ∧ (["General", "Randomseed"], n) ∈ e.root.leaves ∧ env.seed n = some z ∧
      vs = (if z < 0 then some (.scalar (env.seedText env.newSeed)) else none) := by
  unfold setup at h1
  rw [hb] at h1
  simp only at h1
  split at h1
  swap
  · cases h1
  rename_i hval
  refine ⟨hval, ?_⟩
  cases hlog : setupLogging env base with
  | error e => rw [hlog] at h1; cases h1
  | ok l =>
    rw [hlog] at h1
    simp only at h1
    obtain ⟨hlw, hll, -⟩ := setupLogging_spec env base l hw hlog
    have hls : Sound l.root := fun q => ⟨fun hm => (hs q).1 ((hll _).1 hm).1, fun hm => (hs q).2 ((hll _).1 hm).1⟩
    unfold setTables at h1
    cases hpt : loadTable env fs s.particles env.particlesTxt with
    | error e => rw [hpt] at h1; cases h1
    | ok pt =>
      rw [hpt] at h1
      simp only at h1
      cases hdt : loadTable env fs s.decaymodes env.decaymodesTxt with
      | error e => rw [hdt] at h1; cases h1
      | ok dt =>
        rw [hdt] at h1
        simp only at h1
        cases hp : setTable l "particles" (!s.particles.isEmpty) pt with
        | error e => rw [hp] at h1; cases h1
        | ok p =>
          rw [hp] at h1
          simp only at h1
          obtain ⟨vp, hp1, hp2, hp3, hp4⟩ := setTable_spec l p "particles" _ pt hp
          obtain ⟨vd, hd1, hd2, hd3, hd4⟩ := setTable_spec p st "decaymodes" _ dt h1
          obtain ⟨hpw, hps, hpl⟩ := setOpt_spec l p ["particles"] vp hlw hls (Or.inl rfl)
            (by rintro n rfl; rcases hp2 with h | h <;> cases h; exact ⟨_, rfl⟩) hp1
          obtain ⟨hdw, hds, hdl⟩ := setOpt_spec p st ["decaymodes"] vd hpw hps (Or.inr (Or.inl rfl))
            (by rintro n rfl; rcases hd2 with h | h <;> cases h; exact ⟨_, rfl⟩) hd1
          unfold adjust at h2
          cases hm : setOpt st ["General", "Modus"] (s.modus.map Node.scalar) with
          | error e => rw [hm] at h2; cases h2
          | ok m =>
            rw [hm] at h2
            simp only at h2
            obtain ⟨hmw, hms, hml⟩ := setOpt_spec st m ["General", "Modus"] _ hdw hds
              (Or.inr (Or.inr ⟨"Modus", by simp, rfl⟩))
              (by intro n hn; cases hmm : s.modus <;> rw [hmm] at hn <;> cases hn; exact ⟨_, rfl⟩) hm
            cases he : setOpt m ["General", "End_Time"] (s.endTime.map (endTimeNode env)) with
            | error e => rw [he] at h2; cases h2
            | ok e =>
              rw [he] at h2
              simp only at h2
              obtain ⟨hew, hes, hel⟩ := setOpt_spec m e ["General", "End_Time"] _ hmw hms
                (Or.inr (Or.inr ⟨"End_Time", by simp, rfl⟩))
                (by intro n hn; cases hmm : s.endTime <;> rw [hmm] at hn <;> cases hn; exact ⟨_, rfl⟩) he
              unfold fixSeed at h2
              cases hr : Config.read e (seedKey env) with
              | error x => rw [hr] at h2; cases h2
              | ok z =>
                rw [hr] at h2
                simp only at h2
                obtain ⟨n, hn1, hn2, hn3⟩ := read_seed env e hew z hr
                obtain ⟨hsw, -, hsl⟩ := setOpt_spec e st' ["General", "Randomseed"] _ hew hes
                  (Or.inr (Or.inr ⟨"Randomseed", by simp, rfl⟩))
                  (by intro n hn; split at hn <;> cases hn; exact ⟨_, rfl⟩) h2
                refine ⟨l, p, st, m, e, pt, dt, vp, vd, _, z, n, rfl, rfl, rfl, hp1, hd1, hm, he, h2, hlw, hpw, hdw,
                  hmw, hew, hsw, hll, hpl, hdl, hml, hel, hsl, hp2, ?_, ?_, hd2, ?_, ?_, hn1, hn2, hn3, rfl⟩
                · exact fun hh => hp3 (by rw [hh]; rfl)
                · intro hh
                  rw [hp4 (by rw [hh]; rfl), hasValue_iff l "particles" hlw]
                · exact fun hh => hd3 (by rw [hh]; rfl)
                · intro hh
                  rw [hd4 (by rw [hh]; rfl), hasValue_iff p "decaymodes" hpw]

theorem used_table (env : Env) (fs : Fs) (base L L' : List Entry) (key : String) (given : Path) (builtin text : String)
    (v : Option Node) (hL : ∀ x, ([key], x) ∈ L ↔ ([key], x) ∈ base)
    (ht : loadTable env fs given builtin = .ok text) (hset : SetTo L L' [key] v)
    (h1 : v = none ∨ v = some (.scalar text)) (h2 : given.isEmpty = false → v = some (.scalar text))
    (h3 : given.isEmpty = true → (v = none ↔ ∃ x, x ≠ .null ∧ ([key], x) ∈ L)) (x : Node) :
    ([key], x) ∈ L' ↔ UsedTable env fs base key given builtin x := by
  rw [hset.self x]
  unfold UsedTable
  unfold loadTable at ht
  cases hg : given.isEmpty with
  | false =>
    rw [hg, if_neg (by simp)] at ht
    rw [h2 hg]
    constructor
    · rintro (h | ⟨h, -⟩)
      · exact Or.inl ⟨rfl, text, ht, (Option.some.inj h).symm⟩
      · cases h
    · rintro (⟨-, t, h4, h5⟩ | ⟨h, -⟩ | ⟨h, -⟩)
      · rw [ht] at h4
        cases h4
        exact Or.inl (by rw [h5])
      · cases h
      · cases h
  | true =>
    rw [hg, if_pos rfl] at ht
    cases ht
    have h3' := h3 hg
    simp only [hL] at h3'
    rcases h1 with rfl | rfl
    · obtain ⟨n, hn1, hn2⟩ := h3'.1 rfl
      constructor
      · rintro (h | ⟨-, h⟩)
        · cases h
        · exact Or.inr (Or.inl ⟨rfl, ⟨n, hn1, hn2⟩, (hL x).1 h⟩)
      · rintro (⟨h, -⟩ | ⟨-, -, h⟩ | ⟨-, h, -⟩)
        · cases h
        · exact Or.inr ⟨rfl, (hL x).2 h⟩
        · exact absurd (h n hn2) hn1
    · have hno : ∀ n, ([key], n) ∈ base → n = .null := by
        intro n hn
        by_contra hne
        have := h3'.2 ⟨n, hne, hn⟩
        cases this
      constructor
      · rintro (h | ⟨h, -⟩)
        · exact Or.inr (Or.inr ⟨rfl, hno, (Option.some.inj h).symm⟩)
        · cases h
      · rintro (⟨h, -⟩ | ⟨-, ⟨n, hn1, hn2⟩, -⟩ | ⟨-, -, h⟩)
        · cases h
        · exact absurd (hno n hn2) hn1
        · exact Or.inl (by rw [h])

instance (p q : List String) : Decidable (Related p q) := by unfold Related; infer_instance

/-- **C162** (configuration of a run): the configuration that is simulated has the keys of the input with the
`-c` texts merged in, except those about logging; the mode is the one of `-m`, the end time the one of `-e`,
a negative seed is replaced by a new one, and the particle and decay tables are those of the files on the
command line, else those in the configuration, else the compiled-in ones. -/
theorem C162_config (env : Env) (fs : Fs) (s : Settings) (base st st' : State)
    (hb : createConfiguration env fs s = .ok base) (hw : base.root.WF) (hs : Sound base.root)
    (h1 : setup env fs s = .ok st) (h2 : adjust env s st = .ok st') :
    (∀ e : Entry, (∀ k ∈ special, ¬Related e.1 k) →
      (e ∈ st'.root.leaves ↔ e ∈ base.root.leaves ∧ ¬["Logging"] <+: e.1)) ∧
    (∀ x, (["General", "Modus"], x) ∈ st'.root.leaves ↔
      (∃ v, s.modus = some v ∧ x = .scalar v) ∨ (s.modus = none ∧ (["General", "Modus"], x) ∈ base.root.leaves)) ∧
    (∀ x, (["General", "End_Time"], x) ∈ st'.root.leaves ↔
      (∃ t, s.endTime = some t ∧ x = endTimeNode env t) ∨
      (s.endTime = none ∧ (["General", "End_Time"], x) ∈ base.root.leaves)) ∧
    (∃ n z, (["General", "Randomseed"], n) ∈ base.root.leaves ∧ env.seed n = some z ∧
      ∀ x, (["General", "Randomseed"], x) ∈ st'.root.leaves ↔
        x = if z < 0 then .scalar (env.seedText env.newSeed) else n) ∧
    (∀ x, (["particles"], x) ∈ st'.root.leaves ↔
      UsedTable env fs base.root.leaves "particles" s.particles env.particlesTxt x) ∧
    (∀ x, (["decaymodes"], x) ∈ st'.root.leaves ↔
      UsedTable env fs base.root.leaves "decaymodes" s.decaymodes env.decaymodesTxt x) := by
  obtain ⟨-, l, p, d, m, e, pt, dt, vp, vd, vs, z, n, -, hpt, hdt, -, -, -, -, -, hlw, hpw, hdw, hmw, hew, hsw, hl,
    hp, hd, hm, he, hsd, hvp1, hvp2, hvp3, hvd1, hvd2, hvd3, hn1, hn2, hn3, hvs⟩ :=
    steps env fs s base st st' hb hw hs h1 h2
  refine ⟨?_, ?_, ?_, ?_, ?_, ?_⟩
  · intro x hx
    have hk : ∀ k ∈ special, ¬Related x.1 k := hx
    rw [hsd.other x (hk _ (by decide)), he.other x (hk _ (by decide)), hm.other x (hk _ (by decide)),
      hd.other x (hk _ (by decide)), hp.other x (hk _ (by decide)), hl x]
  · intro x
    rw [hsd.other (["General", "Modus"], x) (by dsimp only; decide), he.other (["General", "Modus"], x) (by dsimp only; decide), hm.self x,
      hd.other (["General", "Modus"], x) (by dsimp only; decide), hp.other (["General", "Modus"], x) (by dsimp only; decide), hl]
    have hlog : ¬["Logging"] <+: ["General", "Modus"] := by decide
    cases s.modus with
    | none => simp [hlog]
    | some v => simp [eq_comm]
  · intro x
    rw [hsd.other (["General", "End_Time"], x) (by dsimp only; decide), he.self x, hm.other (["General", "End_Time"], x) (by dsimp only; decide),
      hd.other (["General", "End_Time"], x) (by dsimp only; decide), hp.other (["General", "End_Time"], x) (by dsimp only; decide), hl]
    have hlog : ¬["Logging"] <+: ["General", "End_Time"] := by decide
    cases s.endTime with
    | none => simp [hlog]
    | some v => simp [eq_comm]
  · have hbase : ∀ x, (["General", "Randomseed"], x) ∈ e.root.leaves ↔ (["General", "Randomseed"], x) ∈ base.root.leaves := by
      intro x
      have hlog : ¬["Logging"] <+: ["General", "Randomseed"] := by decide
      rw [he.other (["General", "Randomseed"], x) (by dsimp only; decide), hm.other (["General", "Randomseed"], x) (by dsimp only; decide),
        hd.other (["General", "Randomseed"], x) (by dsimp only; decide), hp.other (["General", "Randomseed"], x) (by dsimp only; decide), hl]
      exact ⟨fun h => h.1, fun h => ⟨h, hlog⟩⟩
    refine ⟨n, z, (hbase n).1 hn2, hn3, fun x => ?_⟩
    rw [hsd.self x, hvs]
    by_cases hz : z < 0
    · rw [if_pos hz, if_pos hz]
      simp [eq_comm]
    · rw [if_neg hz, if_neg hz]
      constructor
      · rintro (h | ⟨-, h⟩)
        · cases h
        · exact leaf_unique e.root hew _ x n h hn2
      · rintro rfl
        exact Or.inr ⟨rfl, hn2⟩
  · intro x
    rw [hsd.other (["particles"], x) (by dsimp only; decide), he.other (["particles"], x) (by dsimp only; decide),
      hm.other (["particles"], x) (by dsimp only; decide), hd.other (["particles"], x) (by dsimp only; decide)]
    refine used_table env fs base.root.leaves l.root.leaves p.root.leaves "particles" s.particles env.particlesTxt pt vp
      (fun x => ?_) hpt hp hvp1 hvp2 hvp3 x
    rw [hl]
    exact ⟨fun h => h.1, fun h => ⟨h, (by dsimp only; decide)⟩⟩
  · intro x
    rw [hsd.other (["decaymodes"], x) (by dsimp only; decide), he.other (["decaymodes"], x) (by dsimp only; decide),
      hm.other (["decaymodes"], x) (by dsimp only; decide)]
    refine used_table env fs base.root.leaves p.root.leaves d.root.leaves "decaymodes" s.decaymodes env.decaymodesTxt dt
      vd (fun x => ?_) hdt hd hvd1 hvd2 hvd3 x
    rw [hp.other (["decaymodes"], x) (by dsimp only; decide), hl]
    exact ⟨fun h => h.1, fun h => ⟨h, (by dsimp only; decide)⟩⟩

/-- **C162** (line endings): a file is refused exactly if it is missing or contains CR LF. -/
theorem C162_line_endings (fs : Fs) (l : Loc) (t : String) (h : fs l = some (.file t)) :
    (readFile fs l = .ok t ↔ ¬∃ a b, t.toList = a ++ '\r' :: '\n' :: b) ∧
    (readFile fs l = .error .crlf ↔ ∃ a b, t.toList = a ++ '\r' :: '\n' :: b) := by
  have key : ∀ cs : List Char, hasCrlf cs = true ↔ ∃ a b, cs = a ++ '\r' :: '\n' :: b := by
    intro cs
    induction cs with
    | nil => simp [hasCrlf]
    | cons c r ih =>
      rw [hasCrlf, Bool.or_eq_true, ih]
      constructor
      · rintro (h | ⟨a, b, rfl⟩)
        · cases r with
          | nil => simp at h
          | cons d r' =>
            simp only [List.head?_cons, Bool.and_eq_true, beq_iff_eq, Option.some.injEq] at h
            exact ⟨[], r', by rw [h.1, h.2]; rfl⟩
        · exact ⟨c :: a, b, rfl⟩
      · rintro ⟨a, b, h⟩
        cases a with
        | nil =>
          simp only [List.nil_append, List.cons.injEq] at h
          left
          rw [h.1, h.2]
          rfl
        | cons x xs =>
          simp only [List.cons_append, List.cons.injEq] at h
          exact Or.inr ⟨xs, b, h.2⟩
  unfold readFile
  rw [h]
  simp only
  by_cases hc : hasCrlf t.toList = true
  · rw [if_pos hc]
    have := (key _).1 hc
    exact ⟨⟨fun h => (by cases h), fun h => absurd this h⟩, ⟨fun _ => this, fun _ => rfl⟩⟩
  · rw [if_neg hc]
    have : ¬∃ a b, t.toList = a ++ '\r' :: '\n' :: b := fun h => hc ((key _).2 h)
    exact ⟨⟨fun _ => this, fun _ => rfl⟩, ⟨fun h => (by cases h), fun h => absurd h this⟩⟩

/-- **C162** (later texts win): after the `-c` texts are merged, every key of the last one has its value. -/
theorem C162_last_config (env : Env) (st base : State) (ys : List String) (y : String) (b : Node)
    (h : mergeAll env st (ys ++ [y]) = .ok base) (hy : env.yaml y = some b) (hbw : b.WF) (hbf : b.Full) :
    ∃ mid, mergeAll env st ys = .ok mid ∧ (mid.root.WF → Config.NoSeq mid.root.leaves b.leaves →
      (∀ p v, (p, v) ∈ b.leaves → findNode base.root p = .ok (some v)) ∧
      (∀ p v, (p, v) ∈ mid.root.leaves → (∀ e' ∈ b.leaves, ¬Related p e'.1) → findNode base.root p = .ok (some v))) := by
  induction ys generalizing st with
  | nil =>
    rw [List.nil_append, mergeAll, hy] at h
    simp only at h
    cases hm : Config.mergeYaml st b with
    | error e => rw [hm] at h; cases h
    | ok st1 =>
      rw [hm] at h
      simp only [mergeAll] at h
      cases h
      exact ⟨st, rfl, fun hw hs => Config.C41_override st base b hw hbw hbf hs hm⟩
  | cons x xs ih =>
    rw [List.cons_append, mergeAll] at h
    rw [mergeAll]
    cases hx : env.yaml x with
    | none => rw [hx] at h; cases h
    | some c =>
      rw [hx] at h
      simp only at h ⊢
      cases hm : Config.mergeYaml st c with
      | error e => rw [hm] at h; cases h
      | ok st1 =>
        rw [hm] at h
        exact ih st1 h

theorem findNode_deeper (root : Node) (k : String) (ks : List String) (h : findNode root [k] = .ok none) :
    findNode root (k :: ks) = .ok none := by
  rw [findNode] at h ⊢
  cases hd : Config.descend root k with
  | error e => rw [hd] at h; cases h
  | ok o =>
    cases o with
    | none => rfl
    | some c => rw [hd] at h; simp only [findNode] at h; cases h

theorem setOpt_find (st st' : State) (k : String) (ks : List String) (v : Option Node) (hk : k ≠ "Logging")
    (hf : findNode st.root ["Logging"] = .ok none) (h : setOpt st (k :: ks) v = .ok st') :
    findNode st'.root ["Logging"] = .ok none := by
  cases v with
  | none => simp only [setOpt] at h; cases h; exact hf
  | some n =>
    simp only [setOpt, Config.setAt] at h
    cases hs : Config.subscript (some st.root) with
    | error e => rw [hs] at h; cases h
    | ok f =>
      rw [hs] at h
      simp only at h
      cases hc : Config.setAt (f.find k) n ks with
      | error e => rw [hc] at h; cases h
      | ok c =>
        rw [hc] at h
        simp only at h
        cases h
        have hnone : f.find "Logging" = none := by
          cases hr : st.root with
          | null => rw [hr] at hs; cases hs; rfl
          | scalar t => rw [hr] at hs; cases hs
          | seq q =>
            rw [hr] at hs hf
            cases q with
            | nil => cases hs; rfl
            | cons a as => simp [findNode, Config.descend] at hf
          | map g =>
            rw [hr] at hs hf
            cases hs
            simp only [findNode, Config.descend] at hf
            cases hg : f.find "Logging" with
            | none => rfl
            | some c => rw [hg] at hf; cases hf
        simp only [findNode, Config.descend]
        rw [Config.find_set, if_neg (fun h => hk h.symm), hnone]

theorem setTable_keep (st : State) (label text : String) (hw : st.root.WF)
    (h : ∃ n, n ≠ .null ∧ ([label], n) ∈ st.root.leaves) : setTable st label false text = .ok st := by
  unfold setTable
  rw [(hasValue_iff st label hw).2 h]
  rfl

theorem read_keep (env : Env) (st : State) (hw : st.root.WF) (n : Node) (z : Int) (hn : n ≠ .null)
    (hm : (["General", "Randomseed"], n) ∈ st.root.leaves) (hz : env.seed n = some z) :
    Config.read st (seedKey env) = .ok z := by
  have hv := Config.leaf_not_map _ st.root n hw hm
  have hf := (Config.findNode_leaf _ st.root n hw hv).2 hm
  have hlab : (seedKey env).labels = ["General", "Randomseed"] := rfl
  have hhas : Config.hasValue st (seedKey env) = .ok true := by
    unfold Config.hasValue
    rw [hlab, hf]
    cases n with
    | map f => cases hv
    | null => exact absurd rfl hn
    | scalar t => rfl
    | seq l => rfl
  unfold Config.read
  rw [hhas, hlab, hf]
  simp [Config.convert, seedKey, hz]

/-- **C162** (reproduction): a second run that is given the `config.yaml` copied by the first one, and nothing
else on the command line that changes the configuration, simulates exactly the same configuration, with the
same seed and the same particle and decay tables, whatever the compiled-in tables and the original input
file are by then. (The printed text is read back as the same tree, without CR LF, and is valid.) -/
theorem C162_rerun (env : Env) (fs : Fs) (s : Settings) (base st st' : State)
    (hb : createConfiguration env fs s = .ok base) (hw : base.root.WF) (hs : Sound base.root)
    (h1 : setup env fs s = .ok st) (h2 : adjust env s st = .ok st')
    (env2 : Env) (fs2 : Fs) (s2 : Settings) (text : String)
    (hseedfn : env2.seed = env.seed) (hnew : 0 ≤ env.newSeed)
    (hseedtext : env.seed (.scalar (env.seedText env.newSeed)) = some env.newSeed)
    (hin : fs2 (s2.input.loc env2.cwd) = some (.file text)) (hcr : hasCrlf text.toList = false)
    (hyaml : env2.yaml text = some st'.root) (hval : env2.valid st'.root = true) (hlog : env2.loggers .null = true)
    (hp : s2.particles.isEmpty = true) (hd : s2.decaymodes.isEmpty = true) (hx : s2.extra = []) (hm : s2.modus = none)
    (he : s2.endTime = none) :
    ∃ st2 st3, setup env2 fs2 s2 = .ok st2 ∧ adjust env2 s2 st2 = .ok st3 ∧ st3.root = st'.root := by
  obtain ⟨-, l, p, d, m, e, pt, dt, vp, vd, vs, z, n, hlg, -, -, sp, sd, sm, se, ss, hlw, hpw, hdw, hmw, hew, hsw, hl,
    tp, td, tm, te, ts, hvp1, hvp2, hvp3, hvd1, hvd2, hvd3, hn1, hn2, hn3, hvs⟩ :=
    steps env fs s base st st' hb hw hs h1 h2
  -- nothing about logging is left
  have hno : findNode st'.root ["Logging"] = .ok none :=
    setOpt_find e st' _ _ _ (by decide) (setOpt_find m e _ _ _ (by decide) (setOpt_find d m _ _ _ (by decide)
      (setOpt_find p d _ _ _ (by decide) (setOpt_find l p _ _ _ (by decide)
        (setupLogging_spec env base l hw hlg).2.2 sp) sd) sm) se) ss
  -- the tables are there
  have hpart : ∃ x, x ≠ .null ∧ (["particles"], x) ∈ st'.root.leaves := by
    have : ∃ x, x ≠ .null ∧ (["particles"], x) ∈ p.root.leaves := by
      rcases hvp1 with hv | hv
      · cases hpe : s.particles.isEmpty with
        | false => have := hvp2 hpe; rw [hv] at this; cases this
        | true =>
          obtain ⟨x, h3, h4⟩ := (hvp3 hpe).1 hv
          exact ⟨x, h3, (tp.self x).2 (Or.inr ⟨hv, h4⟩)⟩
      · exact ⟨_, by simp, (tp.self (.scalar pt)).2 (Or.inl hv)⟩
    obtain ⟨x, h3, h4⟩ := this
    exact ⟨x, h3, by
      rw [ts.other (["particles"], x) (by dsimp only; decide), te.other (["particles"], x) (by dsimp only; decide),
        tm.other (["particles"], x) (by dsimp only; decide), td.other (["particles"], x) (by dsimp only; decide)]
      exact h4⟩
  have hdec : ∃ x, x ≠ .null ∧ (["decaymodes"], x) ∈ st'.root.leaves := by
    have : ∃ x, x ≠ .null ∧ (["decaymodes"], x) ∈ d.root.leaves := by
      rcases hvd1 with hv | hv
      · cases hpe : s.decaymodes.isEmpty with
        | false => have := hvd2 hpe; rw [hv] at this; cases this
        | true =>
          obtain ⟨x, h3, h4⟩ := (hvd3 hpe).1 hv
          exact ⟨x, h3, (td.self x).2 (Or.inr ⟨hv, h4⟩)⟩
      · exact ⟨_, by simp, (td.self (.scalar dt)).2 (Or.inl hv)⟩
    obtain ⟨x, h3, h4⟩ := this
    exact ⟨x, h3, by
      rw [ts.other (["decaymodes"], x) (by dsimp only; decide), te.other (["decaymodes"], x) (by dsimp only; decide),
        tm.other (["decaymodes"], x) (by dsimp only; decide)]
      exact h4⟩
  -- the seed is there and not negative
  have hseed : ∃ x z', x ≠ .null ∧ (["General", "Randomseed"], x) ∈ st'.root.leaves ∧ env.seed x = some z' ∧ 0 ≤ z' := by
    by_cases hz : z < 0
    · rw [if_pos hz] at hvs
      exact ⟨_, env.newSeed, by simp, (ts.self _).2 (Or.inl hvs), hseedtext, hnew⟩
    · rw [if_neg hz] at hvs
      exact ⟨n, z, hn1, (ts.self n).2 (Or.inr ⟨hvs, hn2⟩), hn3, by omega⟩
  obtain ⟨x, z', hx1, hx2, hx3, hx4⟩ := hseed
  let c : State := ⟨st'.root, []⟩
  have hcreate : createConfiguration env2 fs2 s2 = .ok c := by
    unfold createConfiguration readFile
    rw [hin]
    simp only
    rw [if_neg (by rw [hcr]; simp)]
    simp only
    rw [hyaml, hx]
    rfl
  have hlogging : setupLogging env2 c = .ok c := by
    have hdeep := findNode_deeper st'.root "Logging" ["default"] hno
    have htake : Config.take c (logDefault env2) = (.ok (), c) := by
      unfold Config.take Config.hasValue Config.hasSection
      show (match (match findNode st'.root ["Logging", "default"] with
        | .error e => Except.error e
        | .ok none => .ok false
        | .ok (some n) => .ok (!n.isNull && !n.isMap)) with
        | .error e => _ | .ok true => _ | .ok false => _) = _
      simp only [hdeep, logDefault, c]
      rfl
    unfold setupLogging Config.extract
    rw [htake]
    simp only
    rw [show findNode c.root ["Logging"] = .ok none from hno]
    simp only [if_true]
    rw [if_pos hlog]
  refine ⟨c, c, ?_, ?_, rfl⟩
  · unfold setup
    rw [hcreate]
    simp only
    rw [if_pos hval, hlogging]
    simp only
    unfold setTables loadTable
    rw [if_pos hp, if_pos hd, hp, hd]
    simp only [Bool.not_true]
    rw [setTable_keep c "particles" _ hsw hpart]
    exact setTable_keep c "decaymodes" _ hsw hdec
  · unfold adjust
    rw [hm, he]
    simp only [Option.map_none, setOpt]
    unfold fixSeed
    rw [read_keep env2 c hsw x z' hx1 hx2 (by rw [hseedfn]; exact hx3)]
    simp only
    rw [if_neg (by omega)]
    rfl

/-- A configuration with a key about logging. -/
def exLogged : Node :=
  .map (.cons "General" (.map (.cons "Randomseed" (.scalar "-1") .nil))
    (.cons "Logging" (.map (.cons "default" (.scalar "DEBUG") .nil)) .nil))

/-- **C162** fails for the logging section: the configuration that is simulated and copied does not contain
it, so a run of the copy prints with the default levels. -/
theorem C162_logging_false :
    findNode exLogged ["Logging", "default"] = .ok (some (.scalar "DEBUG")) ∧
    ∃ rest, setupLogging exEnv ⟨exLogged, []⟩ = .ok rest ∧ findNode rest.root ["Logging"] = .ok none ∧
      rest.root = exConfig := by
  refine ⟨rfl, _, rfl, rfl, rfl⟩

/-! ### Examples -/

/-- The configuration of the example run: new seed and compiled-in tables. -/
def exFinal : Node :=
  .map (.cons "General" (.map (.cons "Randomseed" (.scalar "42") .nil))
    (.cons "particles" (.scalar "pions") (.cons "decaymodes" (.scalar "decays") .nil)))

/-- The hypotheses of `C162_config` and `C162_rerun` are met. -/
example : createConfiguration exEnv exFs { output := exOut } = .ok ⟨exConfig, []⟩ := rfl
example : exConfig.WF ∧ Sound exConfig := by
  refine ⟨?_, fun l => ⟨?_, ?_⟩⟩
  · simp [exConfig, general, Node.WF, Config.Forest.WF, Config.Forest.keys]
  · simp [exConfig, general, Node.leaves, Config.Forest.leaves]
  · simp [exConfig, general, Node.leaves, Config.Forest.leaves]
example : ∃ st, setup exEnv exFs { output := exOut } = .ok st ∧ adjust exEnv { output := exOut } st = .ok ⟨exFinal, []⟩ :=
  ⟨_, rfl, rfl⟩
example : 0 ≤ exEnv.newSeed ∧ exEnv.seed (.scalar (exEnv.seedText exEnv.newSeed)) = some exEnv.newSeed := by
  refine ⟨by decide +kernel, by decide +kernel⟩

/-- A later installation with other compiled-in tables. -/
def exEnv2 : Env :=
  { exEnv with
    yaml := fun t => if t = "# comment\nthe configuration" then some exFinal else none
    particlesTxt := "more pions" }

example : ∃ st st', setup exEnv2 (put exFs ["w", "config.yaml"] (some (.file "# comment\nthe configuration"))) { output := exOut }
      = .ok st ∧ adjust exEnv2 { output := exOut } st = .ok st' ∧ st'.root = exFinal :=
  ⟨_, _, rfl, rfl, rfl⟩

end Verif.Prog
