import Verif.Log.Model
import Verif.Text.Props
/-!
Levels of the log areas (C180).
-/
namespace Verif.Log
open Verif.Text

/-! ### Specification -/

/-- The names of the levels. -/
def names : List (String × Level) := [("ALL", .all), ("TRACE", .trace), ("DEBUG", .debug), ("INFO", .info), ("WARN", .warn),
  ("ERROR", .error), ("FATAL", .fatal), ("OFF", .off)]

/-- The level given for a key, with the value that counts if there is none; nothing if the text is not a level. -/
def given (cfg : Cfg) (key : String) (dflt : Level) : Option Level :=
  match cfg.lookup key with
  | none => some dflt
  | some s => names.lookup s

/-- The areas are 33 different names, and each has a key. -/
theorem areas_ok : areas.Nodup ∧ areas.length = 33 ∧ (∀ a ∈ areas, logKeys.contains a = true) ∧
    "default" ∉ areas ∧ ∀ k ∈ logKeys, k ∈ areas := by
  refine ⟨by decide +kernel, by decide +kernel, by decide +kernel, by decide +kernel, by decide +kernel⟩

/-! ### Longest name -/

/-- **C180** (width). The recursion over halves finds the length of the longest name, for any number of areas. -/
theorem C180_longest (len : Nat → Nat) (index stop : Nat) (h : stop ≤ index) :
    (∀ k, stop ≤ k → k ≤ index → len k ≤ longest len index stop) ∧
      ∃ k, stop ≤ k ∧ k ≤ index ∧ len k = longest len index stop := by
  induction hn : index - stop using Nat.strongRecOn generalizing index stop with
  | ind n ih =>
    unfold longest
    split
    · rename_i hlt
      dsimp only
      obtain ⟨a1, k1, b1, c1, d1⟩ := ih (index - ((index + stop) / 2 + 1)) (by omega) index _ (by omega) rfl
      obtain ⟨a2, k2, b2, c2, d2⟩ := ih ((index + stop) / 2 - stop) (by omega) _ stop (by omega) rfl
      constructor
      · intro k hk1 hk2
        by_cases hm : k ≤ (index + stop) / 2
        · have := a2 k hk1 hm
          split <;> omega
        · have := a1 k (by omega) hk2
          split <;> omega
      · split
        · exact ⟨k1, by omega, c1, d1⟩
        · exact ⟨k2, b2, by omega, d2⟩
    · have : index = stop := by omega
      subst this
      exact ⟨fun k h1 h2 => by rw [show k = index by omega]; exact Nat.le_refl _, index, Nat.le_refl _, Nat.le_refl _, rfl⟩

/-! ### Levels -/

theorem getLevel_eq (s : String) : getLevel s = names.lookup s := by
  unfold getLevel names
  simp only [List.lookup]
  grind

/-- **C180** (names of levels). A text is a level exactly if it is one of the eight names, in capitals and without blanks. -/
theorem C180_level (s : String) (l : Level) : getLevel s = some l ↔ (s, l) ∈ names := by
  unfold getLevel names
  simp only [List.mem_cons, Prod.mk.injEq, List.not_mem_nil, or_false]
  grind

/-- **C180** (printed). A message is printed exactly if its level is at least the verbosity of its area, and, in a release, it is neither a debug nor
a trace message. With the verbosity OFF nothing is printed, not even fatal errors. -/
theorem C180_printed (release : Bool) (v m : Level) :
    (isEnabled release v m = true ↔ v.num ≤ m.num ∧ (release = true → m ≠ .debug ∧ m ≠ .trace)) ∧
      (m ≠ .off → isEnabled release .off m = false) := by
  cases release <;> cases v <;> cases m <;> decide

/-- **C180** is false for levels written by SMASH: of the eight levels only four can be read after they were written to a configuration; the texts of
the others begin with blanks. -/
theorem C180_written_false : ∃ l, getLevel (levelString l) = none := ⟨.info, by decide⟩

/-- Which levels can be read back. -/
theorem C180_written (l : Level) : getLevel (levelString l) = some l ↔ l = .trace ∨ l = .debug ∨ l = .error ∨ l = .fatal := by
  cases l <;> decide

/-! ### Set-up -/

theorem lookup_filter (cfg : Cfg) {k a : String} (h : a ≠ k) :
    (cfg.filter fun e => !(e.1 == k)).lookup a = cfg.lookup a := by
  induction cfg with
  | nil => rfl
  | cons e cfg ih =>
    rw [List.filter_cons]
    by_cases hk : e.1 = k
    · have : (!(e.1 == k)) = false := by simp [hk]
      rw [this]
      simp only [Bool.false_eq_true, if_false]
      rw [ih]
      have : (a == e.1) = false := by simpa [hk] using h
      rw [List.lookup_cons, this]
    · have : (!(e.1 == k)) = true := by simp [hk]
      rw [this, if_pos rfl, List.lookup_cons, List.lookup_cons, ih]

theorem lookup_none_filter (cfg : Cfg) {k : String} (h : cfg.lookup k = none) :
    (cfg.filter fun e => !(e.1 == k)) = cfg := by
  rw [List.filter_eq_self]
  intro e he
  by_contra hx
  have : e.1 = k := by simpa using hx
  rw [List.lookup_eq_none_iff] at h
  have := h e he
  simp_all

/-- `take` gives the level for the key and removes it, or the text is not a level. -/
theorem take_eq (cfg : Cfg) (k : String) (d : Level) :
    take cfg k d = match given cfg k d with
      | some l => .ok (l, cfg.filter fun e => !(e.1 == k))
      | none => .error .badLevel := by
  unfold take given
  rcases h : cfg.lookup k with _ | s
  · rw [lookup_none_filter cfg h]
  · dsimp only
    rw [getLevel_eq]
    rcases names.lookup s <;> rfl

theorem create_eq (width : BitVec 64) (d : Level) (as : List String) (pad : String → Str) (cfg : Cfg) (acc : List Logger)
    (hp : ∀ a ∈ as, fillBoth (lit a) width 32 = some (pad a)) (hk : ∀ a ∈ as, logKeys.contains a = true) (hn : as.Nodup) :
    ((∃ a ∈ as, given cfg a d = none) → create width d as cfg acc = .error .badLevel) ∧
    ∀ f : String → Level, (∀ a ∈ as, given cfg a d = some (f a)) →
      create width d as cfg acc =
        .ok ((as.reverse.map fun a => ⟨pad a, f a⟩) ++ acc, cfg.filter fun e => !as.contains e.1) := by
  induction as generalizing cfg acc with
  | nil =>
    refine ⟨fun ⟨a, ha, _⟩ => absurd ha List.not_mem_nil, fun f _ => ?_⟩
    unfold create
    simp
  | cons a as ih =>
    have hna : a ∉ as := (List.nodup_cons.1 hn).1
    have same : ∀ b ∈ as, ∀ l, given (cfg.filter fun e => !(e.1 == a)) b l = given cfg b l := by
      intro b hb l
      have : b ≠ a := fun h => hna (h ▸ hb)
      unfold given
      rw [lookup_filter cfg this]
    have step : create width d (a :: as) cfg acc =
        match given cfg a d with
        | some l => create width d as (cfg.filter fun e => !(e.1 == a)) (⟨pad a, l⟩ :: acc)
        | none => .error .badLevel := by
      rw [create, hp a List.mem_cons_self]
      dsimp only
      rw [hk a List.mem_cons_self, take_eq]
      rcases given cfg a d <;> rfl
    have hp' : ∀ b ∈ as, fillBoth (lit b) width 32 = some (pad b) := fun b hb => hp b (List.mem_cons_of_mem _ hb)
    have hk' : ∀ b ∈ as, logKeys.contains b = true := fun b hb => hk b (List.mem_cons_of_mem _ hb)
    have hn' := (List.nodup_cons.1 hn).2
    constructor
    · rintro ⟨b, hb, hg⟩
      rw [step]
      rcases hga : given cfg a d with _ | l
      · rfl
      · rcases List.mem_cons.1 hb with rfl | hb
        · rw [hga] at hg; cases hg
        · exact (ih _ _ hp' hk' hn').1 ⟨b, hb, by rw [same b hb]; exact hg⟩
    · intro f hf
      rw [step, hf a List.mem_cons_self]
      dsimp only
      rw [(ih (cfg.filter fun e => !(e.1 == a)) (⟨pad a, f a⟩ :: acc) hp' hk' hn').2 f fun b hb => by
        rw [same b hb]; exact hf b (List.mem_cons_of_mem _ hb)]
      rw [List.filter_filter]
      simp only [List.reverse_cons, List.map_append, List.map_cons, List.map_nil, List.append_assoc,
        List.cons_append, List.nil_append]
      congr 2
      apply List.filter_congr
      intro e _
      rw [List.contains_cons, Bool.not_or, Bool.and_comm]

/-- A name in the middle of as many columns as the longest name of an area has; the right side gets the odd blank. -/
def centred (a : String) : Str :=
  let k := 20 - (lit a).length
  List.replicate (k / 2) 32 ++ lit a ++ List.replicate (k - k / 2) 32

/-- The longest names have 20 characters. -/
theorem twenty : (∀ a ∈ areas, (lit a).length ≤ 20) ∧ ∃ a ∈ areas, (lit a).length = 20 :=
  ⟨by decide +kernel, "HyperSurfaceCrossing", by decide +kernel, by decide +kernel⟩

theorem width_eq_twenty : longest lengthOf (areas.length - 1) 0 = 20 := by
  obtain ⟨h1, k, _, hk, h2⟩ := C180_longest lengthOf (areas.length - 1) 0 (Nat.zero_le _)
  have hl : areas.length = 33 := areas_ok.2.1
  rw [hl] at h1 hk h2 ⊢
  have a1 : ∀ k, k < 33 → lengthOf k ≤ 20 := by decide +kernel
  have a2 : lengthOf 27 = 20 := by decide +kernel
  have b1 := a1 k (by omega)
  have b2 := h1 27 (by omega) (by omega)
  omega

theorem pad_ok : ∀ a ∈ areas, fillBoth (lit a) 20 32 = some (centred a) := by decide +kernel

theorem reverse_nodup : areas.reverse.Nodup := by decide +kernel

theorem setup_eq (cfg : Cfg) : setup cfg =
    match given cfg "default" .all with
    | some d => create 20 d areas.reverse (cfg.filter fun e => !(e.1 == "default")) []
    | none => .error .badLevel := by
  unfold setup
  rw [take_eq, width_eq_twenty]
  rcases given cfg "default" .all <;> rfl

theorem given_areas (cfg : Cfg) (d : Level) {a : String} (ha : a ∈ areas) :
    given (cfg.filter fun e => !(e.1 == "default")) a d = given cfg a d := by
  have : a ≠ "default" := fun h => areas_ok.2.2.2.1 (h ▸ ha)
  unfold given
  rw [lookup_filter cfg this]

/-- **C180** (levels). If the texts given are levels, then after the set-up each area has the level given for it, or the one given for "default" if
there is none, or ALL if neither is given; its name is printed in the middle of 20 columns; and the keys that are left are those that belong to no
area. -/
theorem C180_setup (cfg : Cfg) (d : Level) (hd : given cfg "default" .all = some d) (f : String → Level)
    (hf : ∀ a ∈ areas, given cfg a d = some (f a)) :
    setup cfg = .ok (areas.map fun a => ⟨centred a, f a⟩,
      cfg.filter fun e => !("default" :: areas).contains e.1) := by
  rw [setup_eq, hd]
  dsimp only
  have h := (create_eq 20 d areas.reverse centred (cfg.filter fun e => !(e.1 == "default")) []
    (fun a ha => pad_ok a (List.mem_reverse.1 ha)) (fun a ha => areas_ok.2.2.1 a (List.mem_reverse.1 ha))
    reverse_nodup).2 f fun a ha => by
      rw [given_areas cfg d (List.mem_reverse.1 ha)]; exact hf a (List.mem_reverse.1 ha)
  rw [h, List.reverse_reverse, List.append_nil, List.filter_filter]
  congr 2
  apply List.filter_congr
  intro e _
  rw [List.contains_cons, Bool.not_or, Bool.and_comm]
  congr 2
  rw [Bool.eq_iff_iff, List.contains_iff_mem, List.contains_iff_mem, List.mem_reverse]

/-- **C180** (errors). The set-up fails exactly if a text given for "default" or for an area is not the name of a level. -/
theorem C180_error (cfg : Cfg) : (∃ e, setup cfg = .error e) ↔
    ∃ k ∈ "default" :: areas, ∃ s, cfg.lookup k = some s ∧ names.lookup s = none := by
  have gn : ∀ k l, given cfg k l = none ↔ ∃ s, cfg.lookup k = some s ∧ names.lookup s = none := by
    intro k l
    unfold given
    rcases cfg.lookup k with _ | s
    · simp
    · simp
  constructor
  · rintro ⟨e, he⟩
    by_contra hx
    have all : ∀ k ∈ "default" :: areas, ∀ l, ∃ v, given cfg k l = some v := by
      intro k hk l
      rcases h : given cfg k l with _ | v
      · exact absurd ⟨k, hk, (gn k l).1 h⟩ hx
      · exact ⟨v, rfl⟩
    obtain ⟨d, hd⟩ := all "default" List.mem_cons_self .all
    have := C180_setup cfg d hd (fun a => (given cfg a d).getD .all) fun a ha => by
      obtain ⟨v, hv⟩ := all a (List.mem_cons_of_mem _ ha) d
      rw [hv]; rfl
    rw [this] at he
    cases he
  · rintro ⟨k, hk, s, hs, hn⟩
    refine ⟨.badLevel, ?_⟩
    rw [setup_eq]
    rcases hd : given cfg "default" .all with _ | d
    · rfl
    · rcases List.mem_cons.1 hk with rfl | hk
      · rw [(gn _ _).2 ⟨s, hs, hn⟩] at hd; cases hd
      · exact (create_eq 20 d areas.reverse centred _ []
          (fun a ha => pad_ok a (List.mem_reverse.1 ha)) (fun a ha => areas_ok.2.2.1 a (List.mem_reverse.1 ha))
          reverse_nodup).1
          ⟨k, List.mem_reverse.2 hk, by rw [given_areas cfg d hk]; exact (gn k d).2 ⟨s, hs, hn⟩⟩

/-- **C180** (all keys used). If the section Logging has only keys that SMASH knows, then none of them is left. -/
theorem C180_used (cfg : Cfg) (hk : ∀ e ∈ cfg, e.1 = "default" ∨ e.1 ∈ logKeys) (l : List Logger) (rest : Cfg)
    (h : setup cfg = .ok (l, rest)) : rest = [] := by
  rcases hd : given cfg "default" .all with _ | d
  · rw [setup_eq, hd] at h; cases h
  by_cases hx : ∃ k ∈ "default" :: areas, ∃ s, cfg.lookup k = some s ∧ names.lookup s = none
  · obtain ⟨e, he⟩ := (C180_error cfg).2 hx
    rw [he] at h; cases h
  · have := C180_setup cfg d hd (fun a => (given cfg a d).getD .all) fun a ha => by
      rcases hg : given cfg a d with _ | v
      · refine absurd ⟨a, List.mem_cons_of_mem _ ha, ?_⟩ hx
        unfold given at hg
        rcases hs : cfg.lookup a with _ | s
        · rw [hs] at hg; cases hg
        · rw [hs] at hg; exact ⟨s, rfl, hg⟩
      · rfl
    rw [this] at h
    injection h with h
    have h2 := (Prod.mk.inj h).2
    rw [← h2]
    rw [List.filter_eq_nil_iff]
    intro e he
    rcases hk e he with q | q
    · simp [q]
    · have := areas_ok.2.2.2.2 e.1 q
      simp [this]

/-! ### Cases -/

/-- Default WARN, Box DEBUG, and a level that is not written in capitals. -/
example : given [("default", "WARN"), ("Box", "DEBUG")] "Box" .warn = some .debug ∧
    given [("default", "WARN"), ("Box", "DEBUG")] "Grid" .warn = some .warn ∧ given [("Box", "debug")] "Box" .all = none := by
  decide

example : (setup [("default", "WARN"), ("Box", "DEBUG"), ("Other", "INFO")]).map (fun r => (r.1.take 3, r.2)) =
    .ok ([⟨lit "        Main        ", .warn⟩, ⟨lit "     Experiment     ", .warn⟩, ⟨lit "        Box         ", .debug⟩],
      [("Other", "INFO")]) := by decide +kernel

end Verif.Log
