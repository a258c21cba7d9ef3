import Verif.Req.Spec
import Mathlib.Tactic.SplitIfs
import Mathlib.Tactic.Tauto
/-! One output: `create_output` against the table. -/
namespace Verif.Req

/-- The formats of Rivet. -/
def yoda (f : String) : Bool := f == "YODA" || f == "YODA-full"

theorem names_distinct : ∀ a ∈ plain, ∀ b ∈ plain, a.2.2 = b.2.2 →
    a = b ∨ (a.1 = b.1 ∧ (a.2.1 = "HepMC" ∧ b.2.1 = "HepMC_asciiv3" ∨ a.2.1 = "HepMC_asciiv3" ∧ b.2.1 = "HepMC")) := by
  decide +kernel

/-- The names of the formats. -/
def known : List String :=
  ["VTK", "Root", "Binary", "Oscar2013_bin", "Oscar1999", "Oscar2013", "ASCII", "Lattice_ASCII", "Lattice_Binary",
    "For_vHLLE", "HepMC", "HepMC_asciiv3", "HepMC_treeroot", "YODA", "YODA-full"]

theorem createOutput_unknown (S : Setup) (used : Bool) (c : Content) (f : String) (hf : f ∉ known) (t : Target)
    (u : Bool) : createOutput S used c f ≠ .ok (some t, u) := by
  simp only [known, List.mem_cons, List.not_mem_nil, or_false, not_or] at hf
  intro h
  have hh : isHepmc f = false := by simp [isHepmc, hf]
  simp only [createOutput, hf, hh, false_and, and_false, false_or, if_false, Bool.false_eq_true] at h
  split_ifs at h
  · simp only [createRivet, hf, if_false] at h
    split_ifs at h <;> simp at h
  · simp at h

theorem writes_known (S : Setup) (c : Content) (f : String) (t : Target) (h : Writes S c f t) : f ∈ known := by
  rcases h with ⟨h, _⟩ | ⟨h, _⟩
  · have : ∀ a ∈ plain, a.2.1 ∈ known := by decide +kernel
    exact this _ h
  · rcases h with rfl | rfl <;> decide +kernel

theorem columns_false : columns false = oscar2013 := rfl

theorem columns_true : columns true = oscar2013extended := rfl

theorem columns_if (b : Bool) : columns b = if b = true then oscar2013extended else oscar2013 := by cases b <;> rfl

theorem binaryName_eq (c : Content) (n : String × String × String) (h : (c, n) ∈ binaryFiles) (q : List String) :
    binaryName c q = forQuantities q n := by
  simp only [binaryFiles, List.mem_cons, List.not_mem_nil, or_false, Prod.mk.injEq] at h
  unfold binaryName forQuantities
  rw [columns_false, columns_true]
  rcases h with ⟨rfl, rfl⟩ | ⟨rfl, rfl⟩ | ⟨rfl, rfl⟩ | ⟨rfl, rfl⟩ | ⟨rfl, rfl⟩ <;>
    · by_cases h1 : q = oscar2013
      · simp only [h1, if_true]; decide +kernel
      · by_cases h2 : q = oscar2013extended
        · simp only [h1, h2, if_true, if_false]; decide +kernel
        · simp only [h1, h2, if_false]; decide +kernel

theorem binaryQuantities_eq (S : Setup) (c : Content) (f : String) (hf : f = "Binary" ∨ f = "Oscar2013_bin") :
    binaryQuantities S c f = binaryQ S c f := by
  unfold binaryQuantities binaryQ standard
  rw [columns_if]
  rcases hf with rfl | rfl <;> by_cases h : S.quantities c = [] <;> simp [h]

theorem createBinary_iff (S : Setup) (c : Content) (f : String) (hf : f = "Binary" ∨ f = "Oscar2013_bin") (t : Target)
    (n : String × String × String) (hn : (c, n) ∈ binaryFiles) :
    createBinary S c f = .ok t ↔ t = .file (forQuantities (binaryQ S c f) n) ∧
      (f = "Binary" ∧ S.quantities c ≠ [] → S.validQuantities (S.quantities c) = true) := by
  unfold createBinary
  simp only [binaryQuantities_eq S c f hf, binaryName_eq c n hn]
  have hq : f = "Binary" → S.quantities c ≠ [] → binaryQ S c f = S.quantities c := fun h1 h2 => if_pos ⟨h1, h2⟩
  by_cases h1 : f = "Binary" ∧ S.quantities c ≠ []
  · rw [hq h1.1 h1.2]
    have h2 : ¬(S.quantities c).isEmpty = true := by simpa using h1.2
    by_cases h3 : S.validQuantities (S.quantities c) = true
    · simp only [h3, not_true_eq_false, and_false, if_false, Except.ok.injEq, implies_true, and_true]
      exact eq_comm
    · simp [h1, h3]
  · have h2 : ¬(f = "Binary" ∧ ¬(S.quantities c).isEmpty = true ∧ ¬S.validQuantities (binaryQ S c f) = true) := by
      rintro ⟨a, b, _⟩
      exact h1 ⟨a, by simpa using b⟩
    rw [if_neg h2]
    constructor
    · intro h
      exact ⟨(Except.ok.inj h).symm, fun h => absurd h h1⟩
    · rintro ⟨rfl, _⟩
      rfl

theorem createOutput_binary (S : Setup) (used : Bool) (c : Content) (f : String) (hf : f = "Binary" ∨ f = "Oscar2013_bin")
    (hc : c.custom = true) (t : Target) (u : Bool) :
    createOutput S used c f = .ok (some t, u) ↔
      Writes S c f t ∧ Allowed S c f ∧ (yoda f = true → used = false) ∧ u = (used || yoda f) := by
  obtain ⟨n, hn⟩ : ∃ n, (c, n) ∈ binaryFiles := by
    cases c <;> first | exact absurd hc (by decide) | exact ⟨_, by simp [binaryFiles]; rfl⟩
  have hnu : ∀ n', (c, n') ∈ binaryFiles → n' = n := by
    have : ∀ a ∈ binaryFiles, ∀ b ∈ binaryFiles, a.1 = b.1 → a.2 = b.2 := by decide +kernel
    exact fun n' h => this _ h _ hn rfl
  have hp : (c, f, t) ∉ plain := by
    have : ∀ a ∈ plain, a.2.1 ≠ "Binary" ∧ a.2.1 ≠ "Oscar2013_bin" := by decide +kernel
    intro h
    have := this _ h
    rcases hf with rfl | rfl <;> simp at this
  have hw : Writes S c f t ↔ t = .file (forQuantities (binaryQ S c f) n) := by
    unfold Writes
    constructor
    · rintro (h | ⟨_, n', h1, h2⟩)
      · exact absurd h.1 hp
      · rw [hnu n' h1] at h2; exact h2
    · intro h
      exact Or.inr ⟨hf, n, hn, h⟩
  have hy : yoda f = false := by rcases hf with rfl | rfl <;> decide +kernel
  have hcb := createBinary_iff S c f hf t n hn
  have hI : isHepmc f = false := by rcases hf with rfl | rfl <;> decide +kernel
  have hne : f ≠ "VTK" ∧ f ≠ "Root" ∧ f ≠ "HepMC" ∧ f ≠ "HepMC_asciiv3" ∧ f ≠ "HepMC_treeroot" ∧ f ≠ "For_vHLLE" ∧
      f ≠ "ASCII" := by rcases hf with rfl | rfl <;> decide +kernel
  obtain ⟨n1, n2, n3, n4, n5, n6, n7⟩ := hne
  have hr : c ≠ .rivet := by rintro rfl; simp [Content.custom] at hc
  rw [hw, hy]
  unfold createOutput
  by_cases he : ensemblesRefuse S c f = true
  · rw [if_pos he]
    simp only [reduceCtorEq, false_iff]
    rintro ⟨_, h, _⟩
    apply h.1
    simp only [ensemblesRefuse, hI, Bool.or_false, Bool.and_eq_true, decide_eq_true_eq, Bool.or_eq_true, beq_iff_eq] at he
    exact ⟨he.1, by tauto⟩
  · rw [if_neg he, if_neg (by simp [n1]), if_neg n2, if_pos ⟨hf, hc⟩]
    have ha : Allowed S c f ↔ (f = "Binary" ∧ S.quantities c ≠ [] → S.validQuantities (S.quantities c) = true) := by
      unfold Allowed
      simp only [ensemblesRefuse, hI, Bool.or_false, Bool.and_eq_true, decide_eq_true_eq, Bool.or_eq_true, beq_iff_eq,
        hr, or_false] at he
      simp only [hr, n3, n4, n5, n6, n7, or_false, false_or, false_and, false_implies, true_and]
      exact ⟨fun h => h.2, fun h => ⟨he, h⟩⟩
    rw [ha]
    cases hx : createBinary S c f with
    | error e =>
      rw [hx] at hcb
      simp only [Except.map, reduceCtorEq, false_iff]
      rintro ⟨h1, h2, _⟩
      exact absurd (hcb.2 ⟨h1, h2⟩) (by simp)
    | ok t' =>
      rw [hx] at hcb
      simp only [Except.map, Except.ok.injEq, Prod.mk.injEq, Option.some.injEq, Bool.false_eq_true, false_implies,
        true_and, Bool.or_false] at hcb ⊢
      rw [hcb]
      constructor
      · rintro ⟨⟨h1, h2⟩, h3⟩; exact ⟨h1, h2, h3.symm⟩
      · rintro ⟨h1, h2, h3⟩; exact ⟨⟨h1, h2⟩, h3.symm⟩

theorem createOutput_iff (S : Setup) (used : Bool) (c : Content) (f : String) (t : Target) (u : Bool) :
    createOutput S used c f = .ok (some t, u) ↔
      Writes S c f t ∧ Allowed S c f ∧ (yoda f = true → used = false) ∧ u = (used || yoda f) := by
  by_cases hf : f ∈ known
  swap
  · exact ⟨fun h => absurd h (createOutput_unknown S used c f hf t u), fun h => absurd (writes_known S c f t h.1) hf⟩
  by_cases hb : (f = "Binary" ∨ f = "Oscar2013_bin") ∧ c.custom = true
  · exact createOutput_binary S used c f hb.1 hb.2 t u
  simp only [known, List.mem_cons, List.not_mem_nil, or_false] at hf
  rcases hf with rfl | rfl | rfl | rfl | rfl | rfl | rfl | rfl | rfl | rfl | rfl | rfl | rfl | rfl | rfl
  all_goals cases c
  all_goals first | exact absurd ⟨Or.inl rfl, rfl⟩ hb | exact absurd ⟨Or.inr rfl, rfl⟩ hb | skip
  all_goals clear hb
  all_goals
    simp [createOutput, ensemblesRefuse, isHepmc, Content.custom, Content.name, createOscar, oscarName, oscarFile,
      createHepmc, createRivet, Writes, plain, Built, Allowed, yoda, binaryFiles, Except.map]
  all_goals grind
end Verif.Req
