import Mathlib.Tactic.SplitIfs
import Mathlib.Tactic.Tauto
import Mathlib.Data.List.Nodup
import Verif.Types.Model
import Verif.Pdg.Quantum
/-
The particle types that are found are exactly those of the file (C57).
-/
namespace Verif.Types
open Verif.Text (Str)
open Verif.Pdg (hasAntiparticle ofString spin isNucleus A C15_involution C15_opposite hasAnti_getAnti)

/-! ### `std::lower_bound` -/

/-- `std::lower_bound` finds the border between the elements with and without the property. -/
theorem lowerBoundLoop_spec {α : Type} {p : α → Bool} {l : List α}
    (hp : ∀ (i j : Nat) x y, i ≤ j → l[i]? = some x → l[j]? = some y → p y = true → p x = true)
    (fuel first len : Nat) (hfuel : len ≤ fuel) (hlen : first + len ≤ l.length)
    (h1 : ∀ (i : Nat) x, i < first → l[i]? = some x → p x = true)
    (h2 : ∀ (i : Nat) x, first + len ≤ i → l[i]? = some x → p x = false) :
    (∀ (i : Nat) x, i < lowerBoundLoop p l fuel first len → l[i]? = some x → p x = true) ∧
    (∀ (i : Nat) x, lowerBoundLoop p l fuel first len ≤ i → l[i]? = some x → p x = false) := by
  induction fuel generalizing first len with
  | zero =>
    have : len = 0 := by omega
    subst this
    exact ⟨h1, h2⟩
  | succ fuel ih =>
    rw [lowerBoundLoop]
    split_ifs with h0
    · subst h0; exact ⟨h1, h2⟩
    · have hm : first + len / 2 < l.length := by omega
      have hx : l[first + len / 2]? = some l[first + len / 2] := List.getElem?_eq_getElem hm
      rw [hx]
      dsimp only
      split_ifs with hpx
      · refine ih _ _ (by omega) (by omega) ?_ ?_
        · intro i x hi hix
          exact hp i _ x _ (by omega : i ≤ first + len / 2) hix hx hpx
        · intro i x hi hix; exact h2 i x (by omega) hix
      · refine ih _ _ (by omega) (by omega) h1 ?_
        intro i x hi hix
        by_contra hc
        exact hpx (hp _ i _ x hi hx hix (by simpa using hc))

theorem lowerBound_spec {α : Type} {p : α → Bool} {l : List α}
    (hp : ∀ (i j : Nat) x y, i ≤ j → l[i]? = some x → l[j]? = some y → p y = true → p x = true) :
    (∀ (i : Nat) x, i < lowerBound p l → l[i]? = some x → p x = true) ∧
    (∀ (i : Nat) x, lowerBound p l ≤ i → l[i]? = some x → p x = false) :=
  lowerBoundLoop_spec hp l.length 0 l.length (Nat.le_refl _) (by omega) (by omega)
    (fun i x hi h => by rw [List.getElem?_eq_none (by omega)] at h; cases h)

/-- A search by key in a list strictly sorted by key. -/
theorem search_spec {α κ : Type} [LinearOrder κ] (f : α → κ) {l : List α}
    (hs : l.Pairwise fun a b => f a < f b) (k : κ) {p : α → Bool} (hpk : ∀ a, p a = true ↔ f a < k)
    (i : Nat) (x : α) :
    (l[i]? = some x ∧ f x = k) ↔ (i = lowerBound p l ∧ l[i]? = some x ∧ f x = k) := by
  constructor
  · rintro ⟨hi, hk⟩
    refine ⟨?_, hi, hk⟩
    have hlt : ∀ (a b : Nat) x y, a < b → l[a]? = some x → l[b]? = some y → f x < f y := by
      intro a b x y hab ha hb
      obtain ⟨ha', rfl⟩ := List.getElem?_eq_some_iff.1 ha
      obtain ⟨hb', rfl⟩ := List.getElem?_eq_some_iff.1 hb
      exact List.pairwise_iff_getElem.1 hs a b ha' hb' hab
    have sp := lowerBound_spec (p := p) (l := l) (by
      intro a b x y hab ha hb hy
      rcases Nat.lt_or_eq_of_le hab with h | h
      · have := hlt a b x y h ha hb
        rw [hpk] at hy ⊢
        exact this.trans hy
      · subst h; rw [ha] at hb; cases hb; exact hy)
    rcases Nat.lt_trichotomy i (lowerBound p l) with h | h | h
    · have := sp.1 i x h hi
      rw [hpk, hk] at this
      exact absurd this (lt_irrefl _)
    · exact h
    · exfalso
      obtain ⟨hil, rfl⟩ := List.getElem?_eq_some_iff.1 hi
      have hb : lowerBound p l < l.length := by omega
      have h3 := sp.2 _ _ (Nat.le_refl _) (List.getElem?_eq_getElem hb)
      have h4 := hlt _ _ _ _ h (List.getElem?_eq_getElem hb) hi
      rw [hk, ← hpk, h3] at h4
      cases h4
  · rintro ⟨-, h, hk⟩; exact ⟨h, hk⟩

/-! ### Specification: what a particle file says -/

/-- The type `t` is one of those a line stands for: one of its codes with the mass, width and
parity of the line, or the antiparticle of such a code, with the parity inverted for fermions. -/
def Declares (l : Line) (t : PType) : Prop :=
  ∃ s ∈ l.codes, ∃ d, ofString s = .ok d ∧ l.mass = some t.mass ∧ l.width = some t.width ∧
    ((t.code = d ∧ l.parity = (if t.parity then [43] else [45])) ∨
     (hasAntiparticle d = true ∧ t.code = Verif.Pdg.getAntiparticle d ∧
      ∃ j, spin d = .ok j ∧
        l.parity = (if (if j % 2 = 1 then !t.parity else t.parity) then [43] else [45])))

/-- The codes a word stands for. -/
def wordCodes (s : List Char) : List Nat :=
  match ofString s with
  | .error _ => []
  | .ok d => if hasAntiparticle d then [d, Verif.Pdg.getAntiparticle d] else [d]

/-- All codes a file stands for, with repetitions. -/
def fileCodes (ls : List Line) : List Nat := ls.flatMap fun l => l.codes.flatMap wordCodes

/-- One state can be set up: for a multiplet, the charge can be written in the name; a nucleus has
two to four nucleons; the name of the antiparticle can be formed. -/
def StateOk (l : Line) (d : Nat) : Prop :=
  (1 < l.codes.length → |Verif.Pdg.charge d| ≤ 2) ∧
  (isNucleus d = true → A d = 2 ∨ A d = 3 ∨ A d = 4) ∧
  (hasAntiparticle d = true → ∀ f, fullName l.name (decide (1 < l.codes.length)) d = .ok f →
    ∃ nm, antiname f d = .ok nm)

/-- A well-formed line. -/
def LineOk (l : Line) : Prop :=
  (∃ m w, l.mass = some m ∧ l.width = some w ∧ ∀ d, (l.codes.head?.map ofString) = some (.ok d) →
    ∀ m' ∈ fixedMasses d, almostEqual m m' = true) ∧
  (l.parity = [43] ∨ l.parity = [45]) ∧ l.codes ≠ [] ∧
  ∀ s ∈ l.codes, ∃ d, ofString s = .ok d ∧ StateOk l d

/-! ### The loader -/

theorem chargestr_ok {c : Int} : (∃ s, chargestr c = .ok s) ↔ |c| ≤ 2 := by
  unfold chargestr
  rw [abs_le]
  constructor
  · rintro ⟨s, h⟩
    split_ifs at h <;> omega
  · intro h
    split_ifs <;> first | exact ⟨_, rfl⟩ | omega

theorem spin_ok {d : Nat} : (∃ j, spin d = .ok j) ↔ (isNucleus d = true → A d = 2 ∨ A d = 3 ∨ A d = 4) := by
  unfold spin
  split_ifs <;> simp_all

theorem fullName_ok {nm : Str} {b : Bool} {d : Nat} :
    (∃ f, fullName nm b d = .ok f) ↔ (b = true → |Verif.Pdg.charge d| ≤ 2) := by
  rw [← chargestr_ok]
  unfold fullName
  cases b
  · simp
  · cases h : chargestr (Verif.Pdg.charge d) <;> simp

/-- The types for one code. -/
def Adds (nm : Str) (m w : ℚ) (p multi : Bool) (d : Nat) (ts : List PType) : Prop :=
  ∃ f, fullName nm multi d = .ok f ∧
    ((hasAntiparticle d = false ∧ ts = [⟨f, m, w, p, d⟩]) ∨
     (hasAntiparticle d = true ∧ ∃ t, antiType ⟨f, m, w, p, d⟩ = .ok t ∧ ts = [⟨f, m, w, p, d⟩, t]))

theorem addState_none {nm : Str} {m w : ℚ} {p multi : Bool} {acc acc' : List PType} {d : Nat} :
    addState nm m w p multi acc d = (acc', none) ↔ ∃ ts, Adds nm m w p multi d ts ∧ acc' = acc ++ ts := by
  unfold addState Adds
  cases hf : fullName nm multi d with
  | error e => simp
  | ok f =>
    dsimp only
    cases ha : hasAntiparticle d with
    | false => simp [eq_comm]
    | true =>
      simp only [if_true]
      cases ht : antiType ⟨f, m, w, p, d⟩ with
      | error e => simp [ht]
      | ok t => simp [ht, eq_comm]

theorem addStates_none {nm : Str} {m w : ℚ} {p multi : Bool} {acc acc' : List PType} {ds : List Nat} :
    addStates nm m w p multi acc ds = (acc', none) ↔
      ∃ tss : List (List PType), List.Forall₂ (Adds nm m w p multi) ds tss ∧ acc' = acc ++ tss.flatten := by
  induction ds generalizing acc with
  | nil => simp [addStates, eq_comm]
  | cons d ds ih =>
    rw [addStates]
    rcases h : addState nm m w p multi acc d with ⟨a1, _ | e⟩
    · dsimp only
      rw [ih]
      obtain ⟨ts, hts, rfl⟩ := addState_none.1 h
      constructor
      · rintro ⟨tss, h1, rfl⟩
        exact ⟨ts :: tss, .cons hts h1, by simp⟩
      · rintro ⟨_, h1, rfl⟩
        cases h1 with
        | @cons _ ts' _ tss h2 h3 =>
          have : ts' = ts := by
            have := (addState_none (acc := acc)).2 ⟨ts', h2, rfl⟩
            rw [h] at this
            simpa using this.symm
          subst this
          exact ⟨tss, h3, by simp⟩
    · simp only [Prod.mk.injEq, reduceCtorEq, and_false, false_iff]
      rintro ⟨_, h1, rfl⟩
      cases h1 with
      | @cons _ ts' _ tss h2 h3 =>
        have := (addState_none (acc := acc)).2 ⟨ts', h2, rfl⟩
        rw [h] at this
        simp at this

theorem parseCodes_ok {ss : List (List Char)} {ds : List Nat} :
    parseCodes ss = .ok ds ↔ List.Forall₂ (fun s d => ofString s = .ok d) ss ds := by
  induction ss generalizing ds with
  | nil => simp [parseCodes, eq_comm]
  | cons s ss ih =>
    rw [parseCodes]
    cases h : ofString s with
    | error e =>
      simp only [reduceCtorEq, false_iff]
      intro hc; cases hc with | cons h1 _ => rw [h] at h1; cases h1
    | ok d =>
      dsimp only
      cases h' : parseCodes ss with
      | error e =>
        simp only [reduceCtorEq, false_iff]
        intro hc; cases hc with
        | cons h1 h2 => rw [ih.2 h2] at h'; cases h'
      | ok ds' =>
        simp only [Except.ok.injEq]
        constructor
        · rintro rfl; exact .cons h (ih.1 h')
        · intro hc; cases hc with
          | cons h1 h2 =>
            rw [h] at h1; cases h1
            rw [ih.2 h2] at h'; cases h'; rfl

theorem parity_iff {s : Str} {p : Bool} : parseParity s = some p ↔ s = (if p then [43] else [45]) := by
  unfold parseParity
  split_ifs <;> simp_all <;> cases p <;> simp_all

/-- What a line adds. -/
def LineAdds (l : Line) (ts : List PType) : Prop :=
  ∃ m w p ds tss, l.mass = some m ∧ l.width = some w ∧ parseParity l.parity = some p ∧ l.codes ≠ [] ∧
    parseCodes l.codes = .ok ds ∧ checkMass (ds.headD 0) m = true ∧
    List.Forall₂ (Adds l.name m w p (decide (1 < l.codes.length))) ds tss ∧ ts = tss.flatten

theorem addLine_none {acc acc' : List PType} {l : Line} :
    addLine acc l = (acc', none) ↔ ∃ ts, LineAdds l ts ∧ acc' = acc ++ ts := by
  unfold addLine LineAdds
  cases hm : l.mass with
  | none => simp
  | some m =>
    cases hw : l.width with
    | none => simp
    | some w =>
      cases hp : parseParity l.parity with
      | none => simp
      | some p =>
        dsimp only
        split_ifs with hc
        · simp [hc]
        · cases hd : parseCodes l.codes with
          | error e => simp
          | ok ds =>
            dsimp only
            have hl : ds.length = l.codes.length := (parseCodes_ok.1 hd).length_eq.symm
            split_ifs with hk
            · rw [addStates_none, hl]
              constructor
              · rintro ⟨tss, h1, rfl⟩
                exact ⟨_, ⟨m, w, p, ds, tss, rfl, rfl, rfl, hc, rfl, hk, h1, rfl⟩, rfl⟩
              · rintro ⟨ts, ⟨m', w', p', ds', tss, e1, e2, e3, -, e4, -, h1, rfl⟩, rfl⟩
                cases e1; cases e2; cases e3; cases e4
                exact ⟨tss, h1, rfl⟩
            · simp only [Prod.mk.injEq, reduceCtorEq, and_false, false_iff]
              rintro ⟨ts, ⟨m', w', p', ds', tss, e1, e2, e3, -, e4, h5, -⟩, -⟩
              cases e1; cases e4
              exact hk h5

theorem addLines_none {acc acc' : List PType} {ls : List Line} :
    addLines acc ls = (acc', none) ↔
      ∃ tss, List.Forall₂ LineAdds ls tss ∧ acc' = acc ++ tss.flatten := by
  induction ls generalizing acc with
  | nil => simp [addLines, eq_comm]
  | cons l ls ih =>
    rw [addLines]
    rcases h : addLine acc l with ⟨a1, _ | e⟩
    · dsimp only
      rw [ih]
      obtain ⟨ts, hts, rfl⟩ := addLine_none.1 h
      constructor
      · rintro ⟨tss, h1, rfl⟩
        exact ⟨ts :: tss, .cons hts h1, by simp⟩
      · rintro ⟨_, h1, rfl⟩
        cases h1 with
        | @cons _ ts' _ tss h2 h3 =>
          have : ts' = ts := by
            have := (addLine_none (acc := acc)).2 ⟨ts', h2, rfl⟩
            rw [h] at this
            simpa using this.symm
          subst this
          exact ⟨tss, h3, by simp⟩
    · simp only [Prod.mk.injEq, reduceCtorEq, and_false, false_iff]
      rintro ⟨_, h1, rfl⟩
      cases h1 with
      | @cons _ ts' _ tss h2 h3 =>
        have := (addLine_none (acc := acc)).2 ⟨ts', h2, rfl⟩
        rw [h] at this
        simp at this

theorem antiFrom_ok {t u : PType} {g : Nat} {sp : Except Verif.Pdg.Err Nat} {an : Except Err Str} :
    antiFrom t g sp an = .ok u ↔
    ∃ j, sp = .ok j ∧ an = .ok u.name ∧ u.mass = t.mass ∧
      u.width = t.width ∧ u.parity = (if j % 2 = 0 then t.parity else !t.parity) ∧ u.code = g := by
  unfold antiFrom
  cases sp with
  | error e => simp
  | ok j =>
    cases an with
    | error e => simp
    | ok nm =>
      simp only [Except.ok.injEq, exists_eq_left']
      constructor
      · rintro rfl; exact ⟨rfl, rfl, rfl, rfl, rfl⟩
      · rintro ⟨h1, h2, h3, h4, h5⟩
        cases u
        simp only at h1 h2 h3 h4 h5
        subst h1; subst h2; subst h3; subst h4; subst h5; rfl

theorem antiType_ok {t u : PType} : antiType t = .ok u ↔
    ∃ j, spin t.code = .ok j ∧ antiname t.name t.code = .ok u.name ∧ u.mass = t.mass ∧
      u.width = t.width ∧ u.parity = (if j % 2 = 0 then t.parity else !t.parity) ∧
      u.code = Verif.Pdg.getAntiparticle t.code := by
  rw [← (C15_opposite t.code).2.2.2.2.2.2.1]
  exact antiFrom_ok

/-- The codes a line adds. -/
theorem Adds.codes {nm : Str} {m w : ℚ} {p multi : Bool} {s : List Char} {d : Nat} {ts : List PType}
    (hs : ofString s = .ok d) (h : Adds nm m w p multi d ts) :
    ts.map PType.code = wordCodes s := by
  unfold wordCodes
  rw [hs]
  dsimp only
  obtain ⟨f, -, ⟨ha, rfl⟩ | ⟨ha, t, ht, rfl⟩⟩ := h
  · simp [ha]
  · obtain ⟨j, h⟩ := antiType_ok.1 ht
    simp [ha, h.2.2.2.2.2]

theorem forall2_flatten {α β γ : Type} {R : α → List β → Prop} {g : β → γ} {c : α → List γ}
    {l : List α} {tss : List (List β)} (h : List.Forall₂ R l tss)
    (hc : ∀ a ∈ l, ∀ ts, R a ts → ts.map g = c a) : tss.flatten.map g = l.flatMap c := by
  induction h with
  | nil => rfl
  | cons h1 _ ih =>
    simp only [List.flatten_cons, List.map_append, List.flatMap_cons]
    rw [hc _ (by simp) _ h1, ih fun a ha => hc a (by simp [ha])]

theorem forall2_comp_flatten {α β γ δ : Type} {S : α → δ → Prop} {R : δ → List β → Prop} {g : β → γ}
    {c : α → List γ} {l : List α} {ds : List δ} {tss : List (List β)} (hS : List.Forall₂ S l ds)
    (h : List.Forall₂ R ds tss)
    (hc : ∀ a d ts, S a d → R d ts → ts.map g = c a) : tss.flatten.map g = l.flatMap c := by
  induction hS generalizing tss with
  | nil => cases h; rfl
  | cons h1 _ ih =>
    cases h with
    | cons h2 h3 =>
      simp only [List.flatten_cons, List.map_append, List.flatMap_cons]
      rw [hc _ _ _ h1 h2, ih h3]

theorem LineAdds.codes {l : Line} {ts : List PType} (h : LineAdds l ts) :
    ts.map PType.code = l.codes.flatMap wordCodes := by
  obtain ⟨m, w, p, ds, tss, -, -, -, -, hd, -, h2, rfl⟩ := h
  exact forall2_comp_flatten (parseCodes_ok.1 hd) h2 fun s d ts hs hd => hd.codes hs

theorem exists_forall2 {α β : Type} {R : α → β → Prop} {l : List α} :
    (∃ m, List.Forall₂ R l m) ↔ ∀ a ∈ l, ∃ b, R a b := by
  induction l with
  | nil => simp
  | cons a l ih =>
    constructor
    · rintro ⟨m, hm⟩ x hx
      cases hm with
      | cons h1 h2 =>
        rcases List.mem_cons.1 hx with rfl | hx
        · exact ⟨_, h1⟩
        · exact ih.1 ⟨_, h2⟩ x hx
    · intro h
      obtain ⟨b, hb⟩ := h a (by simp)
      obtain ⟨m, hm⟩ := ih.2 fun x hx => h x (by simp [hx])
      exact ⟨b :: m, .cons hb hm⟩

theorem adds_ok {nm : Str} {m w : ℚ} {p multi : Bool} {d : Nat} :
    (∃ ts, Adds nm m w p multi d ts) ↔ (multi = true → |Verif.Pdg.charge d| ≤ 2) ∧
      (hasAntiparticle d = true → (∃ j, spin d = .ok j) ∧
        ∀ f, fullName nm multi d = .ok f → ∃ n, antiname f d = .ok n) := by
  rw [← fullName_ok (nm := nm)]
  unfold Adds
  constructor
  · rintro ⟨ts, f, hf, h⟩
    refine ⟨⟨f, hf⟩, ?_⟩
    intro ha
    rcases h with ⟨h, -⟩ | ⟨-, t, ht, -⟩
    · rw [h] at ha; cases ha
    · obtain ⟨j, h1, h2, -⟩ := antiType_ok.1 ht
      refine ⟨⟨j, h1⟩, ?_⟩
      intro f' hf'
      rw [hf] at hf'; cases hf'
      exact ⟨_, h2⟩
  · rintro ⟨⟨f, hf⟩, h⟩
    cases ha : hasAntiparticle d with
    | false => exact ⟨_, f, hf, Or.inl ⟨rfl, rfl⟩⟩
    | true =>
      obtain ⟨⟨j, hj⟩, h2⟩ := h ha
      obtain ⟨n, hn⟩ := h2 f hf
      obtain ⟨t, ht⟩ : ∃ t, antiType ⟨f, m, w, p, d⟩ = .ok t :=
        ⟨⟨n, m, w, if j % 2 = 0 then p else !p, Verif.Pdg.getAntiparticle d⟩,
          antiType_ok.2 ⟨j, hj, hn, rfl, rfl, rfl, rfl⟩⟩
      exact ⟨_, f, hf, Or.inr ⟨rfl, t, ht, rfl⟩⟩

theorem nucleus_hasAnti {d : Nat} (h : isNucleus d = true) : hasAntiparticle d = true := by
  unfold hasAntiparticle; rw [if_pos h]

theorem lineAdds_ok {l : Line} : (∃ ts, LineAdds l ts) ↔ LineOk l := by
  constructor
  · rintro ⟨ts, m, w, p, ds, tss, hm, hw, hp, hc, hd, hk, hA, -⟩
    have hd := parseCodes_ok.1 hd
    refine ⟨⟨m, w, hm, hw, ?_⟩, ?_, hc, ?_⟩
    · intro d hh
      cases hcs : l.codes with
      | nil => exact absurd hcs hc
      | cons s ss =>
        rw [hcs] at hd hh
        cases hd with
        | @cons _ d' _ ds' h1 h2 =>
          simp only [List.head?_cons, Option.map_some, Option.some.injEq] at hh
          rw [h1] at hh; cases hh
          simpa [checkMass] using hk
    · rw [parity_iff] at hp
      rw [hp]; cases p <;> simp
    · intro s hs
      have key : ∀ {cs : List (List Char)} {ds : List Nat} {tss : List (List PType)},
          List.Forall₂ (fun s d => ofString s = .ok d) cs ds →
          List.Forall₂ (Adds l.name m w p (decide (1 < l.codes.length))) ds tss →
          ∀ s ∈ cs, ∃ d, ofString s = .ok d ∧
            ∃ ts, Adds l.name m w p (decide (1 < l.codes.length)) d ts := by
        intro cs ds tss h1
        induction h1 generalizing tss with
        | nil => simp
        | cons h1 _ ih =>
          intro h2 s hs
          cases h2 with
          | cons h3 h4 =>
            rcases List.mem_cons.1 hs with rfl | hs
            · exact ⟨_, h1, _, h3⟩
            · exact ih h4 s hs
      obtain ⟨d, h1, h2⟩ := key hd hA s hs
      obtain ⟨h3, h4⟩ := adds_ok.1 h2
      refine ⟨d, h1, fun h => h3 (by simpa using h), fun h => ?_, fun h => (h4 h).2⟩
      exact spin_ok.1 (h4 (nucleus_hasAnti h)).1 h
  · rintro ⟨⟨m, w, hm, hw, hk⟩, hp, hc, hs⟩
    obtain ⟨ds, hds⟩ := exists_forall2.2 fun s hs' => (hs s hs').imp fun d h => h.1
    obtain ⟨p, hp⟩ : ∃ p, parseParity l.parity = some p := by
      rcases hp with h | h
      · exact ⟨true, parity_iff.2 h⟩
      · exact ⟨false, parity_iff.2 h⟩
    have : ∃ tss, List.Forall₂ (Adds l.name m w p (decide (1 < l.codes.length))) ds tss := by
      apply exists_forall2.2
      intro d hd
      have key : ∀ {cs : List (List Char)} {ds : List Nat},
          List.Forall₂ (fun s d => ofString s = .ok d) cs ds → d ∈ ds → ∃ s ∈ cs, ofString s = .ok d := by
        intro cs ds h
        induction h with
        | nil => simp
        | cons h1 _ ih =>
          intro hd
          rcases List.mem_cons.1 hd with rfl | hd
          · exact ⟨_, by simp, h1⟩
          · obtain ⟨s, h2, h3⟩ := ih hd
            exact ⟨s, by simp [h2], h3⟩
      obtain ⟨s, hs1, hs2⟩ := key hds hd
      obtain ⟨d', h1, h2, h3, h4⟩ := hs s hs1
      rw [hs2] at h1; cases h1
      exact adds_ok.2 ⟨fun h => h2 (by simpa using h), fun h => ⟨spin_ok.2 h3, h4 h⟩⟩
    obtain ⟨tss, htss⟩ := this
    refine ⟨_, m, w, p, ds, tss, hm, hw, hp, hc, parseCodes_ok.2 hds, ?_, htss, rfl⟩
    cases hcs : l.codes with
    | nil => exact absurd hcs hc
    | cons s ss =>
      rw [hcs] at hds hk
      cases hds with
      | @cons _ d' _ ds' h1 h2 =>
        have := hk d' (by simp [h1])
        simpa [checkMass] using this

theorem mem_forall2_flatten {α β : Type} {R : α → List β → Prop} {l : List α} {tss : List (List β)}
    (h : List.Forall₂ R l tss) {t : β} (ht : t ∈ tss.flatten) : ∃ a ∈ l, ∃ ts, R a ts ∧ t ∈ ts := by
  induction h with
  | nil => simp at ht
  | cons h1 _ ih =>
    simp only [List.flatten_cons, List.mem_append] at ht
    rcases ht with ht | ht
    · exact ⟨_, by simp, _, h1, ht⟩
    · obtain ⟨a, h2, h3⟩ := ih ht
      exact ⟨a, by simp [h2], h3⟩

theorem mem_flatten_forall2 {α β : Type} {R : α → List β → Prop} {l : List α} {tss : List (List β)}
    (h : List.Forall₂ R l tss) {a : α} (ha : a ∈ l) : ∃ ts, R a ts ∧ ∀ t ∈ ts, t ∈ tss.flatten := by
  induction h with
  | nil => simp at ha
  | cons h1 _ ih =>
    rcases List.mem_cons.1 ha with rfl | ha
    · exact ⟨_, h1, by simp +contextual⟩
    · obtain ⟨ts, h2, h3⟩ := ih ha
      exact ⟨ts, h2, fun t ht => by simp [h3 t ht]⟩

theorem forall2_mem_left {α β : Type} {R : α → β → Prop} {l : List α} {m : List β}
    (h : List.Forall₂ R l m) {b : β} (hb : b ∈ m) : ∃ a ∈ l, R a b := by
  induction h with
  | nil => simp at hb
  | cons h1 _ ih =>
    rcases List.mem_cons.1 hb with rfl | hb
    · exact ⟨_, by simp, h1⟩
    · obtain ⟨a, h2, h3⟩ := ih hb
      exact ⟨a, by simp [h2], h3⟩

theorem forall2_mem_right {α β : Type} {R : α → β → Prop} {l : List α} {m : List β}
    (h : List.Forall₂ R l m) {a : α} (ha : a ∈ l) : ∃ b ∈ m, R a b := by
  induction h with
  | nil => simp at ha
  | cons h1 _ ih =>
    rcases List.mem_cons.1 ha with rfl | ha
    · exact ⟨_, by simp, h1⟩
    · obtain ⟨b, h2, h3⟩ := ih ha
      exact ⟨b, by simp [h2], h3⟩

end Verif.Types
