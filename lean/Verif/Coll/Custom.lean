import Verif.Coll.Nuc
import Mathlib.Tactic.IntervalCases
import Mathlib.Analysis.Real.Sqrt
/-! Nuclei from files (customnucleus.cc) and alpha clusters (alphaclusterednucleus.cc): C95, C96. -/
namespace Verif.Coll
open Verif.Kin Real

/-! ### Model of customnucleus.cc -/

/-- `Nucleoncustom`, customnucleus.h:26-37 (without the spin, which is not used); `P`: positions. -/
structure CNuc (P : Type) where
  pos : P
  isospin : Int

/-- A file: complete lines, and what stands behind the last newline. A line that cannot be parsed is
`none`. -/
structure CFile (P : Type) where
  lines : List (Option (CNuc P))
  rest : Option (Option (CNuc P))

inductive CErr | unreadable | wrongNumbers | wrongCharge | outOfRange
deriving DecidableEq

variable {P : Type}

/-- `std::getline` with the return to the beginning at the end of the file, customnucleus.cc:184-190; `pos`:
number of lines read. `getline` sets `eof` also when the last line without newline was read; the
line is then replaced by the first one. -/
def getLine (f : CFile P) (pos : Nat) : Option (CNuc P) × Nat :=
  if h : pos < f.lines.length then (f.lines[pos], pos + 1)
  else
    match f.lines with
    | l :: _ => (l, 1)
    | [] =>
      match f.rest with
      | some l => (l, 0)
      | none => (none, 0)

/-- The loop of `readfile`, customnucleus.cc:183-205. -/
def readLines (f : CFile P) : Nat → Nat → List (CNuc P) → Except CErr (List (CNuc P) × Nat)
  | 0, pos, acc => .ok (acc, pos)
  | k + 1, pos, acc =>
    match getLine f pos with
    | (none, _) => .error .unreadable
    | (some c, pos') => readLines f k pos' (acc ++ [c])

/-- `readfile`, customnucleus.cc:174-216; `np`, `nn`: protons and neutrons including test particles. -/
def readfile (f : CFile P) (np nn pos : Nat) : Except CErr (List (CNuc P) × Nat) :=
  match readLines f (np + nn) pos [] with
  | .error e => .error e
  | .ok (l, pos') =>
    if (l.filter fun c => c.isospin = 1).length ≠ np ∨ (l.filter fun c => c.isospin = 0).length ≠ nn then
      .error .wrongNumbers
    else .ok (l, pos')

/-- A particle of the nucleus. -/
structure CPart (P : Type) where
  species : Species
  pos : Option P
  label : Label

/-- `fill_from_list`, customnucleus.cc:93-115. -/
def fillCustom : List (CNuc P) → Except CErr (List (CPart P))
  | [] => .ok []
  | c :: l =>
    if c.isospin = 1 then (fillCustom l).map (⟨.proton, none, .nothing⟩ :: ·)
    else if c.isospin = 0 then (fillCustom l).map (⟨.neutron, none, .nothing⟩ :: ·)
    else .error .wrongCharge

/-- State of a `CustomNucleus`: position in the file, `custom_nucleus_`, `index_`, `particles_`. -/
structure CState (P : Type) where
  pos : Nat
  nucleus : List (CNuc P)
  index : Nat
  parts : List (CPart P)

/-- Constructor, customnucleus.cc:26-91, and `set_label` in the constructor of the collider modus,
collidermodus.cc:86-88. -/
def construct (f : CFile P) (np nn : Nat) (lab : Label) : Except CErr (CState P) :=
  match readfile f np nn 0 with
  | .error e => .error e
  | .ok (l, pos) =>
    match fillCustom l with
    | .error e => .error e
    | .ok ps => .ok ⟨pos, l, 0, ps.map fun p => { p with label := lab }⟩

/-- `distribute_nucleon`, customnucleus.cc:117-136, without the rotation. -/
def distribute (f : CFile P) (np nn : Nat) (s : CState P) : Except CErr (P × CState P) :=
  let refilled : Except CErr (CState P) :=
    if s.nucleus.length ≤ s.index then
      match readfile f np nn s.pos with
      | .error e => .error e
      | .ok (l, pos) =>
        match fillCustom l with
        | .error e => .error e
        | .ok ps => .ok ⟨pos, l, 0, ps⟩
    else .ok s
  match refilled with
  | .error e => .error e
  | .ok s =>
    match s.nucleus[s.index]? with
    | none => .error .outOfRange
    | some c => .ok (c.pos, { s with index := s.index + 1 })

/-- The loop of `arrange_nucleons`, customnucleus.cc:145-153, from particle `i` on (`fuel`: particles left);
recentring is left out. -/
def arrangeFrom (f : CFile P) (np nn : Nat) : Nat → Nat → CState P → Except CErr (CState P)
  | 0, _, s => .ok s
  | fuel + 1, i, s =>
    match distribute f np nn s with
    | .error e => .error e
    | .ok (p, s') =>
      arrangeFrom f np nn fuel (i + 1)
        { s' with parts := s'.parts.modify i fun q => { q with pos := some p } }

/-- `arrange_nucleons` for one event. -/
def arrangeCustom (f : CFile P) (np nn : Nat) (s : CState P) : Except CErr (CState P) :=
  arrangeFrom f np nn s.parts.length 0 s

/-- The state after `k` events. -/
def events (f : CFile P) (np nn : Nat) : Nat → CState P → Except CErr (CState P)
  | 0, s => .ok s
  | k + 1, s => (arrangeCustom f np nn s).bind (events f np nn k)

/-! ### C96 -/

/-- A file of nucleons with a newline at the end of every line. -/
def fileOf (l : List (CNuc P)) : CFile P := ⟨l.map some, none⟩

/-- Entries `a .. a+k-1` of the list, starting over at its end. -/
def cyclic (l : List (CNuc P)) (h : 0 < l.length) (a k : Nat) : List (CNuc P) :=
  (List.range k).map fun i => l[(a + i) % l.length]'(Nat.mod_lt _ h)

theorem getLine_cyc (l : List (CNuc P)) (h : 0 < l.length) (pos a : Nat) (hp : pos ≤ l.length)
    (ha : pos % l.length = a % l.length) :
    ∃ pos', getLine (fileOf l) pos = (some (l[a % l.length]'(Nat.mod_lt _ h)), pos') ∧
      pos' ≤ l.length ∧ pos' % l.length = (a + 1) % l.length := by
  unfold getLine fileOf
  by_cases hlt : pos < l.length
  · refine ⟨pos + 1, ?_, by omega, ?_⟩
    · rw [dif_pos (by simpa using hlt)]
      simp only [List.getElem_map, Prod.mk.injEq, Option.some.injEq, and_true]
      congr 1
      rw [← ha, Nat.mod_eq_of_lt hlt]
    · rw [Nat.add_mod, ha, ← Nat.add_mod]
  · have hpe : pos = l.length := by omega
    rw [dif_neg (by simpa using hlt)]
    rw [hpe, Nat.mod_self] at ha
    cases l with
    | nil => simp at h
    | cons c l =>
      refine ⟨1, ?_, by simp, ?_⟩
      · simp only [List.map_cons, Prod.mk.injEq, Option.some.injEq, and_true]
        have : (c :: l)[a % (c :: l).length]'(Nat.mod_lt _ h) = (c :: l)[0] := by
          congr 1; exact ha.symm
        rw [this]; rfl
      · rw [Nat.add_mod, ← ha]
        simp

theorem readLines_cyc (l : List (CNuc P)) (h : 0 < l.length) (k pos a : Nat) (acc : List (CNuc P))
    (hp : pos ≤ l.length) (ha : pos % l.length = a % l.length) :
    ∃ pos', readLines (fileOf l) k pos acc = .ok (acc ++ cyclic l h a k, pos') ∧
      pos' ≤ l.length ∧ pos' % l.length = (a + k) % l.length := by
  induction k generalizing pos a acc with
  | zero => exact ⟨pos, by simp [readLines, cyclic], hp, by simpa using ha⟩
  | succ k ih =>
    obtain ⟨p1, e1, b1, c1⟩ := getLine_cyc l h pos a hp ha
    obtain ⟨p2, e2, b2, c2⟩ := ih p1 (a + 1) (acc ++ [l[a % l.length]'(Nat.mod_lt _ h)]) b1 c1
    refine ⟨p2, ?_, b2, by rw [c2]; congr 1; omega⟩
    unfold readLines
    rw [e1]
    simp only
    rw [e2]
    simp only [Except.ok.injEq, Prod.mk.injEq, and_true, List.append_assoc]
    congr 1
    unfold cyclic
    rw [List.range_succ_eq_map, List.map_cons, List.map_map]
    simp only [List.singleton_append, Nat.add_zero, List.cons.injEq, true_and]
    apply List.map_congr_left
    intro i _
    simp only [Function.comp_def]
    congr 2
    omega

theorem filter_split (l : List (CNuc P)) : (l.filter fun c => c.isospin = 1).length +
    (l.filter fun c => c.isospin = 0).length ≤ l.length ∧
    ((l.filter fun c => c.isospin = 1).length + (l.filter fun c => c.isospin = 0).length = l.length →
      ∀ c ∈ l, c.isospin = 1 ∨ c.isospin = 0) := by
  induction l with
  | nil => simp
  | cons c l ih =>
    obtain ⟨i1, i2⟩ := ih
    simp only [List.filter_cons, List.length_cons]
    by_cases h1 : c.isospin = 1
    · have h0 : ¬ c.isospin = 0 := by omega
      simp only [h1, decide_true, if_true, List.length_cons]
      simp only [show ¬ ((1 : Int) = 0) by decide, decide_false, Bool.false_eq_true, if_false]
      refine ⟨by omega, fun he d hd => ?_⟩
      rcases List.mem_cons.1 hd with rfl | hd
      · exact Or.inl h1
      · exact i2 (by omega) d hd
    · by_cases h0 : c.isospin = 0
      · simp only [h0, decide_true, if_true, List.length_cons]
        simp only [show ¬ ((0 : Int) = 1) by decide, decide_false, Bool.false_eq_true, if_false]
        refine ⟨by omega, fun he d hd => ?_⟩
        rcases List.mem_cons.1 hd with rfl | hd
        · exact Or.inr h0
        · exact i2 (by omega) d hd
      · simp only [h1, h0, decide_false, Bool.false_eq_true, if_false]
        exact ⟨by omega, fun he => by omega⟩

/-- The species of a line. -/
def lineSpecies (c : CNuc P) : Species := if c.isospin = 1 then .proton else .neutron

theorem fillCustom_ok (l : List (CNuc P)) (h : ∀ c ∈ l, c.isospin = 1 ∨ c.isospin = 0) :
    fillCustom l = .ok (l.map fun c => ⟨lineSpecies c, none, .nothing⟩) := by
  induction l with
  | nil => rfl
  | cons c l ih =>
    have := ih fun d hd => h d (List.mem_cons_of_mem _ hd)
    unfold fillCustom
    rw [this]
    unfold lineSpecies
    rcases h c List.mem_cons_self with h1 | h0
    · rw [if_pos h1]; simp only [List.map_cons, h1, if_true]; rfl
    · rw [if_neg (by omega), if_pos h0]
      simp only [List.map_cons, h0, show ¬ ((0 : Int) = 1) by decide, if_false]; rfl

/-- The numbers of protons and neutrons of a list are the configured ones. -/
def Matches (l : List (CNuc P)) (np nn : Nat) : Prop :=
  (l.filter fun c => c.isospin = 1).length = np ∧ (l.filter fun c => c.isospin = 0).length = nn

theorem readfile_cyc (l : List (CNuc P)) (h : 0 < l.length) (np nn pos a : Nat)
    (hp : pos ≤ l.length) (ha : pos % l.length = a % l.length) :
    (Matches (cyclic l h a (np + nn)) np nn →
      (∃ pos', readfile (fileOf l) np nn pos = .ok (cyclic l h a (np + nn), pos') ∧
        pos' ≤ l.length ∧ pos' % l.length = (a + (np + nn)) % l.length) ∧
      fillCustom (cyclic l h a (np + nn)) =
        .ok ((cyclic l h a (np + nn)).map fun c => ⟨lineSpecies c, none, .nothing⟩)) ∧
    (¬ Matches (cyclic l h a (np + nn)) np nn → readfile (fileOf l) np nn pos = .error .wrongNumbers) := by
  obtain ⟨p, e, b, c⟩ := readLines_cyc l h (np + nn) pos a [] hp ha
  rw [List.nil_append] at e
  unfold readfile
  rw [e]
  simp only
  constructor
  · rintro ⟨m1, m2⟩
    refine ⟨⟨p, ?_, b, c⟩, ?_⟩
    · rw [if_neg (by rintro (h | h); exact h m1; exact h m2)]
    · apply fillCustom_ok
      apply (filter_split _).2
      rw [m1, m2]
      simp [cyclic]
  · intro hm
    rw [if_pos]
    by_contra hc
    rw [not_or, not_not, not_not] at hc
    exact hm hc

theorem arrangeFrom_rest (f : CFile P) (np nn : Nat) (L : List (CNuc P)) (fuel i pos : Nat)
    (parts : List (CPart P)) (h : i + fuel = L.length) :
    ∃ ps, arrangeFrom f np nn fuel i ⟨pos, L, i, parts⟩ = .ok ⟨pos, L, L.length, ps⟩ ∧
      ps.length = parts.length ∧
      (∀ j (hj : j < ps.length) (hj' : j < parts.length), ps[j].species = parts[j].species ∧
        ps[j].label = parts[j].label ∧ (j < i → ps[j].pos = parts[j].pos) ∧
        ∀ hL : j < L.length, i ≤ j → ps[j].pos = some L[j].pos) := by
  induction fuel generalizing i parts with
  | zero =>
    have hi : i = L.length := by omega
    subst hi
    refine ⟨parts, rfl, rfl, fun j hj hj' => ⟨rfl, rfl, fun _ => rfl, fun hL hle => by omega⟩⟩
  | succ fuel ih =>
    have hlt : i < L.length := by omega
    have hd : distribute f np nn ⟨pos, L, i, parts⟩ = .ok (L[i].pos, ⟨pos, L, i + 1, parts⟩) := by
      unfold distribute
      simp only
      rw [if_neg (by omega)]
      simp only
      rw [List.getElem?_eq_getElem hlt]
    obtain ⟨ps, e, hl, hps⟩ := ih (i + 1) (parts.modify i fun q => { q with pos := some L[i].pos }) (by omega)
    refine ⟨ps, ?_, by simpa using hl, ?_⟩
    · unfold arrangeFrom
      rw [hd]
      exact e
    · intro j hj hj'
      obtain ⟨g1, g2, g3, g4⟩ := hps j hj (by simpa using hj')
      rw [List.getElem_modify] at g1 g2 g3
      refine ⟨?_, ?_, ?_, ?_⟩
      · rw [g1]; split_ifs <;> rfl
      · rw [g2]; split_ifs <;> rfl
      · intro hji
        rw [g3 (by omega), if_neg (by omega)]
      · intro hL hij
        by_cases hji : i = j
        · subst hji
          rw [g3 (by omega), if_pos rfl]
        · exact g4 hL (by omega)

/-- A nucleus that consists of the given lines. -/
def Holds (s : CState P) (lines : List (CNuc P)) (lab : Label) : Prop :=
  s.parts.length = lines.length ∧ ∀ j (h : j < s.parts.length) (h' : j < lines.length),
    s.parts[j].species = lineSpecies lines[j] ∧ s.parts[j].pos = some lines[j].pos ∧ s.parts[j].label = lab

/-- **C96**: with a newline at the end of every line, event `k` (counted from 0) gets the lines
`k A .. k A + A - 1` of the file, read again from its beginning when it ends, provided the numbers of
protons and neutrons of all blocks read agree with the configuration. Missing: files without newline at the
end (`C96_last_line_false`) and the label of the nucleus, which is only kept in the first event
(`C96_labels_false`). -/
theorem C96_events_partial (l : List (CNuc P)) (h : 0 < l.length) (np nn : Nat) (hA : 0 < np + nn)
    (lab : Label) (k : Nat)
    (hm : ∀ j ≤ k, Matches (cyclic l h (j * (np + nn)) (np + nn)) np nn) :
    ∃ s0 s, construct (fileOf l) np nn lab = .ok s0 ∧ events (fileOf l) np nn (k + 1) s0 = .ok s ∧
      Holds s (cyclic l h (k * (np + nn)) (np + nn)) (if k = 0 then lab else .nothing) := by
  have hlenc : ∀ a, (cyclic l h a (np + nn)).length = np + nn := fun a => by simp [cyclic]
  obtain ⟨⟨p0, e0, b0, c0⟩, f0⟩ := (readfile_cyc l h np nn 0 0 (by omega) rfl).1 (by simpa using hm 0 (by omega))
  -- state after event j
  have main : ∀ j, j ≤ k → ∀ s0, construct (fileOf l) np nn lab = .ok s0 →
      ∃ pos ps, events (fileOf l) np nn (j + 1) s0 =
        .ok ⟨pos, cyclic l h (j * (np + nn)) (np + nn), np + nn, ps⟩ ∧ pos ≤ l.length ∧
        pos % l.length = ((j + 1) * (np + nn)) % l.length ∧
        Holds ⟨pos, cyclic l h (j * (np + nn)) (np + nn), np + nn, ps⟩ (cyclic l h (j * (np + nn)) (np + nn))
          (if j = 0 then lab else .nothing) := by
    have evs : ∀ j s0, events (fileOf l) np nn (j + 1) s0 =
        (events (fileOf l) np nn j s0).bind (arrangeCustom (fileOf l) np nn) := by
      intro j
      induction j with
      | zero =>
        intro s0
        show (arrangeCustom (fileOf l) np nn s0).bind (fun s => .ok s) = arrangeCustom (fileOf l) np nn s0
        cases arrangeCustom (fileOf l) np nn s0 <;> rfl
      | succ j ih =>
        intro s0
        rw [events]
        conv_rhs => rw [events]
        cases arrangeCustom (fileOf l) np nn s0 with
        | error e => rfl
        | ok s => exact ih s
    intro j
    induction j with
    | zero =>
      intro _ s0 hs0
      unfold construct at hs0
      rw [e0] at hs0
      simp only at hs0
      rw [f0] at hs0
      simp only [Except.ok.injEq] at hs0
      obtain ⟨ps, e, hl, hps⟩ := arrangeFrom_rest (fileOf l) np nn (cyclic l h 0 (np + nn)) (np + nn) 0 p0
        s0.parts (by rw [hlenc]; omega)
      have hpl : s0.parts.length = np + nn := by rw [← hs0]; simp [hlenc]
      refine ⟨p0, ps, ?_, b0, by simpa using c0, ?_⟩
      · rw [evs]
        simp only [events, Except.bind, arrangeCustom]
        rw [hpl]
        rw [hlenc] at e
        simp only [Nat.zero_mul]
        rw [← e, ← hs0]
      · refine ⟨by rw [hl, hpl, hlenc], ?_⟩
        intro i h1 h2
        simp only [Nat.zero_mul] at h2 ⊢
        obtain ⟨g1, g2, -, g4⟩ := hps i h1 (by rw [← hl]; exact h1)
        refine ⟨?_, g4 h2 (by omega), ?_⟩
        · rw [g1]
          have : s0.parts = (cyclic l h 0 (np + nn)).map fun c => ⟨lineSpecies c, none, lab⟩ := by
            rw [← hs0]; simp
          simp only [this, List.getElem_map]
        · rw [g2]
          have : s0.parts = (cyclic l h 0 (np + nn)).map fun c => ⟨lineSpecies c, none, lab⟩ := by
            rw [← hs0]; simp
          simp only [this, List.getElem_map, if_true]
    | succ j ih =>
      intro hj s0 hs0
      obtain ⟨pos, ps, e, b, c, hh⟩ := ih (by omega) s0 hs0
      obtain ⟨⟨p1, e1, b1, c1⟩, f1⟩ := (readfile_cyc l h np nn pos ((j + 1) * (np + nn)) b c).1 (hm (j + 1) hj)
      have hlt : 0 < (cyclic l h ((j + 1) * (np + nn)) (np + nn)).length := by rw [hlenc]; exact hA
      rw [evs, e]
      simp only [Except.bind]
      obtain ⟨m, hm'⟩ : ∃ m, np + nn = m + 1 := ⟨np + nn - 1, by omega⟩
      obtain ⟨L, hL⟩ : ∃ L, L = cyclic l h ((j + 1) * (np + nn)) (np + nn) := ⟨_, rfl⟩
      have hLl : L.length = np + nn := by rw [hL, hlenc]
      have hd : distribute (fileOf l) np nn ⟨pos, cyclic l h (j * (np + nn)) (np + nn), np + nn, ps⟩ =
          .ok ((L[0]'(by omega)).pos, ⟨p1, L, 1, L.map fun c => ⟨lineSpecies c, none, .nothing⟩⟩) := by
        unfold distribute
        simp only
        rw [if_pos (by rw [hlenc]), e1]
        simp only
        rw [f1]
        simp only
        rw [← hL, List.getElem?_eq_getElem (by omega)]
      obtain ⟨qs, e2, hl2, hqs⟩ := arrangeFrom_rest (fileOf l) np nn L m 1 p1
        ((L.map fun c => (⟨lineSpecies c, none, .nothing⟩ : CPart P)).modify 0
          fun q => { q with pos := some (L[0]'(by omega)).pos }) (by omega)
      have hpl : ps.length = np + nn := by have := hh.1; rw [hlenc] at this; exact this
      refine ⟨p1, qs, ?_, b1, ?_, ?_⟩
      · unfold arrangeCustom
        rw [← hL]
        simp only
        rw [hpl, hm']
        unfold arrangeFrom
        rw [← hm', hd]
        simp only
        rw [e2, hLl]
      · rw [c1]; congr 1; ring
      · rw [← hL]
        refine ⟨by rw [hl2]; simp, ?_⟩
        intro i h1 h2
        obtain ⟨g1, g2, g3, g4⟩ := hqs i h1 (by rw [← hl2]; exact h1)
        simp only [List.getElem_modify, List.getElem_map] at g1 g2 g3
        refine ⟨?_, ?_, ?_⟩
        · rw [g1]; split_ifs <;> rfl
        · by_cases hi : i = 0
          · subst hi
            rw [g3 (by omega), if_pos rfl]
          · exact g4 h2 (by omega)
        · rw [g2, if_neg (show ¬ j + 1 = 0 by omega)]
          split_ifs <;> rfl
  have hc : ∃ s0, construct (fileOf l) np nn lab = .ok s0 := by
    unfold construct
    rw [e0]
    simp only
    rw [f0]
    exact ⟨_, rfl⟩
  obtain ⟨s0, hs0⟩ := hc
  obtain ⟨pos, ps, e, -, -, hh⟩ := main k (le_refl _) s0 hs0
  exact ⟨s0, _, hs0, e, hh⟩

/-- **C96**, a file whose first nucleus has other numbers of protons and neutrons than configured is
refused. -/
theorem C96_wrong_numbers (l : List (CNuc P)) (h : 0 < l.length) (np nn : Nat) (lab : Label)
    (hm : ¬ Matches (cyclic l h 0 (np + nn)) np nn) :
    construct (fileOf l) np nn lab = .error .wrongNumbers := by
  unfold construct
  rw [(readfile_cyc l h np nn 0 0 (by omega) rfl).2 hm]

/-- In the second event the particles of the nucleus have lost their label. -/
theorem C96_labels_false :
    let f := fileOf [(⟨0, 1⟩ : CNuc Nat), ⟨1, 0⟩]
    (construct f 1 1 .projectile).toOption.map (·.parts.map (·.label)) = some [.projectile, .projectile] ∧
    ((construct f 1 1 .projectile).bind (events f 1 1 2)).toOption.map (·.parts.map (·.label)) =
      some [.nothing, .nothing] := by decide +kernel

/-- Without a newline at the end of the file, its last line is not used: the first one is read instead. -/
theorem C96_last_line_false :
    readLines (⟨[some (⟨10, 1⟩ : CNuc Nat)], some (some ⟨11, 1⟩)⟩ : CFile Nat) 2 0 [] =
      .ok ([⟨10, 1⟩, ⟨10, 1⟩], 1) := by rfl

example : ∀ j ≤ 5, Matches (cyclic [(⟨10, 1⟩ : CNuc Nat), ⟨11, 0⟩, ⟨12, 0⟩, ⟨13, 1⟩] (by decide) (j * (1 + 1)) (1 + 1))
    1 1 := by
  unfold Matches
  decide +kernel

/-! ### C95 -/

/-- **C95**, the clusters are at the corners of a regular tetrahedron around the origin with the given
side length. -/
theorem C95_tetrahedron {side : ℝ} :
    let c := scaleVertices side vertices
    c.length = 4 ∧ (∀ i j (hi : i < c.length) (hj : j < c.length), i ≠ j → dist2 c[i] c[j] = side ^ 2) ∧
    sum3 c = ⟨0, 0, 0⟩ := by
  have h8 : √8 * √8 = (8 : ℝ) := mul_self_sqrt (by norm_num)
  have h24 : √24 * √24 = (24 : ℝ) := mul_self_sqrt (by norm_num)
  have h6 : √6 * √6 = (6 : ℝ) := mul_self_sqrt (by norm_num)
  have a1 : (⟨1, 0, 0⟩ : V3).abs = 1 := by unfold V3.abs V3.dot; norm_num
  have a2 : (⟨-1 / 3, √8 / 3, 0⟩ : V3).abs = 1 := by
    unfold V3.abs V3.dot
    simp only
    rw [show (-1 / 3 : ℝ) * (-1 / 3) + √8 / 3 * (√8 / 3) + 0 * 0 = 1 by linear_combination h8 / 9]
    exact sqrt_one
  have a3 : (⟨-1 / 3, -√8 / 6, √24 / 6⟩ : V3).abs = 1 := by
    unfold V3.abs V3.dot
    simp only
    rw [show (-1 / 3 : ℝ) * (-1 / 3) + -√8 / 6 * (-√8 / 6) + √24 / 6 * (√24 / 6) = 1 by
      linear_combination h8 / 36 + h24 / 36]
    exact sqrt_one
  have a4 : (⟨-1 / 3, -√8 / 6, -√24 / 6⟩ : V3).abs = 1 := by
    unfold V3.abs V3.dot
    simp only
    rw [show (-1 / 3 : ℝ) * (-1 / 3) + -√8 / 6 * (-√8 / 6) + -√24 / 6 * (-√24 / 6) = 1 by
      linear_combination h8 / 36 + h24 / 36]
    exact sqrt_one
  intro c
  have hc : c = [⟨√6 / 4 * side, 0, 0⟩, ⟨-1 / 3 * (√6 / 4 * side), √8 / 3 * (√6 / 4 * side), 0⟩,
      ⟨-1 / 3 * (√6 / 4 * side), -√8 / 6 * (√6 / 4 * side), √24 / 6 * (√6 / 4 * side)⟩,
      ⟨-1 / 3 * (√6 / 4 * side), -√8 / 6 * (√6 / 4 * side), -√24 / 6 * (√6 / 4 * side)⟩] := by
    show scaleVertices side vertices = _
    unfold scaleVertices vertices
    simp only [List.map_cons, List.map_nil, a1, a2, a3, a4, V3.div, V3.smul, List.cons.injEq, V3.mk.injEq, and_true]
    refine ⟨⟨?_, ?_, ?_⟩, ⟨?_, ?_, ?_⟩, ⟨?_, ?_, ?_⟩, ?_, ?_, ?_⟩ <;> ring
  have hs : (√6 / 4 * side) ^ 2 = 3 / 8 * side ^ 2 := by linear_combination side ^ 2 / 16 * h6
  rw [hc]
  generalize √6 / 4 * side = k at hs
  refine ⟨rfl, ?_, ?_⟩
  · intro i j hi hj hij
    have hi' : i < 4 := hi
    have hj' : j < 4 := hj
    interval_cases i <;> interval_cases j <;> first
      | exact absurd rfl hij
      | (simp only [List.getElem_cons_zero, List.getElem_cons_succ, dist2]
         first
           | linear_combination (k ^ 2 / 9) * h8 + 8 / 3 * hs
           | linear_combination (k ^ 2 / 36) * h8 + (k ^ 2 / 36) * h24 + 8 / 3 * hs
           | linear_combination (k ^ 2 / 4) * h8 + (k ^ 2 / 36) * h24 + 8 / 3 * hs
           | linear_combination (k ^ 2 / 9) * h24 + 8 / 3 * hs)
  · unfold sum3 V3.add
    simp only [List.foldr_cons, List.foldr_nil, V3.mk.injEq]
    refine ⟨?_, ?_, ?_⟩ <;> ring

theorem count_vertex (start m v : Nat) (hv : v < 4) :
    ((List.range (4 * m)).filter fun i => vertexOf (start + i) = v).length = m := by
  induction m with
  | zero => simp
  | succ m ih =>
    have e : List.range (4 * (m + 1)) = List.range (4 * m) ++ [4 * m, 4 * m + 1, 4 * m + 2, 4 * m + 3] := by
      rw [show 4 * (m + 1) = 4 * m + 1 + 1 + 1 + 1 by ring]
      simp [List.range_succ]
    rw [e, List.filter_append, List.length_append, ih]
    unfold vertexOf
    simp only [List.filter_cons, List.filter_nil]
    have hs : start % 4 < 4 := Nat.mod_lt _ (by decide)
    rw [show (start + 4 * m) % 4 = start % 4 by omega, show (start + (4 * m + 1)) % 4 = (start % 4 + 1) % 4 by omega,
      show (start + (4 * m + 2)) % 4 = (start % 4 + 2) % 4 by omega,
      show (start + (4 * m + 3)) % 4 = (start % 4 + 3) % 4 by omega]
    generalize start % 4 = r at *
    interval_cases r <;> interval_cases v <;> rfl

/-- **C95**, in every event (whatever number of calls `start` came before) each cluster contains two
protons and two neutrons (times the number of test particles). -/
theorem C95_clusters (mn mp : ℝ) (t start v : Nat) (hv : v < 4) (s : Species) (hs : s = .proton ∨ s = .neutron) :
    ((fillFromList [(.neutron, mn, 8), (.proton, mp, 8)] t).zipIdx.filter
      fun e => e.1.species = s ∧ vertexOf (start + e.2) = v).length = 2 * t := by
  have e : fillFromList [(.neutron, mn, 8), (.proton, mp, 8)] t =
      List.replicate (8 * t) (fresh .neutron mn) ++ List.replicate (8 * t) (fresh .proton mp) := by
    simp [fillFromList]
  have z (n : Nuc) (k a : Nat) : (List.replicate k n).zipIdx a = (List.range k).map fun i => (n, a + i) := by
    rw [List.zipIdx_eq_zip_range']
    apply List.ext_getElem (by simp)
    intro i h1 h2
    simp
  have cnt (n : Nuc) (a : Nat) : (((List.replicate (8 * t) n).zipIdx a).filter
      fun e => e.1.species = s ∧ vertexOf (start + e.2) = v).length =
      if n.species = s then 2 * t else 0 := by
    rw [z, List.filter_map, List.length_map]
    by_cases h : n.species = s
    · rw [if_pos h]
      have := count_vertex (start + a) (2 * t) v hv
      rw [← mul_assoc] at this
      rw [← this]
      congr 2
      funext i
      simp [h, Nat.add_assoc]
    · rw [if_neg h, List.length_eq_zero_iff, List.filter_eq_nil_iff]
      intro i _
      simp [h]
  rw [e, List.zipIdx_append, List.filter_append, List.length_append, cnt, cnt]
  rcases hs with rfl | rfl
  · simp [fresh]
  · simp [fresh]

end Verif.Coll
