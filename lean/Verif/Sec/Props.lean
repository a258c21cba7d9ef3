import Verif.Sec.Model
import Verif.Pdg.Content
import Mathlib.Tactic.SplitIfs
import Mathlib.Tactic.Tauto

/-!
Conservation laws of the inelastic 2 → 2 channels (C109).
-/

namespace Verif.Sec

open Verif

/-! ### Specification -/

/-- A code as the constructors of `PdgCode` make it: unused bits are zero for hadrons, nuclei have at
least two nucleons. -/
def Good (t : PType) : Prop :=
  (Pdg.isNucleus t.pdg = false → t.pdg < 2 ^ 32 ∧ Pdg.dump t.pdg = t.pdg) ∧
    (Pdg.isNucleus t.pdg = true → 2 ≤ Pdg.A t.pdg)

/-- What the special lists of particle types contain (particletype.cc:331-345). -/
structure Lists (W : World) : Prop where
  good : ∀ t ∈ W.types, Good t
  nucleons : ∀ t ∈ W.nucleons, Good t ∧ isNucleon t = true ∧ sign t = 1
  antiNucleons : ∀ t ∈ W.antiNucleons, Good t ∧ isNucleon t = true ∧ sign t = -1
  deltas : ∀ t ∈ W.deltas, Good t ∧ isDelta t = true ∧ sign t = 1
  antiDeltas : ∀ t ∈ W.antiDeltas, Good t ∧ isDelta t = true ∧ sign t = -1

/-- Sum of a quantum number over particle types. -/
def total (f : Nat → Int) (l : List PType) : Int := (l.map fun t => f t.pdg).sum

/-- Charge, baryon number and strangeness of two lists of particles are the same. -/
structure Conserves (ins outs : List PType) : Prop where
  charge : total Pdg.charge outs = total Pdg.charge ins
  baryon : total Pdg.baryonNumber outs = total Pdg.baryonNumber ins
  strangeness : total Pdg.strangeness outs = total Pdg.strangeness ins

theorem total_two (f : Nat → Int) (a b : PType) : total f [a, b] = f a.pdg + f b.pdg := by
  simp [total]

/-! ### Codes -/

/-- The bit field with a given code. -/
def ofCode (c : Int) : Nat := if c < 0 then 2 ^ 31 + c.natAbs else c.toNat

theorem ofCode_code {d : Nat} (hd : d < 2 ^ 32) (hdump : Pdg.dump d = d) (h0 : Pdg.code d ≠ 0) :
    ofCode (Pdg.code d) = d := by
  simp only [Pdg.dump, Pdg.bits] at hdump
  simp only [Pdg.code, Pdg.ucode, Pdg.antiparticleSign, Pdg.anti, Pdg.bits, ofCode] at *
  norm_num at *
  split_ifs at * with h1 h2 <;> omega

theorem Good.ofCode {t : PType} (h : Good t) (hn : Pdg.isNucleus t.pdg = false)
    (h0 : Pdg.code t.pdg ≠ 0) : ofCode (Pdg.code t.pdg) = t.pdg :=
  ofCode_code (h.1 hn).1 (h.1 hn).2 h0

/-- A nucleus with at least two nucleons has a large code. -/
theorem nucleus_code {d : Nat} (hA : 2 ≤ Pdg.A d) : 131072 ≤ (Pdg.code d).natAbs := by
  simp only [Pdg.A, Pdg.bits, Pdg.code, Pdg.ucode, Pdg.antiparticleSign] at *
  split_ifs <;> omega

theorem not_nucleus {t : PType} (h : Good t) (hc : (Pdg.code t.pdg).natAbs < 131072) :
    Pdg.isNucleus t.pdg = false := by
  by_contra hn
  have := nucleus_code (h.2 (by simpa using hn))
  omega

theorem code_cases {t : PType} (h : Good t) {c : Int} (hc : (Pdg.code t.pdg).natAbs = c.natAbs)
    (hr : c.natAbs < 131072) (h0 : c ≠ 0) : t.pdg = ofCode c ∨ t.pdg = ofCode (-c) := by
  have hn := not_nucleus h (by omega)
  have hne : Pdg.code t.pdg ≠ 0 := by omega
  have := h.ofCode hn hne
  rcases Int.natAbs_eq_natAbs_iff.mp hc with he | he
  · exact .inl (by rw [← this, he])
  · exact .inr (by rw [← this, he])

/-- Quantum numbers of ordinary non-strange baryons. -/
def NSB (t : PType) : Prop :=
  Pdg.baryonNumber t.pdg = sign t ∧ Pdg.strangeness t.pdg = 0 ∧ Pdg.isNucleus t.pdg = false

theorem nucleon_nsb {t : PType} (h : Good t) (hn : isNucleon t = true) : NSB t := by
  simp only [isNucleon, Bool.or_eq_true, beq_iff_eq] at hn
  unfold NSB sign
  rcases hn with hn | hn
  · rcases code_cases h (c := 0x2212) hn (by decide) (by decide) with e | e <;> rw [e] <;>
      decide +kernel
  · rcases code_cases h (c := 0x2112) hn (by decide) (by decide) with e | e <;> rw [e] <;>
      decide +kernel

theorem delta_nsb {t : PType} (h : Good t) (hn : isDelta t = true) : NSB t := by
  simp only [isDelta, Bool.or_eq_true, beq_iff_eq] at hn
  unfold NSB sign
  rcases hn with ((hn | hn) | hn) | hn
  · rcases code_cases h (c := 0x2224) hn (by decide) (by decide) with e | e <;> rw [e] <;>
      decide +kernel
  · rcases code_cases h (c := 0x2214) hn (by decide) (by decide) with e | e <;> rw [e] <;>
      decide +kernel
  · rcases code_cases h (c := 0x2114) hn (by decide) (by decide) with e | e <;> rw [e] <;>
      decide +kernel
  · rcases code_cases h (c := 0x1114) hn (by decide) (by decide) with e | e <;> rw [e] <;>
      decide +kernel

theorem baryon_sign {d : Nat} (h : Pdg.isBaryon d = true) :
    Pdg.baryonNumber d = Pdg.antiparticleSign d ∧ Pdg.isNucleus d = false := by
  simp only [Pdg.isBaryon, Bool.and_eq_true, bne_iff_ne, ne_eq] at h
  have hn := Pdg.hadron_not_nucleus h.1
  refine ⟨?_, hn⟩
  simp [Pdg.baryonNumber, hn, h.1, h.2]

theorem nstar_nsb {t : PType} (hn : isNstar t = true) : NSB t := by
  simp only [isNstar, Bool.and_eq_true, beq_iff_eq] at hn
  have := baryon_sign hn.1.1.1.1
  exact ⟨this.1, hn.1.2, this.2⟩

theorem deltastar_nsb {t : PType} (hn : isDeltastar t = true) : NSB t := by
  simp only [isDeltastar, Bool.and_eq_true, beq_iff_eq] at hn
  have := baryon_sign hn.1.1.1.1
  exact ⟨this.1, hn.1.2, this.2⟩

theorem pion_qn {t : PType} (h : Good t) (hn : isPion t = true) :
    Pdg.baryonNumber t.pdg = 0 ∧ Pdg.strangeness t.pdg = 0 ∧ Pdg.isNucleus t.pdg = false ∧
      Pdg.isBaryon t.pdg = false := by
  simp only [isPion, Bool.or_eq_true, beq_iff_eq] at hn
  have hc : t.pdg = ofCode (Pdg.code t.pdg) :=
    (h.ofCode (not_nucleus h (by omega)) (by omega)).symm
  rcases hn with (hn | hn) | hn <;> rw [hc, hn] <;> decide +kernel

theorem pairC {p q : PType → Bool} {a b : PType} (hp : ∀ t, Good t → p t = true → NSB t)
    (hq : ∀ t, Good t → q t = true → NSB t) (ha : Good a) (hb : Good b)
    (h : ((p a = true ∧ q b = true) ∨ (p b = true ∧ q a = true)) ∧ sign a = sign b) :
    sign a = sign b ∧ NSB a ∧ NSB b := by
  rcases h with ⟨h | h, hs⟩
  · exact ⟨hs, hp a ha h.1, hq b hb h.2⟩
  · exact ⟨hs, hq a ha h.2, hp b hb h.1⟩

/-- A positive matrix element needs two non-strange baryons of the same kind, or a deuteron and a
pion. -/
theorem matrix_class {s : ℝ} {a b : PType} {I : Int} (ha : Good a) (hb : Good b)
    (h : 0 < matrixElement s a b I) :
    (sign a = sign b ∧ NSB a ∧ NSB b) ∨
      (isDeuteron a = true ∧ isPion b = true) ∨ (isDeuteron b = true ∧ isPion a = true) := by
  have n1 : ∀ t, Good t → isNucleon t = true → NSB t := fun t h1 h2 => nucleon_nsb h1 h2
  have n2 : ∀ t, Good t → isDelta t = true → NSB t := fun t h1 h2 => delta_nsb h1 h2
  have n3 : ∀ t, Good t → isNstar t = true → NSB t := fun t _ h2 => nstar_nsb h2
  have n4 : ∀ t, Good t → isDeltastar t = true → NSB t := fun t _ h2 => deltastar_nsb h2
  unfold matrixElement at h
  simp only [] at h
  split_ifs at h with h1 h2 h3 h4 h5 h6 h7 h8 h9 h10 h11 h12 h13 h14 h15 h16
  all_goals try exact absurd h (lt_irrefl 0)
  all_goals simp only [Bool.and_eq_true, Bool.or_eq_true, beq_iff_eq] at *
  all_goals first
    | exact .inl (pairC (p := isDelta) (q := isNucleon) n2 n1 ha hb (by assumption))
    | exact .inl (pairC (p := isNstar) (q := isNucleon) n3 n1 ha hb (by assumption))
    | exact .inl (pairC (p := isDeltastar) (q := isNucleon) n4 n1 ha hb (by assumption))
    | exact .inl (pairC (p := isNstar) (q := isDelta) n3 n2 ha hb (by assumption))
    | exact .inl (pairC (p := isDeltastar) (q := isDelta) n4 n2 ha hb (by assumption))
    | exact .inl (pairC (p := isDelta) (q := isDelta) n2 n2 ha hb
        (by rename_i hx _; exact ⟨.inl hx.1, hx.2⟩))
    | exact .inl (pairC (p := isDelta) (q := isDelta) n2 n2 ha hb ⟨.inl h8.1, h8.2⟩)
    | exact .inl (pairC (p := isDelta) (q := isDelta) n2 n2 ha hb ⟨.inl h7.1, h7.2⟩)
    | exact .inr (by assumption)

theorem deuteron_qn {t : PType} (hn : isDeuteron t = true) :
    Pdg.isNucleus t.pdg = true ∧ Pdg.baryonNumber t.pdg = 2 * sign t ∧
      Pdg.strangeness t.pdg = 0 := by
  simp only [isDeuteron, Bool.and_eq_true, beq_iff_eq] at hn
  obtain ⟨⟨⟨⟨h1, h2⟩, h3⟩, h4⟩, h5⟩ := hn
  refine ⟨h1, ?_, ?_⟩
  · simp [Pdg.baryonNumber, h1, h2, sign]
  · simp [Pdg.strangeness, Pdg.netQuark, Pdg.netQuarkNumber, h1, h4, Except.toOption]

/-! ### Tables -/

/-- Does a row conserve everything? -/
def rowOk (r : Row) : Bool :=
  match Pdg.ofInt r.out1, Pdg.ofInt r.out2 with
  | .ok d1, .ok d2 =>
    Pdg.charge d1 + Pdg.charge d2 == Pdg.charge (ofCode r.baryon) + Pdg.charge (ofCode r.meson) &&
    Pdg.baryonNumber d1 + Pdg.baryonNumber d2 ==
      Pdg.baryonNumber (ofCode r.baryon) + Pdg.baryonNumber (ofCode r.meson) &&
    Pdg.strangeness d1 + Pdg.strangeness d2 ==
      Pdg.strangeness (ofCode r.baryon) + Pdg.strangeness (ofCode r.meson) &&
    r.baryon != 0 && r.meson != 0
  | _, _ => false

theorem npi_ok : ∀ r ∈ npiYk, rowOk r = true :=
  List.all_eq_true.mp (by decide +kernel : npiYk.all rowOk = true)

theorem nk_ok : ∀ r ∈ nkXx, rowOk r = true :=
  List.all_eq_true.mp (by decide +kernel : nkXx.all rowOk = true)

theorem deltak_ok : ∀ r ∈ deltakXx, rowOk r = true :=
  List.all_eq_true.mp (by decide +kernel : deltakXx.all rowOk = true)

theorem ypi_ok : ∀ r ∈ ypiXx, rowOk r = true :=
  List.all_eq_true.mp (by decide +kernel : ypiXx.all rowOk = true)

theorem bind_ok {α β : Type} {x : Except Err α} {f : α → Except Err β} {b : β} :
    (x >>= f) = .ok b ↔ ∃ a, x = .ok a ∧ f a = .ok b := by
  cases x <;> simp [bind, Except.bind]

theorem find_ok {W : World} {c : Int} {t : PType} (h : find W c = .ok t) :
    Pdg.ofInt c = .ok t.pdg ∧ t ∈ W.types := by
  unfold find at h
  split at h
  · cases h
  · rename_i d hd
    split at h
    · rename_i u hu
      cases h
      have := List.find?_some hu
      simp only [beq_iff_eq] at this
      exact ⟨by rw [hd, this], List.mem_of_find?_eq_some hu⟩
    · cases h

/-- Everything known about a branch made from a row. -/
theorem channel_ok {W : World} {a b : PType} {r : Row} {l : List Branch}
    (h : channel W a b r = .ok l) {br : Branch} (hbr : br ∈ l) :
    ∃ t1 t2 x, find W r.out1 = .ok t1 ∧ find W r.out2 = .ok t2 ∧ eval W a b r.xs = .ok x ∧
      small < x ∧ t1.minSpec + t2.minSpec < W.energy t1 t2 ∧ br = ⟨[t1, t2], x⟩ := by
  unfold channel at h
  obtain ⟨t1, h1, h⟩ := bind_ok.mp h
  obtain ⟨t2, h2, h⟩ := bind_ok.mp h
  unfold addChannel at h
  split_ifs at h with he
  · cases h
    simp at hbr
  · obtain ⟨x, hx, h⟩ := bind_ok.mp h
    split_ifs at h with hs
    · cases h
      simp only [List.mem_singleton] at hbr
      exact ⟨t1, t2, x, h1, h2, hx, hs, not_le.mp he, hbr⟩
    · cases h
      simp at hbr

theorem channels_mem {W : World} {a b : PType} {rows : List Row} {l : List Branch}
    (h : channels W a b rows = .ok l) {br : Branch} (hbr : br ∈ l) :
    ∃ r ∈ rows, ∃ l', channel W a b r = .ok l' ∧ br ∈ l' := by
  induction rows generalizing l with
  | nil =>
    cases h
    simp at hbr
  | cons r rs ih =>
    unfold channels at h
    obtain ⟨l1, h1, h⟩ := bind_ok.mp h
    obtain ⟨l2, h2, h⟩ := bind_ok.mp h
    cases h
    rcases List.mem_append.mp hbr with hm | hm
    · exact ⟨r, by simp, l1, h1, hm⟩
    · obtain ⟨r', hr', x⟩ := ih h2 hm
      exact ⟨r', List.mem_cons_of_mem _ hr', x⟩

theorem table_conserves {W : World} {a b : PType} {table : List Row} {on : Flag → Bool}
    (ht : ∀ r ∈ table, rowOk r = true) (ha : Good a) (hb : Good b)
    (hna : Pdg.isNucleus a.pdg = false) (hnb : Pdg.isNucleus b.pdg = false) {l : List Branch}
    (h : channels W a b (select table on a b) = .ok l) {br : Branch} (hbr : br ∈ l) :
    Conserves [a, b] br.out := by
  obtain ⟨r, hr, l', hl', hm⟩ := channels_mem h hbr
  obtain ⟨t1, t2, x, h1, h2, _, _, _, rfl⟩ := channel_ok hl' hm
  simp only [select, List.mem_filter, Bool.and_eq_true, beq_iff_eq] at hr
  obtain ⟨hr, ⟨hc1, hc2⟩, _⟩ := hr
  have hok := ht r hr
  unfold rowOk at hok
  rw [(find_ok h1).1, (find_ok h2).1] at hok
  simp only [Bool.and_eq_true, beq_iff_eq, bne_iff_ne, ne_eq] at hok
  obtain ⟨⟨⟨⟨q1, q2⟩, q3⟩, q4⟩, q5⟩ := hok
  have ea := ha.ofCode hna (by rw [← hc1]; exact q4)
  have eb := hb.ofCode hnb (by rw [← hc2]; exact q5)
  rw [hc1, hc2, ea, eb] at q1 q2 q3
  exact ⟨by simp only [total_two]; exact q1, by simp only [total_two]; exact q2,
    by simp only [total_two]; exact q3⟩

theorem Conserves.swap {a b : PType} {l : List PType} (h : Conserves [a, b] l) :
    Conserves [b, a] l := by
  have e : ∀ f, total f [b, a] = total f [a, b] := fun f => by simp only [total_two]; ring
  exact ⟨h.1.trans (e _).symm, h.2.trans (e _).symm, h.3.trans (e _).symm⟩

theorem ordered_conserves {a b : PType} {l : List PType} {p : Prop} [Decidable p]
    (h : Conserves [if p then a else b, if p then b else a] l) : Conserves [a, b] l := by
  split_ifs at h
  · exact h
  · exact h.swap

/-! ### Resonances -/

theorem nnChannel_mem {W : World} {a b : PType} {g : PType → PType → ℝ} {r1 r2 : PType} {I : Int}
    {br : Branch} (h : br ∈ nnChannel W a b g r1 r2 I) :
    br.out = [r1, r2] ∧ 0 < matrixElement W.sqrts r1 r2 I ∧ small < br.weight := by
  unfold nnChannel at h
  simp only [] at h
  split_ifs at h with h1 h2 h3 h4
  all_goals first
    | (rw [List.mem_singleton.mp h]; exact ⟨rfl, not_le.mp h3, h4⟩)
    | exact absurd h List.not_mem_nil

theorem nucChannel_mem {W : World} {a b : PType} {p : ℝ} {r1 r2 : PType} {I : Int}
    {br : Branch} (h : br ∈ nucChannel W a b p r1 r2 I) :
    br.out = [r1, r2] ∧ 0 < matrixElement W.sqrts a b I ∧ small < br.weight := by
  unfold nucChannel at h
  simp only [] at h
  split_ifs at h with h1 h2 h3 h4
  all_goals first
    | exact absurd h List.not_mem_nil
    | (rw [List.mem_singleton.mp h]; exact ⟨rfl, not_le.mp h2, by assumption⟩)

theorem nnFromType_mem {W : World} {a b : PType} {l1 l2 : List PType} {g : PType → PType → ℝ}
    {br : Branch} (h : br ∈ nnFromType W a b l1 l2 g) :
    ∃ r1 ∈ l1, ∃ r2 ∈ l2, ∃ I, br.out = [r1, r2] ∧ charge r1 + charge r2 = charge a + charge b ∧
      0 < matrixElement W.sqrts r1 r2 I ∧ small < br.weight := by
  unfold nnFromType at h
  simp only [List.mem_flatMap] at h
  obtain ⟨r1, h1, r2, h2, h⟩ := h
  split_ifs at h with hc
  · simp at h
  · obtain ⟨I, _, h⟩ := List.mem_flatMap.mp h
    exact ⟨r1, h1, r2, h2, I, (nnChannel_mem h).1, not_not.mp hc, (nnChannel_mem h).2⟩

theorem nucPairs_mem {W : World} {a b : PType} {nuc : List PType} {p : PType → PType → ℝ}
    {br : Branch} (h : br ∈ nucPairs W a b nuc p) :
    ∃ r1 ∈ nuc, ∃ r2 ∈ nuc, ∃ I, br.out = [r1, r2] ∧ charge a + charge b = charge r1 + charge r2 ∧
      0 < matrixElement W.sqrts a b I ∧ small < br.weight := by
  unfold nucPairs at h
  simp only [List.mem_flatMap] at h
  obtain ⟨r1, h1, r2, h2, h⟩ := h
  split_ifs at h with hc
  · simp at h
  · obtain ⟨I, _, h⟩ := List.mem_flatMap.mp h
    exact ⟨r1, h1, r2, h2, I, (nucChannel_mem h).1, not_not.mp hc, (nucChannel_mem h).2⟩

theorem sign_cases (t : PType) : sign t = 1 ∨ sign t = -1 := by
  unfold sign Pdg.antiparticleSign
  split_ifs <;> simp

theorem resonances_mem {W : World} (hl : Lists W) {t : PType} (h : t ∈ baryonResonances W) :
    Good t ∧ t ∈ W.types := by
  unfold baryonResonances at h
  simp only [List.mem_flatMap] at h
  obtain ⟨u, hu, h⟩ := h
  split_ifs at h
  · simp at h
  · rcases List.mem_cons.mp h with h | h
    · subst h; exact ⟨hl.good _ hu, hu⟩
    · have := List.mem_of_find?_eq_some (Option.mem_toList.mp h)
      exact ⟨hl.good _ this, this⟩

/-- The list of (anti-)nucleons or (anti-)Deltas chosen for two nucleons of one kind. -/
theorem nsb_pair {W : World} {a b r1 r2 : PType} {I : Int} {s : Int} (h1 : Good r1) (h2 : Good r2)
    (n2 : NSB r2) (n2' : isPion r2 = false) (hs : sign r2 = s) (ha : NSB a) (hb : NSB b)
    (hsa : sign a = s) (hsb : sign b = s)
    (hc : charge r1 + charge r2 = charge a + charge b) (hm : 0 < matrixElement W.sqrts r1 r2 I) :
    Conserves [a, b] [r1, r2] := by
  rcases matrix_class h1 h2 hm with ⟨e, c1, c2⟩ | ⟨_, e⟩ | ⟨e, _⟩
  · refine ⟨by simp only [total_two]; exact hc, ?_, ?_⟩
    · simp only [total_two, c1.1, c2.1, ha.1, hb.1]
      omega
    · simp only [total_two, c1.2.1, c2.2.1, ha.2.1, hb.2.1]
  · rw [n2'] at e; exact absurd e (by simp)
  · have := (deuteron_qn e).1
    rw [n2.2.2] at this
    exact absurd this (by simp)

theorem nsb_not_pion {t : PType} (h : Good t) (hn : NSB t) : isPion t = false := by
  by_contra hp
  have := pion_qn h (by simpa using hp)
  rcases sign_cases t with hs | hs <;> have := hn.1 <;> omega

theorem nnXx_conserves {W : World} (hl : Lists W) {inc : Included} {a b : PType} (ha : Good a)
    (hb : Good b) (na : isNucleon a = true) (nb : isNucleon b = true) (hs : sign a = sign b)
    {br : Branch} (h : br ∈ nnXx W inc a b) : Conserves [a, b] br.out := by
  have hna := nucleon_nsb ha na
  have hnb := nucleon_nsb hb nb
  unfold nnXx at h
  simp only [List.mem_append] at h
  have lists : ∀ r2, (r2 ∈ (if (sign a == -1 && sign b == -1) = true then W.antiNucleons
      else W.nucleons) ∨ r2 ∈ (if (sign a == -1 && sign b == -1) = true then W.antiDeltas
      else W.deltas)) → Good r2 ∧ NSB r2 ∧ sign r2 = sign a := by
    intro r2 hr
    split_ifs at hr with hx
    · simp only [Bool.and_eq_true, beq_iff_eq] at hx
      rcases hr with hr | hr
      · obtain ⟨g, n, s⟩ := hl.antiNucleons _ hr
        exact ⟨g, nucleon_nsb g n, by omega⟩
      · obtain ⟨g, n, s⟩ := hl.antiDeltas _ hr
        exact ⟨g, delta_nsb g n, by omega⟩
    · simp only [Bool.and_eq_true, beq_iff_eq] at hx
      have : sign a = 1 := by rcases sign_cases a with h | h <;> omega
      rcases hr with hr | hr
      · obtain ⟨g, n, s⟩ := hl.nucleons _ hr
        exact ⟨g, nucleon_nsb g n, by omega⟩
      · obtain ⟨g, n, s⟩ := hl.deltas _ hr
        exact ⟨g, delta_nsb g n, by omega⟩
  rcases h with (h | h) | h
  · split at h
    · obtain ⟨r1, m1, r2, m2, I, e, hc, hm, _⟩ := nnFromType_mem h
      obtain ⟨g2, n2, s2⟩ := lists r2 (.inl m2)
      rw [e]
      exact nsb_pair (resonances_mem hl m1).1 g2 n2 (nsb_not_pion g2 n2) s2 hna hnb rfl hs.symm hc hm
    · exact absurd h List.not_mem_nil
  · split at h
    · obtain ⟨r1, m1, r2, m2, I, e, hc, hm, _⟩ := nnFromType_mem h
      obtain ⟨g2, n2, s2⟩ := lists r2 (.inr m2)
      rw [e]
      exact nsb_pair (resonances_mem hl m1).1 g2 n2 (nsb_not_pion g2 n2) s2 hna hnb rfl hs.symm hc hm
    · exact absurd h List.not_mem_nil
  · unfold nnToDeuteron at h
    split at h
    · rename_i d ad pim piz pip e1 e2 e3 e4 e5
      split at h
      · obtain ⟨r1, m1, r2, m2, I, e, hc, hm, _⟩ := nnFromType_mem h
        have pd : ∀ {x : Nat} {t : PType}, tryFind W x = some t → t.pdg = x := fun hh => by
          simpa using List.find?_some hh
        have q2 : Pdg.baryonNumber r2.pdg = 0 ∧ Pdg.strangeness r2.pdg = 0 := by
          simp only [List.mem_cons, List.not_mem_nil, or_false] at m2
          rcases m2 with rfl | rfl | rfl
          · rw [pd e3]; decide +kernel
          · rw [pd e4]; decide +kernel
          · rw [pd e5]; decide +kernel
        have q1 : Pdg.baryonNumber r1.pdg = 2 * sign a ∧ Pdg.strangeness r1.pdg = 0 := by
          split at m1 <;> rename_i hx
          · simp only [Bool.and_eq_true, beq_iff_eq] at hx
            rw [List.mem_singleton.mp m1, pd e2, hx.1]
            decide +kernel
          · simp only [Bool.and_eq_true, beq_iff_eq] at hx
            have : sign a = 1 := by rcases sign_cases a with h | h <;> omega
            rw [List.mem_singleton.mp m1, pd e1, this]
            decide +kernel
        rw [e]
        refine ⟨by simp only [total_two]; exact hc, ?_, ?_⟩
        · simp only [total_two, q1.1, q2.1, hna.1, hnb.1]
          omega
        · simp only [total_two, q1.2, q2.2, hna.2.1, hnb.2.1]
      · exact absurd h List.not_mem_nil
    · exact absurd h List.not_mem_nil

theorem barBar_conserves {W : World} (hl : Lists W) {a b : PType} (ha : Good a) (hb : Good b)
    (na : Pdg.isNucleus a.pdg = false) (nb : Pdg.isNucleus b.pdg = false) {br : Branch}
    (h : br ∈ barBarToNucNuc W a b (sign a == -1)) : Conserves [a, b] br.out := by
  unfold barBarToNucNuc at h
  obtain ⟨r1, m1, r2, m2, I, e, hc, hm, _⟩ := nucPairs_mem h
  have lists : ∀ r, r ∈ (if (sign a == -1) = true then W.antiNucleons else W.nucleons) →
      NSB r ∧ sign r = sign a := by
    intro r hr
    split_ifs at hr with hx
    · simp only [beq_iff_eq] at hx
      obtain ⟨g, n, s⟩ := hl.antiNucleons _ hr
      exact ⟨nucleon_nsb g n, by omega⟩
    · simp only [beq_iff_eq] at hx
      obtain ⟨g, n, s⟩ := hl.nucleons _ hr
      exact ⟨nucleon_nsb g n, by rcases sign_cases a with h | h <;> omega⟩
  have l1 := lists r1 m1
  have l2 := lists r2 m2
  rw [e]
  rcases matrix_class ha hb hm with ⟨es, c1, c2⟩ | ⟨e, _⟩ | ⟨e, _⟩
  · refine ⟨by simp only [total_two]; exact hc.symm, ?_, ?_⟩
    · simp only [total_two, c1.1, c2.1, l1.1.1, l2.1.1]
      omega
    · simp only [total_two, c1.2.1, c2.2.1, l1.1.2.1, l2.1.2.1]
  · rw [(deuteron_qn e).1] at na; cases na
  · rw [(deuteron_qn e).1] at nb; cases nb

theorem meson_not_nucleus {d : Nat} (h : Pdg.isMeson d = true) : Pdg.isNucleus d = false := by
  simp only [Pdg.isMeson, Bool.and_eq_true] at h
  exact Pdg.hadron_not_nucleus h.1

theorem ok_inj {l l' : List Branch} (h : (Except.ok l : Except Err (List Branch)) = .ok l') :
    l = l' := by cases h; rfl

/-- **C109** (hadrons). Whatever two hadrons collide and whatever reactions are enabled, each 2 → 2
channel that is offered (resonance production and absorption, deuteron production, kaon-nucleon
reactions, strangeness exchange) has the same charge, baryon number and strangeness as the incoming
pair, and a cross section above 10⁻⁶ mb. -/
theorem C109_hadrons (W : World) (hl : Lists W) (inc : Included) (k : ℝ) (a b : PType) (ha : Good a)
    (hb : Good b) (hn : Pdg.isNucleus a.pdg = false ∧ Pdg.isNucleus b.pdg = false) (l : List Branch)
    (h : twoToTwo W inc k a b = .ok l) (br : Branch) (hbr : br ∈ l) :
    Conserves [a, b] br.out ∧ 1 / 1000000 < br.weight := by
  have tw : ∀ {x y : PType} {rows : List Row}, channels W x y rows = .ok l →
      1 / 1000000 < br.weight := by
    intro x y rows hh
    obtain ⟨r, _, l', hl', hm⟩ := channels_mem hh hbr
    obtain ⟨t1, t2, x, _, _, _, hx, _, rfl⟩ := channel_ok hl' hm
    exact hx
  unfold twoToTwo at h
  split_ifs at h with h1 h2 h3 h4 h5 h6 h7 h8 h9
  · simp only [Bool.and_eq_true, beq_iff_eq] at h2
    rw [← ok_inj h] at hbr
    refine ⟨nnXx_conserves hl ha hb h2.1.1 h2.1.2 h2.2 hbr, ?_⟩
    unfold nnXx at hbr
    simp only [List.mem_append] at hbr
    rcases hbr with (hb | hb) | hb
    · split at hb
      · obtain ⟨_, _, _, _, _, _, _, _, hw⟩ := nnFromType_mem hb
        exact hw
      · exact absurd hb List.not_mem_nil
    · split at hb
      · obtain ⟨_, _, _, _, _, _, _, _, hw⟩ := nnFromType_mem hb
        exact hw
      · exact absurd hb List.not_mem_nil
    · unfold nnToDeuteron at hb
      split at hb
      · split at hb
        · obtain ⟨_, _, _, _, _, _, _, _, hw⟩ := nnFromType_mem hb
          exact hw
        · exact absurd hb List.not_mem_nil
      · exact absurd hb List.not_mem_nil
  · rw [← ok_inj h] at hbr
    have key : br ∈ barBarToNucNuc W a b (sign a == -1) := by
      unfold bbXx at hbr
      simp only [] at hbr
      split_ifs at hbr <;> first | exact hbr | simp at hbr
    refine ⟨barBar_conserves hl ha hb hn.1 hn.2 key, ?_⟩
    unfold barBarToNucNuc at key
    obtain ⟨_, _, _, _, _, _, _, _, hw⟩ := nucPairs_mem key
    exact hw
  · unfold nkXxList at h
    simp only [] at h
    refine ⟨?_, tw h⟩
    refine ordered_conserves (p := isNucleon a = true) (table_conserves nk_ok ?_ ?_ ?_ ?_ h hbr) <;>
      split_ifs <;> first | assumption | exact hn.1 | exact hn.2
  · unfold ypiXxList at h
    simp only [] at h
    split at h
    · refine ⟨?_, tw h⟩
      refine ordered_conserves (p := Pdg.isHyperon a.pdg = true) (table_conserves ypi_ok ?_ ?_ ?_ ?_ h hbr) <;>
        split_ifs <;> first | assumption | exact hn.1 | exact hn.2
    · rw [← ok_inj h] at hbr; simp at hbr
  · unfold deltakXxList at h
    simp only [] at h
    split at h
    · refine ⟨?_, tw h⟩
      refine ordered_conserves (p := isDelta a = true) (table_conserves deltak_ok ?_ ?_ ?_ ?_ h hbr) <;>
        split_ifs <;> first | assumption | exact hn.1 | exact hn.2
    · rw [← ok_inj h] at hbr; simp at hbr
  all_goals first
    | (rw [← ok_inj h] at hbr; simp at hbr; done)
    | (simp [hn.1, hn.2] at *; done)

/-- **C109** (pion-nucleon strangeness production). -/
theorem C109_rare (W : World) (a b : PType) (ha : Good a) (hb : Good b) (l : List Branch)
    (h : rareTwoToTwo W a b = .ok l) (br : Branch) (hbr : br ∈ l) :
    Conserves [a, b] br.out ∧ 1 / 1000000 < br.weight := by
  unfold rareTwoToTwo at h
  split_ifs at h with h1
  · have hn : Pdg.isNucleus a.pdg = false ∧ Pdg.isNucleus b.pdg = false := by
      simp only [Bool.and_eq_true, Bool.or_eq_true] at h1
      rcases h1 with h1 | h1
      · exact ⟨(nucleon_nsb ha h1.1).2.2, (pion_qn hb h1.2).2.2.1⟩
      · exact ⟨(pion_qn ha h1.2).2.2.1, (nucleon_nsb hb h1.1).2.2⟩
    unfold npiYkList at h
    simp only [] at h
    refine ⟨?_, ?_⟩
    · refine ordered_conserves (p := isNucleon a = true) (table_conserves npi_ok ?_ ?_ ?_ ?_ h hbr) <;>
        split_ifs <;> first | assumption | exact hn.1 | exact hn.2
    · obtain ⟨r, _, l', hl', hm⟩ := channels_mem h hbr
      obtain ⟨t1, t2, x, _, _, _, hx, _, rfl⟩ := channel_ok hl' hm
      exact hx
  · rw [← ok_inj h] at hbr; simp at hbr

/-! ### Nuclei -/

theorem product_ok {t n : PType} (h : product t n = true) :
    Pdg.charge n.pdg = Pdg.charge t.pdg ∧ Pdg.baryonNumber n.pdg = Pdg.baryonNumber t.pdg := by
  simp only [product, Bool.not_eq_true', Bool.or_eq_false_iff, bne_eq_false_iff_eq] at h
  exact ⟨h.1.2, h.2⟩

theorem dnLoop_mem {W : World} {t n : PType} {ps : List PType} {l : List Branch}
    (h : dnLoop W t n ps = .ok l) {br : Branch} (hbr : br ∈ l) :
    ∃ p ∈ ps, product t p = true ∧ br.out = [n, p] := by
  induction ps generalizing l with
  | nil => cases h; simp at hbr
  | cons p ps ih =>
    unfold dnLoop at h
    split at h
    · rename_i hp
      obtain ⟨x, _, h⟩ := bind_ok.mp h
      obtain ⟨rest, h2, h⟩ := bind_ok.mp h
      cases h
      rcases List.mem_cons.mp hbr with rfl | hm
      · exact ⟨p, by simp, hp, rfl⟩
      · obtain ⟨q, hq, x⟩ := ih h2 hm
        exact ⟨q, List.mem_cons_of_mem _ hq, x⟩
    · obtain ⟨q, hq, x⟩ := ih h hbr
      exact ⟨q, List.mem_cons_of_mem _ hq, x⟩

/-- Nuclei of the same charge and baryon number have the same strangeness. -/
def OneStrangeness (W : World) (t : PType) : Prop :=
  ∀ n ∈ W.types, Pdg.isNucleus n.pdg = true → Pdg.charge n.pdg = Pdg.charge t.pdg →
    Pdg.baryonNumber n.pdg = Pdg.baryonNumber t.pdg → Pdg.strangeness n.pdg = Pdg.strangeness t.pdg

/-- The nuclear channels. -/
theorem nuclear_mem {W : World} (hl : Lists W) {inc : Included} {a b : PType} (ha : Good a)
    (hb : Good b) {l : List Branch} (h : (if (isNucleon a && Pdg.isNucleus b.pdg) ||
        (isNucleon b && Pdg.isNucleus a.pdg) then dnXx W inc a b
      else if ((isDeuteron a || isDprime a) && isPion b) || ((isDeuteron b || isDprime b) && isPion a)
      then .ok (dpiXx W inc a b) else .ok []) = Except.ok l) {br : Branch} (hbr : br ∈ l) :
    Conserves [a, b] br.out ∨
      ∃ t o p, (t = a ∧ o = b ∨ t = b ∧ o = a) ∧ Pdg.isNucleus t.pdg = true ∧ p ∈ W.types ∧
        Pdg.isNucleus p.pdg = true ∧ product t p = true ∧ br.out = [o, p] := by
  have nuc : ∀ {t : PType}, Good t → isNucleon t = true → Pdg.isNucleus t.pdg = false :=
    fun h1 h2 => (nucleon_nsb h1 h2).2.2
  have light : ∀ {p : PType}, p ∈ lightNuclei W → p ∈ W.types ∧ Pdg.isNucleus p.pdg = true :=
    fun hp => List.mem_filter.mp hp
  split at h
  · rename_i hc
    right
    unfold dnXx at h
    split at h
    · obtain ⟨p, hp, hq, e⟩ := dnLoop_mem h hbr
      simp only [Bool.or_eq_true, Bool.and_eq_true] at hc
      rcases hc with ⟨c1, c2⟩ | ⟨c1, c2⟩
      · have := nuc ha c1
        simp only [this, Bool.false_eq_true, if_false] at hq
        rw [if_pos c1] at e
        exact ⟨b, a, p, .inr ⟨rfl, rfl⟩, c2, (light hp).1, (light hp).2, hq, e⟩
      · have : isNucleon a = false := by
          by_contra hx
          have := nuc ha (by simpa using hx)
          rw [c2] at this; cases this
        rw [if_pos c2] at hq
        rw [this, if_neg (by simp)] at e
        exact ⟨a, b, p, .inl ⟨rfl, rfl⟩, c2, (light hp).1, (light hp).2, hq, e⟩
    · rw [← ok_inj h] at hbr; exact absurd hbr List.not_mem_nil
  · split at h
    · rename_i hc
      rw [← ok_inj h] at hbr
      unfold dpiXx at hbr
      rcases List.mem_append.mp hbr with hbr | hbr
      · left
        split at hbr
        · obtain ⟨r1, m1, r2, m2, I, e, hq, hm, _⟩ := nucPairs_mem hbr
          rw [e]
          rename_i hd _
          have key : ∀ x y : PType, Good y → isDeuteron x = true → isPion y = true →
              Pdg.baryonNumber x.pdg + Pdg.baryonNumber y.pdg =
                Pdg.baryonNumber a.pdg + Pdg.baryonNumber b.pdg →
              Pdg.strangeness x.pdg + Pdg.strangeness y.pdg =
                Pdg.strangeness a.pdg + Pdg.strangeness b.pdg →
              Conserves [a, b] [r1, r2] := by
            intro x y gy dx py e1 e2
            obtain ⟨_, bx, sx⟩ := deuteron_qn dx
            have qy := pion_qn gy py
            have lists : ∀ r, r ∈ (if Pdg.baryonNumber a.pdg + Pdg.baryonNumber b.pdg > 0
                then W.nucleons else W.antiNucleons) → NSB r ∧ sign r = sign x := by
              intro r hr
              split at hr
              · obtain ⟨g, n, s⟩ := hl.nucleons _ hr
                exact ⟨nucleon_nsb g n, by rcases sign_cases x with h | h <;> omega⟩
              · obtain ⟨g, n, s⟩ := hl.antiNucleons _ hr
                exact ⟨nucleon_nsb g n, by rcases sign_cases x with h | h <;> omega⟩
            have l1 := lists r1 m1
            have l2 := lists r2 m2
            refine ⟨by simp only [total_two]; exact hq.symm, ?_, ?_⟩
            · simp only [total_two, l1.1.1, l2.1.1]
              omega
            · simp only [total_two, l1.1.2.1, l2.1.2.1]
              omega
          simp only [Bool.and_eq_true, Bool.or_eq_true] at hd
          rcases hd.1 with ⟨d1, d2⟩ | ⟨d1, d2⟩
          · exact key a b hb d1 d2 rfl rfl
          · exact key b a ha d1 d2 (by ring) (by ring)
        · exact absurd hbr List.not_mem_nil
      · right
        split at hbr
        · simp only [List.mem_map, List.mem_filter] at hbr
          obtain ⟨p, ⟨hp, hq⟩, rfl⟩ := hbr
          have dn : ∀ {t : PType}, (isDeuteron t || isDprime t) = true →
              Pdg.isNucleus t.pdg = true := by
            intro t ht
            simp only [isDeuteron, isDprime, Bool.or_eq_true, Bool.and_eq_true] at ht
            rcases ht with h | h
            · exact h.1.1.1.1
            · exact h.1
          simp only [Bool.and_eq_true, Bool.or_eq_true] at hc
          have hc' : ((isDeuteron a || isDprime a) = true ∧ isPion b = true) ∨
            ((isDeuteron b || isDprime b) = true ∧ isPion a = true) := by
            simpa only [Bool.or_eq_true] using hc
          rcases hc' with ⟨c1, c2⟩ | ⟨c1, c2⟩
          · have na := dn c1
            have pa : isPion a = false := by
              by_contra hx
              have := (pion_qn ha (by simpa using hx)).2.2.1
              rw [na] at this; cases this
            rw [if_pos na] at hq
            refine ⟨a, b, p, .inl ⟨rfl, rfl⟩, na, (light hp).1, (light hp).2, hq, ?_⟩
            simp [pa]
          · have na := dn c1
            have pb := (pion_qn ha c2).2.2.1
            simp only [pb, Bool.false_eq_true, if_false] at hq
            refine ⟨b, a, p, .inr ⟨rfl, rfl⟩, na, (light hp).1, (light hp).2, hq, ?_⟩
            simp [c2]
        · exact absurd hbr List.not_mem_nil
    · rw [← ok_inj h] at hbr; exact absurd hbr List.not_mem_nil

/-- **C109** (light nuclei). If one of the particles is a nucleus, then charge and baryon number are
conserved in each channel. Strangeness is conserved too if the incoming nucleus cannot be confused
with a hypernucleus of the same charge and baryon number. -/
theorem C109_nuclei_partial (W : World) (hl : Lists W) (inc : Included) (k : ℝ) (a b : PType)
    (ha : Good a) (hb : Good b) (hn : Pdg.isNucleus a.pdg = true ∨ Pdg.isNucleus b.pdg = true)
    (l : List Branch) (h : twoToTwo W inc k a b = .ok l) (br : Branch) (hbr : br ∈ l) :
    total Pdg.charge br.out = total Pdg.charge [a, b] ∧
      total Pdg.baryonNumber br.out = total Pdg.baryonNumber [a, b] ∧
      (OneStrangeness W a → OneStrangeness W b → Conserves [a, b] br.out) := by
  have nb : ∀ {d : Nat}, Pdg.isNucleus d = true → Pdg.isBaryon d = false ∧ Pdg.isMeson d = false := by
    intro d hd
    have : Pdg.isHadron d = false := by
      by_contra hx
      have := Pdg.hadron_not_nucleus (by simpa using hx)
      rw [hd] at this; cases this
    simp [Pdg.isBaryon, Pdg.isMeson, this]
  have h' : (if (isNucleon a && Pdg.isNucleus b.pdg) ||
        (isNucleon b && Pdg.isNucleus a.pdg) then dnXx W inc a b
      else if ((isDeuteron a || isDprime a) && isPion b) || ((isDeuteron b || isDprime b) && isPion a)
      then .ok (dpiXx W inc a b) else .ok []) = Except.ok l := by
    unfold twoToTwo at h
    have hor : (Pdg.isNucleus a.pdg || Pdg.isNucleus b.pdg) = true := by
      rcases hn with hn | hn <;> simp [hn]
    have n1 : (Pdg.isBaryon a.pdg && Pdg.isBaryon b.pdg) = false := by
      rcases hn with hn | hn <;> simp [(nb hn).1]
    have n2 : ((Pdg.isBaryon a.pdg && Pdg.isMeson b.pdg) ||
        (Pdg.isMeson a.pdg && Pdg.isBaryon b.pdg)) = false := by
      rcases hn with hn | hn <;> simp [(nb hn).1, (nb hn).2]
    rw [n1, n2, hor] at h
    simpa using h
  rcases nuclear_mem hl ha hb h' hbr with hc | ⟨t, o, p, ho, _, hp1, hp2, hq, e⟩
  · exact ⟨hc.1, hc.2, fun _ _ => hc⟩
  · obtain ⟨q1, q2⟩ := product_ok hq
    have c1 : total Pdg.charge br.out = total Pdg.charge [a, b] := by
      rw [e]; simp only [total_two]
      rcases ho with ⟨rfl, rfl⟩ | ⟨rfl, rfl⟩ <;> omega
    have c2 : total Pdg.baryonNumber br.out = total Pdg.baryonNumber [a, b] := by
      rw [e]; simp only [total_two]
      rcases ho with ⟨rfl, rfl⟩ | ⟨rfl, rfl⟩ <;> omega
    refine ⟨c1, c2, fun s1 s2 => ⟨c1, c2, ?_⟩⟩
    rw [e]
    simp only [total_two]
    rcases ho with ⟨rfl, rfl⟩ | ⟨rfl, rfl⟩
    · have := s1 p hp1 hp2 q1 q2
      omega
    · have := s2 p hp1 hp2 q1 q2
      omega

end Verif.Sec
