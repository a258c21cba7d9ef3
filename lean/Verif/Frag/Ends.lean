import Verif.Frag.Restore
import Verif.Pdg.Content
/-
C85: the ends of a string carry the flavour of the hadron it is made from; diquarks.
-/
set_option linter.unusedSimpArgs false
set_option linter.unnecessarySeqFocus false
set_option linter.unusedVariables false
namespace Verif.Frag

/-! ### Specification -/

/-- A diquark by the PDG numbering scheme: thousands digit not below the hundreds digit, both among
the five flavours, no tens digit, last digit `2 s + 1`, which is 3 if the two quarks are equal. -/
def IsDiquark (n : Nat) : Prop :=
  1 ≤ n / 100 % 10 ∧ n / 100 % 10 ≤ n / 1000 ∧ n / 1000 ≤ 5 ∧ n / 10 % 10 = 0 ∧
  (n % 10 = 3 ∨ n % 10 = 1 ∧ n / 100 % 10 < n / 1000)

instance (n : Nat) : Decidable (IsDiquark n) := by unfold IsDiquark; infer_instance

/-- Net number of quarks of a flavour in a list of partons. -/
def net (ps : List Int) (j : Fin 5) : Int := quarks ps j - antiquarks ps j

theorem net_append (a b : List Int) (j : Fin 5) : net (a ++ b) j = net a j + net b j := by
  unfold net; rw [quarks_append, antiquarks_append]; omega

/-! ### Diquarks -/

theorem diquark_r (a b r : Int) : diquarkFromQuarks a b r = diquarkFromQuarks a b (if r = 0 then 0 else 1) := by
  unfold diquarkFromQuarks
  by_cases h : r = 0 <;> simp [h]

def sg (neg : Bool) (a : Fin 5) : Int := if neg then -((a : Int) + 1) else (a : Int) + 1

theorem diquark_table : ∀ (neg z : Bool) (a b : Fin 5),
    let d := diquarkFromQuarks (sg neg a) (sg neg b) (if z then 0 else 1)
    IsDiquark d.natAbs ∧ (d < 0 ↔ neg = true) ∧
    (∀ j, net [d] j = net [sg neg a, sg neg b] j) ∧
    (quarksFromDiquark d = (sg neg a, sg neg b, (if a ≠ b ∧ z then 1 else 3)) ∨
     quarksFromDiquark d = (sg neg b, sg neg a, (if a ≠ b ∧ z then 1 else 3))) := by
  decide +kernel

/-- Two quarks, or two antiquarks, of the five flavours. -/
def SameKind (a b : Int) : Prop :=
  1 ≤ a.natAbs ∧ a.natAbs ≤ 5 ∧ 1 ≤ b.natAbs ∧ b.natAbs ≤ 5 ∧ (a < 0 ↔ b < 0)

theorem as_sg {a : Int} (h : 1 ≤ a.natAbs ∧ a.natAbs ≤ 5) :
    a = sg (decide (a < 0)) ⟨a.natAbs - 1, by omega⟩ := by
  unfold sg
  by_cases hn : a < 0
  · simp [hn]; omega
  · simp [hn]; omega

/-- C85: the diquark made from two quarks (or two antiquarks) is a valid one, carries their flavour,
and is taken apart into the same two; two equal quarks are always in a spin-1 state. -/
theorem C85_diquark {a b : Int} (h : SameKind a b) (r : Int) :
    IsDiquark (diquarkFromQuarks a b r).natAbs ∧ (diquarkFromQuarks a b r < 0 ↔ a < 0) ∧
    (∀ j, net [diquarkFromQuarks a b r] j = net [a, b] j) ∧
    ∃ deg, (quarksFromDiquark (diquarkFromQuarks a b r) = (a, b, deg) ∨
      quarksFromDiquark (diquarkFromQuarks a b r) = (b, a, deg)) ∧
      deg = if a ≠ b ∧ r = 0 then 1 else 3 := by
  obtain ⟨h1, h2, h3, h4, h5⟩ := h
  have ea := as_sg ⟨h1, h2⟩
  have eb := as_sg ⟨h3, h4⟩
  have hd : decide (b < 0) = decide (a < 0) := by simp only [decide_eq_decide]; exact h5.symm
  rw [hd] at eb
  generalize hna : decide (a < 0) = neg at ea eb
  generalize hia : (⟨a.natAbs - 1, by omega⟩ : Fin 5) = i at ea
  generalize hib : (⟨b.natAbs - 1, by omega⟩ : Fin 5) = k at eb
  have hz : (if r = 0 then (0 : Int) else 1) = (if decide (r = 0) = true then 0 else 1) := by simp
  have t := diquark_table neg (decide (r = 0)) i k
  rw [← ea, ← eb, ← hz, ← diquark_r] at t
  obtain ⟨t1, t2, t3, t4⟩ := t
  have hab : (i ≠ k) ↔ (a ≠ b) := by
    rw [not_iff_not, ← hia, ← hib, Fin.mk.injEq]
    constructor
    · intro h; omega
    · intro h; rw [h]
  refine ⟨t1, ?_, t3, _, t4, ?_⟩
  · rw [t2, ← hna]; simp
  · simp only [hab, decide_eq_true_eq]

example : SameKind 2 1 ∧ diquarkFromQuarks 1 2 0 = 2101 ∧ diquarkFromQuarks (-3) (-3) 0 = -3303 := by
  unfold SameKind; decide

/-- All numbers of diquarks. -/
theorem diquark_back_table : ∀ (x y : Fin 6) (z neg : Bool),
    IsDiquark (x * 1000 + y * 100 + (if z then 1 else 3)) →
    let d : Int := if neg then -(x * 1000 + y * 100 + (if z then 1 else 3) : Nat)
      else ((x * 1000 + y * 100 + (if z then 1 else 3) : Nat) : Int)
    diquarkFromQuarks (quarksFromDiquark d).1 (quarksFromDiquark d).2.1 (if z then 0 else 1) = d ∧
    (quarksFromDiquark d).2.2 = (if z then 1 else 3) := by
  decide +kernel

/-- C85: every diquark is put together again from the two quarks it is taken apart into. -/
theorem C85_diquark_back {d : Int} (h : IsDiquark d.natAbs) :
    ∃ r, 0 ≤ r ∧ r ≤ 3 ∧
      diquarkFromQuarks (quarksFromDiquark d).1 (quarksFromDiquark d).2.1 r = d := by
  obtain ⟨h1, h2, h3, h4, h5⟩ := h
  have := diquark_back_table ⟨d.natAbs / 1000, by omega⟩ ⟨d.natAbs / 100 % 10, by omega⟩
    (decide (d.natAbs % 10 = 1)) (decide (d < 0))
  dsimp only at this
  have e : d.natAbs / 1000 * 1000 + d.natAbs / 100 % 10 * 100 +
      (if decide (d.natAbs % 10 = 1) = true then 1 else 3) = d.natAbs := by
    simp only [decide_eq_true_eq]
    split_ifs <;> omega
  rw [e] at this
  obtain ⟨t, -⟩ := this ⟨h1, h2, h3, h4, h5⟩
  have e2 : (if decide (d < 0) = true then -(d.natAbs : Int) else (d.natAbs : Int)) = d := by
    simp only [decide_eq_true_eq]
    split_ifs <;> omega
  rw [e2] at t
  exact ⟨_, by split_ifs <;> omega, by split_ifs <;> omega, t⟩

/-! ### String ends -/

theorem net_single (q : Int) (j : Fin 5) (h : q.natAbs ≤ 5) :
    net [q] j = (if q = (j : Int) + 1 then 1 else 0) - (if q = -((j : Int) + 1) then 1 else 0) := by
  unfold net
  rw [quarks_single, antiquarks_single]
  unfold q1 a1
  by_cases h0 : q = 0
  · subst h0
    have : constituents 0 = [] := by decide
    rw [this, if_neg (by omega), if_neg (by omega), if_neg (by omega), if_neg (by omega)]; simp
  · rw [cnt_quark (by omega)]
    unfold unit
    split_ifs <;> omega

theorem net_content (c : Int × Int × Int) (h : FiveFlavours c) (j : Fin 5) :
    net [c.1, c.2.1, c.2.2] j = nq c j - na c j := by
  rw [show [c.1, c.2.1, c.2.2] = [c.1] ++ ([c.2.1] ++ [c.2.2]) from rfl, net_append, net_append,
    net_single _ _ h.1, net_single _ _ h.2.1, net_single _ _ h.2.2, nq_eq, na_eq]
  omega

theorem net_cons (a : Int) (l : List Int) (j : Fin 5) : net (a :: l) j = net [a] j + net l j := by
  rw [show a :: l = [a] ++ l from rfl, net_append]

theorem net_order (e : Int × Int) (j : Fin 5) : net [(order e).1, (order e).2] j = net [e.1, e.2] j := by
  unfold order
  split_ifs
  · dsimp only; rw [net_cons, net_cons e.1 [e.2]]; omega
  · rfl

theorem net3 (a b c : Int) (j : Fin 5) : net [a, b, c] j = net [a] j + net [b] j + net [c] j := by
  rw [show [a, b, c] = [a] ++ ([b] ++ [c]) from rfl, net_append, net_append]; omega

/-- Three quarks or three antiquarks of the five flavours. -/
def Triple (c : Int × Int × Int) : Prop := SameKind c.1 c.2.1 ∧ SameKind c.1 c.2.2

/-- The ends chosen for a baryon: one of the constituents and the diquark of the other two. -/
theorem choose_baryon {c : Int × Int × Int} (h : Triple c) (nucleon neutral : Bool) (r : Choice) :
    ∃ x y z, SameKind x y ∧ SameKind y z ∧ (x < 0 ↔ c.1 < 0) ∧
      (∀ j, net [x, y, z] j = net [c.1, c.2.1, c.2.2] j) ∧
      chooseEnds nucleon neutral false c r = (x, diquarkFromQuarks y z r.r) := by
  obtain ⟨⟨a1, a2, a3, a4, a5⟩, ⟨b1, b2, b3, b4, b5⟩⟩ := h
  have perm1 : ∀ j, net [c.2.1, c.1, c.2.2] j = net [c.1, c.2.1, c.2.2] j := fun j => by
    rw [net3, net3]; omega
  have perm2 : ∀ j, net [c.2.2, c.1, c.2.1] j = net [c.1, c.2.1, c.2.2] j := fun j => by
    rw [net3, net3]; omega
  have perm3 : ∀ j, net [c.2.2, c.2.1, c.1] j = net [c.1, c.2.1, c.2.2] j := fun j => by
    rw [net3, net3]; omega
  have k1 : SameKind c.1 c.2.1 := ⟨a1, a2, a3, a4, a5⟩
  have k2 : SameKind c.2.1 c.2.2 := ⟨a3, a4, b3, b4, a5.symm.trans b5⟩
  have k3 : SameKind c.2.1 c.1 := ⟨a3, a4, a1, a2, a5.symm⟩
  have k4 : SameKind c.1 c.2.2 := ⟨b1, b2, b3, b4, b5⟩
  have k5 : SameKind c.2.2 c.1 := ⟨b3, b4, b1, b2, b5.symm⟩
  have k6 : SameKind c.2.2 c.2.1 := ⟨b3, b4, a3, a4, b5.symm.trans a5⟩
  have c1 : ∃ x y z, SameKind x y ∧ SameKind y z ∧ (x < 0 ↔ c.1 < 0) ∧
      (∀ j, net [x, y, z] j = net [c.1, c.2.1, c.2.2] j) ∧
      (c.1, diquarkFromQuarks c.2.1 c.2.2 r.r) = (x, diquarkFromQuarks y z r.r) :=
    ⟨_, _, _, k1, k2, Iff.rfl, fun _ => rfl, rfl⟩
  have c2 : ∃ x y z, SameKind x y ∧ SameKind y z ∧ (x < 0 ↔ c.1 < 0) ∧
      (∀ j, net [x, y, z] j = net [c.1, c.2.1, c.2.2] j) ∧
      (c.2.1, diquarkFromQuarks c.1 c.2.2 r.r) = (x, diquarkFromQuarks y z r.r) :=
    ⟨_, _, _, k3, k4, a5.symm, perm1, rfl⟩
  have c3 : ∃ x y z, SameKind x y ∧ SameKind y z ∧ (x < 0 ↔ c.1 < 0) ∧
      (∀ j, net [x, y, z] j = net [c.1, c.2.1, c.2.2] j) ∧
      (c.2.2, diquarkFromQuarks c.1 c.2.1 r.r) = (x, diquarkFromQuarks y z r.r) :=
    ⟨_, _, _, k5, k1, b5.symm, perm2, rfl⟩
  have c4 : ∃ x y z, SameKind x y ∧ SameKind y z ∧ (x < 0 ↔ c.1 < 0) ∧
      (∀ j, net [x, y, z] j = net [c.1, c.2.1, c.2.2] j) ∧
      (c.2.2, diquarkFromQuarks c.2.1 c.1 r.r) = (x, diquarkFromQuarks y z r.r) :=
    ⟨_, _, _, k6, k3, b5.symm, perm3, rfl⟩
  unfold chooseEnds
  cases nucleon
  · simp only [Bool.false_eq_true, if_false]
    match r.pick with
    | 0 => exact c1
    | 1 => exact c2
    | 2 => exact c4
  · simp only [if_true]
    cases neutral
    · simp only [Bool.false_eq_true, if_false]
      split_ifs
      · exact c3
      · exact c1
    · simp only [if_true]
      split_ifs
      · exact c1
      · exact c2

/-- What the two ends of a string have to be. -/
def GoodEnds (e : Int × Int) : Prop :=
  ((1 ≤ e.1 ∧ e.1 ≤ 5) ∨ (e.1 < 0 ∧ IsDiquark e.1.natAbs)) ∧
  ((-5 ≤ e.2 ∧ e.2 ≤ -1) ∨ (e.2 > 0 ∧ IsDiquark e.2.natAbs))

theorem ends_baryon {c : Int × Int × Int} (h : Triple c) (nucleon neutral : Bool) (r : Choice) :
    GoodEnds (order (chooseEnds nucleon neutral false c r)) ∧
    ∀ j, net [(order (chooseEnds nucleon neutral false c r)).1,
      (order (chooseEnds nucleon neutral false c r)).2] j = net [c.1, c.2.1, c.2.2] j := by
  obtain ⟨x, y, z, k1, k2, hx, hn, he⟩ := choose_baryon h nucleon neutral r
  obtain ⟨d1, d2, d3, -⟩ := C85_diquark k2 r.r
  refine ⟨?_, fun j => ?_⟩
  · rw [he]
    unfold order GoodEnds
    obtain ⟨e1, e2, e3, e4, e5⟩ := k1
    by_cases hneg : x < 0
    · rw [if_pos hneg]
      exact ⟨Or.inr ⟨d2.mpr (e5.mp hneg), d1⟩, Or.inl ⟨by dsimp only; omega, by dsimp only; omega⟩⟩
    · rw [if_neg hneg]
      refine ⟨Or.inl ⟨by dsimp only; omega, by dsimp only; omega⟩, Or.inr ⟨?_, d1⟩⟩
      have h0 : ¬ diquarkFromQuarks y z r.r < 0 := fun hc => hneg (e5.mpr (d2.mp hc))
      have h1 : diquarkFromQuarks y z r.r ≠ 0 := fun hc => by
        rw [hc] at d1; revert d1; decide
      dsimp only
      omega
  · rw [net_order, he, ← hn j]
    dsimp only
    rw [net_cons, d3 j, net_cons x [y, z]]

/-- A hadron without top quarks. -/
structure Light (d : Nat) : Prop where
  hadron : Pdg.isHadron d = true
  h1 : Pdg.nq1 d ≤ 5
  h2 : Pdg.nq2 d ≤ 5
  h3 : Pdg.nq3 d ≤ 5

theorem Light.pos {d : Nat} (h : Light d) : 1 ≤ Pdg.nq2 d ∧ 1 ≤ Pdg.nq3 d := by
  have := h.hadron
  unfold Pdg.isHadron at this
  simp at this
  omega

theorem content_baryon {d : Nat} (h : Light d) (hb : Pdg.nq1 d ≠ 0) : Triple (Pdg.quarkContent d) := by
  have := h.pos
  have := h.h1
  have := h.h2
  have := h.h3
  unfold Pdg.quarkContent Triple SameKind
  rw [if_pos h.hadron]
  dsimp only
  rw [if_pos hb]
  split_ifs <;> dsimp only <;> omega

/-- A meson consists of a quark and an antiquark. -/
theorem content_meson {d : Nat} (h : Light d) (hb : Pdg.nq1 d = 0) :
    (Pdg.quarkContent d).1 = 0 ∧
    ((1 ≤ (Pdg.quarkContent d).2.1 ∧ (Pdg.quarkContent d).2.1 ≤ 5 ∧
        -5 ≤ (Pdg.quarkContent d).2.2 ∧ (Pdg.quarkContent d).2.2 ≤ -1) ∨
     (1 ≤ (Pdg.quarkContent d).2.2 ∧ (Pdg.quarkContent d).2.2 ≤ 5 ∧
        -5 ≤ (Pdg.quarkContent d).2.1 ∧ (Pdg.quarkContent d).2.1 ≤ -1)) := by
  have := h.pos
  have := h.h2
  have := h.h3
  unfold Pdg.quarkContent
  rw [if_pos h.hadron]
  dsimp only
  rw [if_neg (by omega)]
  split_ifs <;> dsimp only <;> omega

theorem not_nucleon {d : Nat} (h : Pdg.nq1 d = 0) : isNucleon d = false := by
  have hc : Pdg.nq1 d = Pdg.ucode d / 4096 % 16 := by
    unfold Pdg.nq1 Pdg.ucode Pdg.bits
    first | omega | (simp; omega)
  have h2 : (Pdg.code d).natAbs = Pdg.ucode d := by
    unfold Pdg.code Pdg.antiparticleSign
    split_ifs <;> omega
  unfold isNucleon
  rw [h2]
  rw [h] at hc
  simp
  constructor <;> intro hk <;> rw [hk] at hc <;> omega

/-- C85: the two ends of the string made from a hadron carry the flavour of the hadron, for every
hadron of the five flavours and whatever is drawn; the first is a quark or an antidiquark, the second
an antiquark or a diquark. -/
theorem C85_ends {d : Nat} (h : Light d) (c : Choice) :
    GoodEnds (makeStringEnds d c) ∧
    ∀ j, net [(makeStringEnds d c).1, (makeStringEnds d c).2] j =
      nq (Pdg.quarkContent d) j - na (Pdg.quarkContent d) j := by
  unfold makeStringEnds
  by_cases hb : Pdg.nq1 d = 0
  · obtain ⟨h0, hm⟩ := content_meson h hb
    have hmes : Pdg.isMeson d = true := by unfold Pdg.isMeson; simp [h.hadron, hb]
    rw [not_nucleon hb, hmes]
    have hf : FiveFlavours (Pdg.quarkContent d) := by
      unfold FiveFlavours; rw [h0]; omega
    have hnet := net_content _ hf
    generalize Pdg.quarkContent d = q at *
    unfold chooseEnds
    simp only [Bool.false_eq_true, if_false, if_true]
    by_cases hmix : q.2.1 = 1 ∧ q.2.2 = -1 ∧ c.mix = true
    · rw [if_pos hmix]
      refine ⟨by unfold GoodEnds order; decide, fun j => ?_⟩
      rw [net_order, ← hnet j, h0, hmix.1, hmix.2.1]
      revert j; decide
    · rw [if_neg hmix]
      refine ⟨?_, fun j => ?_⟩
      · unfold GoodEnds order
        split_ifs
        · exact ⟨Or.inl (by dsimp only; omega), Or.inl (by dsimp only; omega)⟩
        · exact ⟨Or.inl (by dsimp only; omega), Or.inl (by dsimp only; omega)⟩
      · rw [net_order, ← hnet j, h0, net_cons 0]
        have : net [0] j = 0 := by clear hnet hmix; revert j; decide
        rw [this]
        dsimp only
        omega
  · have ht := content_baryon h hb
    have hmes : Pdg.isMeson d = false := by unfold Pdg.isMeson; simp [hb]
    rw [hmes]
    obtain ⟨e1, e2⟩ := ends_baryon ht (isNucleon d) (Pdg.charge d == 0) c
    refine ⟨e1, fun j => ?_⟩
    rw [e2 j, net_content]
    obtain ⟨⟨a1, a2, a3, a4, -⟩, ⟨-, -, b3, b4, -⟩⟩ := ht
    exact ⟨a2, a4, b4⟩

/-- A proton can end in a d quark and a uu diquark, the antiproton in an antidiquark and an
antiquark, and a pi0 in u ubar. -/
example : Light 0x2212 ∧ makeStringEnds 0x2212 ⟨true, 0, true, 2⟩ = (1, 2203) ∧
    makeStringEnds 0x80002212 ⟨false, 0, true, 0⟩ = (-2101, -2) ∧
    makeStringEnds 0x111 ⟨false, 0, true, 0⟩ = (2, -2) :=
  ⟨⟨by decide, by decide, by decide, by decide⟩, by decide +kernel, by decide +kernel, by decide +kernel⟩

/-- C85: a neutron ends in its u quark and the dd diquark, or in a d quark and the ud diquark; a proton
in its d quark and the uu diquark, or in a u quark and the ud diquark. -/
theorem C85_nucleon (c : Choice) :
    (makeStringEnds 0x2112 c = if c.below then (2, 1103) else (1, if c.r = 0 then 2101 else 2103)) ∧
    (makeStringEnds 0x2212 c = if c.below then (1, 2203) else (2, if c.r = 0 then 2101 else 2103)) := by
  have hn : isNucleon 0x2112 = true ∧ isNucleon 0x2212 = true ∧ Pdg.charge 0x2112 = 0 ∧
      Pdg.charge 0x2212 = 1 ∧ Pdg.quarkContent 0x2112 = (2, 1, 1) ∧
      Pdg.quarkContent 0x2212 = (2, 2, 1) := by decide +kernel
  obtain ⟨h1, h2, h3, h4, h5, h6⟩ := hn
  unfold makeStringEnds
  rw [h1, h2, h3, h4, h5, h6]
  obtain ⟨b, p, m, r⟩ := c
  unfold chooseEnds order diquarkFromQuarks
  by_cases hr : r = 0 <;> cases b <;> simp [hr]

end Verif.Frag
