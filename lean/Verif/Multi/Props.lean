import Mathlib.Data.List.Perm.Subperm
import Mathlib.Data.Finset.Dedup
import Mathlib.Data.Nat.Factorial.Basic
import Mathlib.Algebra.BigOperators.Group.Finset.Basic
import Mathlib.Algebra.BigOperators.Group.List.Basic
import Mathlib.Tactic.NormNum
import Mathlib.Tactic.Tauto
import Mathlib.Tactic.IntervalCases
import Verif.Multi.Model

/-
C98: which reactions with three, four and five incoming particles there are, what they conserve and
with which statistical factor they are weighted.
-/
namespace Verif.Multi

open Verif.Pdg List

/-! ### Specification -/

/-- What every `PdgCode` object satisfies: 32 bits, of which bits 28 and 29 are only used by nuclei,
and no nucleus is without nucleons. -/
def Word (d : Nat) : Prop :=
  d < 2 ^ 32 ∧ (isNucleus d = false → bits d 28 2 = 0) ∧ (isNucleus d = true → A d ≠ 0)

/-- Pions, and nucleons with antinucleons: the particles that can act as a catalyst. -/
def pions : List Nat := [piP, piZ, piM]
def nucleons : List Nat := [proton, neutron, antiProton, antiNeutron]

/-- The nuclei with three constituents and what they are made of. -/
def madeOf : List (Nat × List Nat) :=
  [(triton, [proton, neutron, neutron]), (antiTriton, [antiProton, antiNeutron, antiNeutron]),
   (he3, [proton, proton, neutron]), (antiHe3, [antiProton, antiProton, antiNeutron]),
   (hyperTriton, [proton, neutron, lambda]), (antiHyperTriton, [antiProton, antiNeutron, antiLambda])]

/-- The documented reactions: 3π → ω, φ; ππη → η'; Xpn → Xd and Xp̅n̅ → Xd̅ with a pion or
(anti)nucleon X; X + constituents → X + nucleus; 5π → NN̅. -/
inductive Allowed (fl : Flags) (known : Nat → Bool) (inc : List Nat) : List Nat → Prop
  | omega : fl.meson3to1 → inc ~ [piP, piM, piZ] → known omega → Allowed fl known inc [omega]
  | phi : fl.meson3to1 → inc ~ [piP, piM, piZ] → known phi → Allowed fl known inc [phi]
  | etaPrime : fl.meson3to1 → inc ~ [piZ, piZ, eta] ∨ inc ~ [piP, piM, eta] → known etaPrime →
      Allowed fl known inc [etaPrime]
  | deuteron (x) : fl.deuteron3to2 → known deuteron → known antiDeuteron → x ∈ pions ++ nucleons →
      inc ~ [x, proton, neutron] → Allowed fl known inc [x, deuteron]
  | antiDeuteron (x) : fl.deuteron3to2 → known deuteron → known antiDeuteron →
      x ∈ pions ++ nucleons → inc ~ [x, antiProton, antiNeutron] →
      Allowed fl known inc [x, antiDeuteron]
  | nucleus (x n cs) : fl.nuclei4to2 → known n → (n, cs) ∈ madeOf → x ∈ pions ++ nucleons →
      inc ~ x :: cs → Allowed fl known inc [x, n]
  | protons : fl.nnbar5to2 → known proton → known neutron → inc ~ [piP, piP, piM, piM, piZ] →
      Allowed fl known inc [proton, antiProton]
  | neutrons : fl.nnbar5to2 → known proton → known neutron → inc ~ [piP, piP, piM, piM, piZ] →
      Allowed fl known inc [neutron, antiNeutron]

/-- Spin states of the outgoing over those of the incoming particles, times the number of ways to
exchange equal incoming particles. -/
def statFactor (inc outs : List Nat) : ℚ :=
  ((outs.map degen).prod : ℚ) / ((inc.map degen).prod : ℚ) *
    ((∏ x ∈ inc.toFinset, (inc.count x).factorial : ℕ) : ℚ)

/-- The kind a reaction of `n` to `m` particles is reported as. -/
def kindOf : Nat → Nat → Option Kind
  | 3, 1 => some .threeToOne
  | 3, 2 => some .threeToTwo
  | 4, 2 => some .fourToTwo
  | 5, 2 => some .fiveToTwo
  | _, _ => none

/-! ### Lemmas -/

theorem isPion_iff {d : Nat} (h : Word d) : isPion d = true ↔ d = piP ∨ d = piZ ∨ d = piM := by
  obtain ⟨h1, h2, h3⟩ := h
  have e : d = bits d 31 1 * 2 ^ 31 + bits d 30 1 * 2 ^ 30 + bits d 28 2 * 2 ^ 28 + bits d 0 28 := by
    simp only [bits]; omega
  have b31 : bits d 31 1 < 2 := by simp only [bits]; omega
  have b30 : bits d 30 1 < 2 := by simp only [bits]; omega
  have hA : A d = 0 ∨ 65536 ≤ bits d 0 28 := by simp only [A, bits]; omega
  have hn : isNucleus d = false ∨ isNucleus d = true := by cases isNucleus d <;> simp
  simp only [isPion, code, ucode, antiparticleSign, anti, piP, piZ, piM, Bool.or_eq_true, beq_iff_eq]
  constructor
  · intro h
    have hnn : isNucleus d = false := by
      rcases hn with hn | hn
      · exact hn
      · exfalso
        have := h3 hn
        split_ifs at h <;> omega
    have hb := h2 hnn
    simp only [isNucleus, beq_eq_false_iff_ne] at hnn
    split_ifs at h <;> omega
  · rintro (rfl | rfl | rfl) <;> decide

theorem isNucleon_iff {d : Nat} (h : Word d) : isNucleon d = true ↔ d ∈ nucleons := by
  obtain ⟨h1, h2, h3⟩ := h
  have e : d = bits d 31 1 * 2 ^ 31 + bits d 30 1 * 2 ^ 30 + bits d 28 2 * 2 ^ 28 + bits d 0 28 := by
    simp only [bits]; omega
  have b31 : bits d 31 1 < 2 := by simp only [bits]; omega
  have b30 : bits d 30 1 < 2 := by simp only [bits]; omega
  have hA : A d = 0 ∨ 65536 ≤ bits d 0 28 := by simp only [A, bits]; omega
  have hn : isNucleus d = false ∨ isNucleus d = true := by cases isNucleus d <;> simp
  simp only [isNucleon, code, ucode, antiparticleSign, anti, nucleons, proton, neutron, antiProton,
    antiNeutron, Bool.or_eq_true, beq_iff_eq, List.mem_cons, List.not_mem_nil, or_false]
  constructor
  · intro h
    have hnn : isNucleus d = false := by
      rcases hn with hn | hn
      · exact hn
      · exfalso
        have := h3 hn
        split_ifs at h <;> omega
    have hb := h2 hnn
    simp only [isNucleus, beq_eq_false_iff_ne] at hnn
    split_ifs at h <;> omega
  · rintro (rfl | rfl | rfl | rfl) <;> decide

theorem perm3 {α : Type*} {a b c x y z : α} : [a, b, c] ~ [x, y, z] ↔
    (a = x ∧ b = y ∧ c = z) ∨ (a = x ∧ b = z ∧ c = y) ∨ (b = x ∧ a = y ∧ c = z) ∨
    (b = x ∧ a = z ∧ c = y) ∨ (c = x ∧ a = y ∧ b = z) ∨ (c = x ∧ a = z ∧ b = y) := by
  constructor
  · intro h
    have ha : a ∈ [x, y, z] := h.subset (by simp)
    simp only [List.mem_cons, List.not_mem_nil, or_false] at ha
    have two : ∀ {p q r s : α}, [p, q] ~ [r, s] → (p = r ∧ q = s) ∨ (p = s ∧ q = r) := by
      intro p q r s h
      have hp : p ∈ [r, s] := h.subset (by simp)
      simp only [List.mem_cons, List.not_mem_nil, or_false] at hp
      rcases hp with rfl | rfl
      · have := (List.perm_cons p).1 h
        have := List.perm_singleton.1 this
        simp only [List.cons.injEq, and_true] at this
        exact Or.inl ⟨rfl, this⟩
      · have h' : [p, q] ~ [p, r] := h.trans (List.Perm.swap _ _ _)
        have := List.perm_singleton.1 ((List.perm_cons p).1 h')
        simp only [List.cons.injEq, and_true] at this
        exact Or.inr ⟨rfl, this⟩
    rcases ha with rfl | rfl | rfl
    · rcases two ((List.perm_cons a).1 h) with ⟨rfl, rfl⟩ | ⟨rfl, rfl⟩ <;> simp
    · have h' : [a, b, c] ~ [a, x, z] := h.trans (List.Perm.swap _ _ _)
      rcases two ((List.perm_cons a).1 h') with ⟨rfl, rfl⟩ | ⟨rfl, rfl⟩ <;> simp
    · have h' : [a, b, c] ~ [a, x, y] :=
        h.trans (((List.Perm.swap _ _ _).cons x).trans (List.Perm.swap _ _ _))
      rcases two ((List.perm_cons a).1 h') with ⟨rfl, rfl⟩ | ⟨rfl, rfl⟩ <;> simp
  · rintro (⟨rfl, rfl, rfl⟩ | ⟨rfl, rfl, rfl⟩ | ⟨rfl, rfl, rfl⟩ | ⟨rfl, rfl, rfl⟩ | ⟨rfl, rfl, rfl⟩ |
      ⟨rfl, rfl, rfl⟩)
    · rfl
    · exact (List.Perm.swap _ _ _).cons _
    · exact List.Perm.swap _ _ _
    · exact (List.Perm.swap _ _ _).trans ((List.Perm.swap _ _ _).cons _)
    · exact ((List.Perm.swap _ _ _).cons _).trans (List.Perm.swap _ _ _)
    · exact (List.Perm.swap _ _ _).trans (((List.Perm.swap _ _ _).cons _).trans (List.Perm.swap _ _ _))

theorem sixOrders_iff {f : Nat → Bool} {x y a b c : Nat} :
    sixOrders f x y a b c = true ↔ ∃ z, f z = true ∧ [a, b, c] ~ [z, x, y] := by
  simp only [sixOrders, Bool.or_eq_true, Bool.and_eq_true, beq_iff_eq, perm3]
  constructor
  · rintro (((((⟨⟨h, h1⟩, h2⟩ | ⟨⟨h, h1⟩, h2⟩) | ⟨⟨h1, h⟩, h2⟩) | ⟨⟨h1, h⟩, h2⟩) | ⟨⟨h1, h2⟩, h⟩) |
      ⟨⟨h1, h2⟩, h⟩)
    all_goals exact ⟨_, h, by tauto⟩
  · rintro ⟨z, hz, h⟩
    rcases h with ⟨rfl, rfl, rfl⟩ | ⟨rfl, rfl, rfl⟩ | ⟨rfl, rfl, rfl⟩ | ⟨rfl, rfl, rfl⟩ |
      ⟨rfl, rfl, rfl⟩ | ⟨rfl, rfl, rfl⟩ <;> simp [hz]

theorem threeDifferentPions_iff {a b c : Nat} (ha : Word a) (hb : Word b) (hc : Word c) :
    threeDifferentPions a b c = true ↔ [a, b, c] ~ [piP, piM, piZ] := by
  simp only [threeDifferentPions, Bool.and_eq_true, isPion_iff ha, isPion_iff hb, isPion_iff hc,
    bne_iff_ne, ne_eq, perm3]
  constructor
  · rintro ⟨⟨⟨h1, h2⟩, h3⟩, ⟨⟨n1, n2⟩, n3⟩⟩
    rcases h1 with rfl | rfl | rfl <;> rcases h2 with rfl | rfl | rfl <;>
      rcases h3 with rfl | rfl | rfl <;> simp [piP, piM, piZ] at n1 n2 n3 ⊢
  · rintro (⟨rfl, rfl, rfl⟩ | ⟨rfl, rfl, rfl⟩ | ⟨rfl, rfl, rfl⟩ | ⟨rfl, rfl, rfl⟩ | ⟨rfl, rfl, rfl⟩ |
      ⟨rfl, rfl, rfl⟩) <;> simp [piP, piM, piZ]

theorem twoPionsEta_iff {a b c : Nat} : twoPionsEta a b c = true ↔
    [a, b, c] ~ [piZ, piZ, eta] ∨ [a, b, c] ~ [piP, piM, eta] := by
  simp only [twoPionsEta, Bool.or_eq_true, Bool.and_eq_true, beq_iff_eq, perm3]
  generalize piZ = z
  generalize piP = p
  generalize piM = m
  generalize eta = e
  constructor
  · rintro ((((((((⟨⟨rfl, rfl⟩, rfl⟩ | ⟨⟨rfl, rfl⟩, rfl⟩) | ⟨⟨rfl, rfl⟩, rfl⟩) | ⟨⟨rfl, rfl⟩, rfl⟩) |
      ⟨⟨rfl, rfl⟩, rfl⟩) | ⟨⟨rfl, rfl⟩, rfl⟩) | ⟨⟨rfl, rfl⟩, rfl⟩) | ⟨⟨rfl, rfl⟩, rfl⟩) |
      ⟨⟨rfl, rfl⟩, rfl⟩) <;> simp
  · rintro ((⟨rfl, rfl, rfl⟩ | ⟨rfl, rfl, rfl⟩ | ⟨rfl, rfl, rfl⟩ | ⟨rfl, rfl, rfl⟩ | ⟨rfl, rfl, rfl⟩ |
      ⟨rfl, rfl, rfl⟩) | ⟨rfl, rfl, rfl⟩ | ⟨rfl, rfl, rfl⟩ | ⟨rfl, rfl, rfl⟩ | ⟨rfl, rfl, rfl⟩ |
      ⟨rfl, rfl, rfl⟩ | ⟨rfl, rfl, rfl⟩) <;> simp

theorem statFactor_perm {l l' : List Nat} (h : l ~ l') (o : List Nat) :
    statFactor l o = statFactor l' o := by
  unfold statFactor
  rw [List.toFinset_eq_of_perm _ _ h, (h.map degen).prod_eq]
  congr 2
  exact Finset.prod_congr rfl fun x _ => by rw [h.count_eq]

theorem sum_perm {l l' : List Nat} (h : l ~ l') (q : Nat → Int) :
    (l.map q).sum = (l'.map q).sum := (h.map q).sum_eq

end Verif.Multi
