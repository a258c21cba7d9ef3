import Verif.Types.Iso
/-
The names of the states of a multiplet (C80).
-/
namespace Verif.Types
open Verif.Text (Str)

/-- The charge suffixes: specification. -/
def suffix : Int → Str
  | 2 => [0xE2, 0x81, 0xBA, 0xE2, 0x81, 0xBA]
  | 1 => [0xE2, 0x81, 0xBA]
  | 0 => [0xE2, 0x81, 0xB0]
  | -1 => [0xE2, 0x81, 0xBB]
  | -2 => [0xE2, 0x81, 0xBB, 0xE2, 0x81, 0xBB]
  | _ => []

theorem isPrefixOf_E2 {name suf q : Str} (h : (0xE2 : UInt8) ∉ name) (hn : name ≠ []) :
    ((0xE2 : UInt8) :: q).isPrefixOf (name ++ suf) = false := by
  cases name with
  | nil => exact absurd rfl hn
  | cons a l =>
    simp only [List.mem_cons, not_or] at h
    simp [List.isPrefixOf, h.1]

theorem has_append {name suf q : Str} (h : (0xE2 : UInt8) ∉ name) :
    has (name ++ suf) (0xE2 :: q) = has suf (0xE2 :: q) := by
  unfold has
  induction name with
  | nil => rfl
  | cons a l ih =>
    simp only [List.mem_cons, not_or] at h
    rw [Verif.Text.find.eq_def, isPrefixOf_E2 (by simp [h]) (by simp)]
    simp only [Bool.false_eq_true, if_false, List.cons_append, Option.isSome_map]
    exact ih h.2

theorem cut_append {name suf p : Str} (h : p.length = suf.length) : cut (name ++ suf) p = name := by
  unfold cut
  rw [List.length_append, h, Nat.add_sub_cancel, List.take_left]

theorem splitCharge_suffix {name : Str} (h : (0xE2 : UInt8) ∉ name) {c : Int} (hc : |c| ≤ 2) :
    splitCharge (name ++ suffix c) = (name, suffix (-c)) := by
  have hp : plus = 0xE2 :: [0x81, 0xBA] := rfl
  have hm : minus = 0xE2 :: [0x81, 0xBB] := rfl
  have hz : zero = 0xE2 :: [0x81, 0xB0] := rfl
  have hpp : plus ++ plus = 0xE2 :: [0x81, 0xBA, 0xE2, 0x81, 0xBA] := rfl
  have hmm : minus ++ minus = 0xE2 :: [0x81, 0xBB, 0xE2, 0x81, 0xBB] := rfl
  rw [abs_le] at hc
  have hcs : c = -2 ∨ c = -1 ∨ c = 0 ∨ c = 1 ∨ c = 2 := by omega
  unfold splitCharge
  rw [hpp, hmm, hp, hm, hz]
  simp only [has_append h]
  rcases hcs with rfl | rfl | rfl | rfl | rfl
  · rw [if_neg (by decide), if_neg (by decide), if_pos (by decide)]
    exact Prod.ext (cut_append rfl) rfl
  · rw [if_neg (by decide), if_neg (by decide), if_neg (by decide), if_pos (by decide)]
    exact Prod.ext (cut_append rfl) rfl
  · rw [if_neg (by decide), if_neg (by decide), if_neg (by decide), if_neg (by decide),
      if_pos (by decide)]
    exact Prod.ext (cut_append rfl) rfl
  · rw [if_neg (by decide), if_pos (by decide)]
    exact Prod.ext (cut_append rfl) rfl
  · rw [if_pos (by decide)]
    exact Prod.ext (cut_append rfl) rfl

theorem chargestr_suffix {c : Int} (hc : |c| ≤ 2) : chargestr c = .ok (suffix c) := by
  rw [abs_le] at hc
  have hcs : c = -2 ∨ c = -1 ∨ c = 0 ∨ c = 1 ∨ c = 2 := by omega
  rcases hcs with rfl | rfl | rfl | rfl | rfl <;> rfl

/-- The first character of a name and the rest: the first byte decides how many bytes it has. -/
def firstChar (name : Str) : Nat :=
  match name with
  | [] => 0
  | a :: _ =>
    if a.toNat < 0x80 then 1 else if a.toNat < 0xE0 then 2 else if a.toNat < 0xF0 then 3 else 4

/-- A name starts with a whole character. -/
def StartsWell (name : Str) : Prop :=
  ∃ a l, name = a :: l ∧ (a.toNat < 0x80 ∨ (0xC0 ≤ a.toNat ∧ a.toNat < 0xF8)) ∧ firstChar name ≤ name.length

theorem seqLen_eq {name : Str} (h : StartsWell name) : seqLen name = firstChar name := by
  obtain ⟨a, l, rfl, ha, -⟩ := h
  change (if a.toNat < 0x80 then 1 else if a.toNat / 2 ^ 5 = 0x6 then 2
    else if a.toNat / 2 ^ 4 = 0xe then 3 else if a.toNat / 2 ^ 3 = 0x1e then 4 else 0) =
    (if a.toNat < 0x80 then 1 else if a.toNat < 0xE0 then 2 else if a.toNat < 0xF0 then 3 else 4)
  by_cases h1 : a.toNat < 0x80
  · rw [if_pos h1, if_pos h1]
  rw [if_neg h1, if_neg h1]
  by_cases h2 : a.toNat < 0xE0
  · rw [if_pos h2, if_pos (by omega)]
  rw [if_neg h2, if_neg (by omega)]
  by_cases h3 : a.toNat < 0xF0
  · rw [if_pos h3, if_pos (by omega)]
  rw [if_neg h3, if_neg (by omega), if_pos (by omega)]

/-- Whether the name of the antiparticle gets a bar: baryons and nuclei, strange and charmed
particles, neutrinos. -/
def Barred (d : Nat) : Prop :=
  Verif.Pdg.baryonNumber d ≠ 0 ∨ Verif.Pdg.strangeness d ≠ 0 ∨ Verif.Pdg.charmness d ≠ 0 ∨
    (Verif.Pdg.isLepton d = true ∧ Verif.Pdg.nJ d % 2 = 0)

/-- **C80.** In a line with several codes, the state with charge `c` is called the name of the line
with the suffix for `c`; its multiplet is the name of the line.  Its antiparticle is called the name,
with a bar over its first character for baryons, strange and charmed particles, with the suffix of
the opposite charge; its multiplet is the name without that suffix.  (Names with the byte 0xE2,
which starts the suffixes, are left out.) -/
theorem C80_names {name : Str} {d : Nat} (hE : (0xE2 : UInt8) ∉ name) (hs : StartsWell name)
    (hc : |Verif.Pdg.charge d| ≤ 2) :
    fullName name true d = .ok (name ++ suffix (Verif.Pdg.charge d)) ∧
    multipletName (name ++ suffix (Verif.Pdg.charge d)) = name ∧
    (∀ base, (Barred d → base = name.take (firstChar name) ++ [0xCC, 0x85] ++ name.drop (firstChar name)) →
      (¬ Barred d → base = name) →
      antiname (name ++ suffix (Verif.Pdg.charge d)) d = .ok (base ++ suffix (-Verif.Pdg.charge d)) ∧
      multipletName (base ++ suffix (-Verif.Pdg.charge d)) = base) := by
  have hsp := splitCharge_suffix hE hc
  refine ⟨?_, ?_, ?_⟩
  · unfold fullName
    rw [chargestr_suffix hc]
    rfl
  · unfold multipletName; rw [hsp]
  · intro base hb1 hb2
    have hbE : (0xE2 : UInt8) ∉ base := by
      by_cases hB : Barred d
      · rw [hb1 hB]
        simp only [List.mem_append, not_or]
        exact ⟨⟨fun h => hE (List.mem_of_mem_take h), by decide⟩, fun h => hE (List.mem_of_mem_drop h)⟩
      · rw [hb2 hB]; exact hE
    constructor
    · unfold antiname
      rw [hsp]
      dsimp only
      have hiff : (Verif.Pdg.baryonNumber d != 0 || Verif.Pdg.strangeness d != 0 ||
          Verif.Pdg.charmness d != 0 || isNeutrino d) = true ↔ Barred d := by
        unfold Barred isNeutrino
        simp [or_assoc]
      by_cases hB : Barred d
      · rw [if_pos (hiff.2 hB), seqLen_eq hs, if_neg (by obtain ⟨_, _, _, _, h⟩ := hs; omega), hb1 hB]
        rfl
      · rw [if_neg (fun h => hB (hiff.1 h)), hb2 hB]
    · unfold multipletName
      rw [splitCharge_suffix hbE (by rwa [abs_neg])]

/-- Hypotheses are met: "Σ" with the code of the Sigma+. -/
example : (0xE2 : UInt8) ∉ ([0xCE, 0xA3] : Str) ∧ StartsWell [0xCE, 0xA3] ∧
    |Verif.Pdg.charge 0x3222| ≤ 2 ∧ Barred 0x3222 :=
  ⟨by decide, ⟨0xCE, [0xA3], rfl, Or.inr (by decide), by decide⟩, by decide +kernel,
    Or.inl (by decide +kernel)⟩

end Verif.Types
