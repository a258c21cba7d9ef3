import Verif.Scat.Model
import Mathlib.Tactic.Linarith
import Mathlib.Tactic.Positivity
import Mathlib.Tactic.NormNum
/-! C78: cross sections of particles that are being formed. -/
namespace Verif.Scat
open Verif.Kin

/-- A particle whose formation is known: it begins not after it ends, with an initial factor in
`[0, 1]`. -/
structure Forming (p : P) (start finish : ℝ) : Prop where
  form : p.formation = some finish
  begin_ : p.beginFormation = some start
  order : start ≤ finish
  initial : 0 ≤ p.initialScaling ∧ p.initialScaling ≤ 1

/-- The value once the times are known. -/
theorem scaling_val (power : ℝ) (p : P) (b f d : ℝ) (h : Forming p b f) :
    scalingFactor power p d = some (if power ≤ 0 then
      if p.pos.t + d < f then p.initialScaling else 1
    else if f ≤ p.pos.t + d then 1
    else if b ≥ p.pos.t + d then p.initialScaling
    else p.initialScaling + (1 - p.initialScaling) * ((p.pos.t + d - b) / (f - b)) ^ power) := by
  unfold scalingFactor
  rw [h.form, h.begin_]
  simp only
  split
  · split <;> rfl
  · split
    · rfl
    · split <;> rfl

theorem frac_mem {t b f : ℝ} (h1 : ¬ f ≤ t) (h2 : ¬ b ≥ t) :
    0 < (t - b) / (f - b) ∧ (t - b) / (f - b) < 1 := by
  have hb : b < t := not_le.1 h2
  have hf : t < f := not_le.1 h1
  have : 0 < f - b := by linarith
  constructor
  · exact div_pos (by linarith) this
  · rw [div_lt_one this]; linarith

/-- **C78**, range: the factor is a number between the initial factor and 1. -/
theorem C78_range (power : ℝ) (p : P) (b f d : ℝ) (h : Forming p b f) :
    ∃ s, scalingFactor power p d = some s ∧ p.initialScaling ≤ s ∧ s ≤ 1 := by
  rw [scaling_val power p b f d h]
  obtain ⟨h0, h1⟩ := h.initial
  refine ⟨_, rfl, ?_⟩
  split
  · split
    · exact ⟨le_rfl, h1⟩
    · exact ⟨h1, le_rfl⟩
  · rename_i hp
    split
    · exact ⟨h1, le_rfl⟩
    · rename_i hf
      split
      · exact ⟨le_rfl, h1⟩
      · rename_i hb
        obtain ⟨q0, q1⟩ := frac_mem hf hb
        have e0 : 0 ≤ ((p.pos.t + d - b) / (f - b)) ^ power := Real.rpow_nonneg q0.le _
        have e1 : ((p.pos.t + d - b) / (f - b)) ^ power ≤ 1 :=
          Real.rpow_le_one q0.le q1.le (not_le.1 hp).le
        constructor
        · nlinarith
        · nlinarith

/-- **C78**, a formed particle has its full cross section, and before the formation begins (or
ends, if formation is sudden) it has the initial one. -/
theorem C78_ends (power : ℝ) (p : P) (b f d : ℝ) (h : Forming p b f) :
    (f ≤ p.pos.t + d → scalingFactor power p d = some 1) ∧
    (p.pos.t + d ≤ b → p.pos.t + d < f → scalingFactor power p d = some p.initialScaling) ∧
    (power ≤ 0 → p.pos.t + d < f → scalingFactor power p d = some p.initialScaling) := by
  rw [scaling_val power p b f d h]
  refine ⟨fun hf => ?_, fun hb hf => ?_, fun hp hf => ?_⟩
  · rw [if_neg (not_lt.2 hf), if_pos hf]
    simp
  · rw [if_pos hf, if_neg (not_le.2 hf), if_pos hb]
    simp
  · rw [if_pos hp, if_pos hf]

/-- **C78**, the cross section never decreases while a particle forms. -/
theorem C78_monotone (power : ℝ) (p : P) (b f d d' s s' : ℝ) (h : Forming p b f) (hd : d ≤ d')
    (hs : scalingFactor power p d = some s) (hs' : scalingFactor power p d' = some s') : s ≤ s' := by
  obtain ⟨r, hr, hr0, hr1⟩ := C78_range power p b f d' h
  obtain ⟨q, hq, hq0, hq1⟩ := C78_range power p b f d h
  rw [hs'] at hr
  rw [hs] at hq
  cases hr
  cases hq
  rw [scaling_val power p b f d h] at hs
  rw [scaling_val power p b f d' h] at hs'
  simp only [Option.some.injEq] at hs hs'
  obtain ⟨h0, h1⟩ := h.initial
  split at hs
  · rename_i hp
    rw [if_pos hp] at hs'
    split at hs
    · rw [← hs]; exact hr0
    · rename_i hn
      rw [if_neg (by linarith)] at hs'
      rw [← hs, ← hs']
  · rename_i hp
    rw [if_neg hp] at hs'
    split at hs
    · rename_i hf
      rw [if_pos (by linarith)] at hs'
      rw [← hs, ← hs']
    · rename_i hf
      split at hs
      · rw [← hs]; exact hr0
      · rename_i hb
        by_cases hf' : f ≤ p.pos.t + d'
        · rw [if_pos hf'] at hs'
          rw [← hs']; exact hq1
        · have hb' : ¬ b ≥ p.pos.t + d' := by
            have := not_le.1 hb
            exact not_le.2 (by linarith)
          rw [if_neg hf', if_neg hb'] at hs'
          rw [← hs, ← hs']
          obtain ⟨q0, q1⟩ := frac_mem hf hb
          have hfb : 0 < f - b := by
            have := not_le.1 hb; have := not_le.1 hf; linarith
          have hle : (p.pos.t + d - b) / (f - b) ≤ (p.pos.t + d' - b) / (f - b) := by
            rw [div_le_div_iff_of_pos_right hfb]; linarith
          have := Real.rpow_le_rpow q0.le hle (not_le.1 hp).le
          nlinarith

/-- A particle formed between 1 fm and 2 fm with half of its cross section at first. -/
example : Forming (⟨0, ⟨0, 0, 0, 0⟩, ⟨1, 0, 0, 0⟩, .nothing, 0, 0, false, some 2, some 1, 1 / 2⟩ : P)
    1 2 :=
  ⟨rfl, rfl, by norm_num, by norm_num⟩

end Verif.Scat
