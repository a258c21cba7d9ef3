import Mathlib.Tactic.Ring
import Mathlib.Tactic.Linarith
import Mathlib.Tactic.Positivity
import Mathlib.Tactic.FieldSimp
import Mathlib.MeasureTheory.Integral.IntervalIntegral.FundThmCalculus
import Mathlib.Analysis.SpecialFunctions.ExpDeriv
import Verif.Wid.Find
import Verif.Em.Model

/-!
C137: dilepton shining.
-/

namespace Verif.Em

open Verif Kin Act Wid MeasureTheory

theorem emit_mem (f : ℝ → ℝ) (l : List (Mode × ℝ)) (D : Mode) (v : ℝ) :
    (D, v) ∈ emit f l ↔ ∃ w, (D, w) ∈ l ∧ 0 < f w ∧ v = f w := by
  unfold emit
  rw [List.mem_filterMap]
  constructor
  · rintro ⟨⟨D', w⟩, h1, h2⟩
    split_ifs at h2 with h
    cases h2
    exact ⟨w, h1, h, rfl⟩
  · rintro ⟨w, h1, h2, rfl⟩
    exact ⟨(D, w), h1, if_pos h2⟩

theorem emit_total {c : ℝ} (hc : 0 ≤ c) (l : List (Mode × ℝ)) (hl : ∀ m ∈ l, 0 ≤ m.2) (f : ℝ → ℝ)
    (hf : ∀ w, f w = c * w) : totalWeight (emit f l) = c * totalWeight l := by
  induction l with
  | nil => simp [emit, totalWeight]
  | cons m l ih =>
    have ih := ih fun x hx => hl x (List.mem_cons_of_mem _ hx)
    have h0 := hl m List.mem_cons_self
    unfold emit totalWeight at *
    rw [List.filterMap_cons]
    have hnn : 0 ≤ f m.2 := by rw [hf]; positivity
    by_cases h : f m.2 > 0
    · rw [if_pos h]
      simp only [List.map_cons, List.sum_cons]
      rw [ih, hf]; ring
    · rw [if_neg h]
      simp only [List.map_cons, List.sum_cons]
      rw [ih]
      have : f m.2 = 0 := le_antisymm (not_lt.1 h) hnn
      rw [hf] at this
      linear_combination -this

theorem lengths {R : Res} {m : ℝ} (l : List Mode) {a h d : List (Mode × ℝ)}
    (ea : partialWidths R m .all l = .ok a) (eh : partialWidths R m .hadronic l = .ok h)
    (ed : partialWidths R m .dileptons l = .ok d) : a.length = h.length + d.length := by
  induction l generalizing a h d with
  | nil =>
    rw [partialWidths] at ea eh ed
    cases ea; cases eh; cases ed; rfl
  | cons D l ih =>
    rw [partialWidths] at ea eh ed
    cases hw : partialWidth R m D with
    | error e => rw [hw] at ea; cases ea
    | ok w =>
      cases ha : partialWidths R m .all l with
      | error e => rw [hw, ha] at ea; cases ea
      | ok a' =>
        cases hh : partialWidths R m .hadronic l with
        | error e => rw [hw, hh] at eh; cases eh
        | ok h' =>
          cases hd : partialWidths R m .dileptons l with
          | error e => rw [hw, hd] at ed; cases ed
          | ok d' =>
            rw [hw, ha] at ea
            rw [hw, hh] at eh
            rw [hw, hd] at ed
            cases ea; cases eh; cases ed
            have := ih ha hh hd
            by_cases hp : w > 0
            · by_cases hk : D.kind.isDilepton = true
              · simp [wanted, hp, hk, this]; omega
              · rw [Bool.not_eq_true] at hk
                simp [wanted, hp, hk, this]; omega
            · simp [hp, this]

/-- A particle that shines: a resonance with an open hadronic decay, formed by ordinary hadrons, on its mass
shell. `had`, `dil` are its hadronic and dilepton branches. -/
structure Shining (R : Res) (p : Wid.Part) (m : ℝ) (had dil : List (Mode × ℝ)) : Prop where
  unstable : cutoff ≤ R.width
  modes : ∀ D ∈ R.modes, D.Valid R.mass
  energy : 0 < p.momentum.t
  mass : 0 < m
  shell : p.momentum.t ^ 2 = m ^ 2 + p.momentum.vec.dot p.momentum.vec
  hadronic : partialWidths R p.momentum.abs .hadronic R.modes = .ok had
  dileptons : partialWidths R p.momentum.abs .dileptons R.modes = .ok dil
  open_ : had ≠ []
  scaling : 0 ≤ p.scaling

theorem Shining.width_nonneg {R : Res} {p : Wid.Part} {m : ℝ} {had dil : List (Mode × ℝ)}
    (h : Shining R p m had dil) : 0 ≤ R.width :=
  le_trans (by norm_num [cutoff]) h.unstable

theorem sum_pos_of {l : List (Mode × ℝ)} (h : ∀ x ∈ l, 0 < x.2) (hne : l ≠ []) : 0 < totalWeight l := by
  unfold totalWeight
  apply List.sum_pos
  · intro x hx
    obtain ⟨y, hy, rfl⟩ := List.mem_map.1 hx
    exact h y hy
  · simpa using hne

theorem Shining.facts {R : Res} {p : Wid.Part} {m : ℝ} {had dil : List (Mode × ℝ)}
    (h : Shining R p m had dil) : ∃ a, partialWidths R p.momentum.abs .all R.modes = .ok a ∧
      totalWeight a = totalWeight had + totalWeight dil ∧ 0 < totalWeight had ∧ 0 ≤ totalWeight dil ∧
      a.length ≠ 0 ∧ dil.length ≠ a.length ∧ (∀ x ∈ dil, 0 < x.2) ∧ R.modes ≠ [] ∧
      ∀ D v, (D, v) ∈ dil ↔ D ∈ R.modes ∧ partialWidth R p.momentum.abs D = .ok v ∧ 0 < v ∧ leptonic D.kind := by
  obtain ⟨a, b, d, ea, eb, ed, ma, mb, md, t, -⟩ := C117_branches h.width_nonneg h.modes p.momentum.abs
  rw [h.hadronic] at eb
  rw [h.dileptons] at ed
  cases eb; cases ed
  have hl := lengths R.modes ea h.hadronic h.dileptons
  have hlen : had.length ≠ 0 := fun h0 => h.open_ (List.length_eq_zero_iff.1 h0)
  have pd : ∀ x ∈ dil, 0 < x.2 := fun x hx => ((md x.1 x.2).1 hx).2.2.1
  refine ⟨a, ea, t, sum_pos_of (fun x hx => ((mb x.1 x.2).1 hx).2.2.1) h.open_, ?_, by omega, by omega, pd, ?_, md⟩
  · unfold totalWeight
    apply List.sum_nonneg
    intro x hx
    obtain ⟨y, hy, rfl⟩ := List.mem_map.1 hx
    exact (pd y hy).le
  · intro h0
    have := h.hadronic
    rw [h0, partialWidths] at this
    cases this
    exact h.open_ rfl

theorem shineOne_eq {R : Res} {p : Wid.Part} {m : ℝ} {had dil : List (Mode × ℝ)}
    (h : Shining R p m had dil) (dt : ℝ) : shineOne R p false dt =
      .ok (emit (fun w => dt * inverseGamma p.momentum * w * p.scaling / hbarc) dil) := by
  obtain ⟨a, ea, -, -, -, l1, l2, -⟩ := h.facts
  have hs : R.stable = false := decide_eq_false (not_lt.2 h.unstable)
  unfold shineOne
  rw [ea]
  change (if (a.length == 0) = true then _ else _) = _
  rw [if_neg (by simpa using l1), h.dileptons]
  change (if (dil.length == a.length || R.stable || false) = true then _ else _) = _
  rw [if_neg (by rw [hs]; simpa using l2)]

theorem weight_eq {R : Res} {p : Wid.Part} {m : ℝ} {had dil : List (Mode × ℝ)}
    (h : Shining R p m had dil) (dt w : ℝ) :
    dt * inverseGamma p.momentum * w * p.scaling / hbarc = rate w m p.momentum.t * p.scaling * dt := by
  rw [inverseGamma_eq h.energy h.mass.le h.shell]
  unfold rate
  ring

/-- **C137.** While a resonance propagates for the time dt > 0, every open dilepton channel is written to the
output with the weight Γ/ħ·(m/E)·dt, the probability for this decay, scaled by the factor of unformed particles; and
nothing else is written. -/
theorem C137_step {R : Res} {p : Wid.Part} {m : ℝ} {had dil : List (Mode × ℝ)}
    (h : Shining R p m had dil) {dt : ℝ} (hdt : 0 < dt) (hs : 0 < p.scaling) :
    ∃ l, shineOne R p false dt = .ok l ∧ ∀ D v, (D, v) ∈ l ↔ ∃ w, D ∈ R.modes ∧ leptonic D.kind ∧
      partialWidth R p.momentum.abs D = .ok w ∧ 0 < w ∧ v = w / hbarc * (m / p.momentum.t) * p.scaling * dt := by
  refine ⟨_, shineOne_eq h dt, fun D v => ?_⟩
  obtain ⟨a, -, -, -, -, -, -, -, -, md⟩ := h.facts
  rw [emit_mem]
  constructor
  · rintro ⟨w, h1, h2, rfl⟩
    obtain ⟨g1, g2, g3, g4⟩ := (md D w).1 h1
    exact ⟨w, g1, g4, g2, g3, weight_eq h dt w⟩
  · rintro ⟨w, g1, g4, g2, g3, rfl⟩
    refine ⟨w, (md D w).2 ⟨g1, g2, g3, g4⟩, ?_, (weight_eq h dt w).symm⟩
    rw [weight_eq h]
    unfold rate
    have := hbarc_pos; have := h.mass; have := h.energy
    positivity

/-- **C137.** Nothing is written for core particles, for stable particles and for particles whose only open decays
are dileptons. -/
theorem C137_nothing (R : Res) (p : Wid.Part) (core : Bool) (dt : ℝ) (hw : 0 ≤ R.width)
    (hR : ∀ D ∈ R.modes, D.Valid R.mass)
    (h : core = true ∨ R.width < 1 / 100000 ∨
      partialWidths R p.momentum.abs .hadronic R.modes = .ok []) :
    shineOne R p core dt = .ok [] := by
  obtain ⟨a, b, d, ea, eb, ed, -⟩ := C117_branches hw hR p.momentum.abs
  unfold shineOne
  rw [ea, ed]
  change (if (a.length == 0) = true then _ else if (d.length == a.length || R.stable || core) = true then _ else _) = _
  split_ifs with h1 h2
  · rfl
  · rfl
  · exfalso
    apply h2
    rcases h with h | h | h
    · rw [h]; simp
    · have : R.stable = true := decide_eq_true h
      rw [this]; simp
    · have := lengths R.modes ea h ed
      have : d.length = a.length := by simpa using this.symm
      rw [this]; simp

/-- **C137.** The yield is proportional to the time: over any sequence of steps, however short, the weights of a
freely moving resonance add up to the weight of one step of the whole length. -/
theorem C137_additive {R : Res} {p : Wid.Part} {m : ℝ} {had dil : List (Mode × ℝ)}
    (h : Shining R p m had dil) (dts : List ℝ) (hd : ∀ dt ∈ dts, 0 ≤ dt) :
    ∃ l : ℝ → List (Mode × ℝ), (∀ dt, shineOne R p false dt = .ok (l dt)) ∧
      (dts.map fun dt => totalWeight (l dt)).sum =
        totalWeight dil / hbarc * (m / p.momentum.t) * p.scaling * dts.sum := by
  refine ⟨_, fun dt => shineOne_eq h dt, ?_⟩
  obtain ⟨a, -, -, -, -, -, -, pd, -⟩ := h.facts
  have hb := hbarc_pos
  have hr : 0 ≤ 1 / hbarc * (m / p.momentum.t) * p.scaling := by
    have := h.mass; have := h.energy; have := h.scaling
    positivity
  induction dts with
  | nil => simp
  | cons dt l ih =>
    rw [List.map_cons, List.sum_cons, List.sum_cons, ih fun d hd' => hd d (List.mem_cons_of_mem _ hd'),
      emit_total (c := 1 / hbarc * (m / p.momentum.t) * p.scaling * dt)
        (mul_nonneg hr (hd dt List.mem_cons_self)) dil (fun x hx => (pd x hx).le)]
    · ring
    · intro w
      rw [weight_eq h]
      unfold rate
      ring

/-- **C137.** At the end every open dilepton channel of a particle is written with its branching ratio. -/
theorem C137_final {R : Res} {p : Wid.Part} {m : ℝ} {had dil : List (Mode × ℝ)}
    (h : Shining R p m had dil) (onlyRes : Bool) :
    ∃ l, shineFinalOne R p false onlyRes = .ok l ∧
      (∀ D v, (D, v) ∈ l ↔ ∃ w, D ∈ R.modes ∧ leptonic D.kind ∧
        partialWidth R p.momentum.abs D = .ok w ∧ 0 < w ∧ v = w / (totalWeight had + totalWeight dil)) ∧
      totalWeight l = totalWeight dil / (totalWeight had + totalWeight dil) := by
  obtain ⟨a, ea, t, ph, pn, -, -, pd, hm, md⟩ := h.facts
  have hs : R.stable = false := decide_eq_false (not_lt.2 h.unstable)
  have tp : 0 < totalWeight a := by rw [t]; linarith
  refine ⟨emit (fun w => w / totalWeight a) dil, ?_, ?_, ?_⟩
  · unfold shineFinalOne
    rw [if_neg, h.dileptons, ea]
    · rfl
    · rw [hs]
      simpa using hm
  · intro D v
    rw [emit_mem, t]
    rw [t] at tp
    constructor
    · rintro ⟨w, h1, h2, rfl⟩
      obtain ⟨g1, g2, g3, g4⟩ := (md D w).1 h1
      exact ⟨w, g1, g4, g2, g3, rfl⟩
    · rintro ⟨w, g1, g4, g2, g3, rfl⟩
      exact ⟨w, (md D w).2 ⟨g1, g2, g3, g4⟩, div_pos g3 tp, rfl⟩
  · rw [emit_total (c := 1 / totalWeight a) (by positivity) dil (fun x hx => (pd x hx).le), t]
    · ring
    · intro w; ring

/-- **C137.** The last round of the end of the event also covers particles that count as stable, like the η: every
open dilepton channel of any particle that is no core particle is written with its branching ratio. -/
theorem C137_final_stable {R : Res} {p : Wid.Part} {had dil : List (Mode × ℝ)} (hw : 0 ≤ R.width)
    (hR : ∀ D ∈ R.modes, D.Valid R.mass)
    (eh : partialWidths R p.momentum.abs .hadronic R.modes = .ok had)
    (ed : partialWidths R p.momentum.abs .dileptons R.modes = .ok dil) :
    ∃ l, shineFinalOne R p false false = .ok l ∧
      (∀ D v, (D, v) ∈ l ↔ ∃ w, D ∈ R.modes ∧ leptonic D.kind ∧
        partialWidth R p.momentum.abs D = .ok w ∧ 0 < w ∧ v = w / (totalWeight had + totalWeight dil)) ∧
      totalWeight l = totalWeight dil / (totalWeight had + totalWeight dil) := by
  obtain ⟨a, b, d, ea, eb, ed', ma, mb, md, t, -⟩ := C117_branches hw hR p.momentum.abs
  rw [eh] at eb
  rw [ed] at ed'
  cases eb; cases ed'
  have pd : ∀ x ∈ dil, 0 < x.2 := fun x hx => ((md x.1 x.2).1 hx).2.2.1
  have pa : 0 ≤ totalWeight a := by
    unfold totalWeight
    apply List.sum_nonneg
    intro x hx
    obtain ⟨y, hy, rfl⟩ := List.mem_map.1 hx
    exact ((ma y.1 y.2).1 hy).2.2.le
  have t : totalWeight a = totalWeight had + totalWeight dil := t
  refine ⟨emit (fun w => w / totalWeight a) dil, ?_, ?_, ?_⟩
  · unfold shineFinalOne
    by_cases h0 : R.modes = []
    · have : dil = [] := by
        rw [h0, partialWidths] at ed
        cases ed; rfl
      rw [if_pos (by simp [h0]), this]
      rfl
    · rw [if_neg (by simpa using h0), ed, ea]
      rfl
  · intro D v
    rw [emit_mem]
    constructor
    · rintro ⟨w, h1, h2, rfl⟩
      obtain ⟨g1, g2, g3, g4⟩ := (md D w).1 h1
      exact ⟨w, g1, g4, g2, g3, by rw [t]⟩
    · rintro ⟨w, g1, g4, g2, g3, rfl⟩
      have hm := (md D w).2 ⟨g1, g2, g3, g4⟩
      have hp : 0 < totalWeight a := by
        have := sum_pos_of (fun x hx => ((ma x.1 x.2).1 hx).2.2)
          (List.ne_nil_of_mem ((ma D w).2 ⟨g1, g2, g3⟩))
        exact this
      exact ⟨w, hm, div_pos g3 hp, by rw [t]⟩
  · rw [emit_total (c := 1 / totalWeight a) (by positivity) dil (fun x hx => (pd x hx).le), t]
    · ring
    · intro w; ring

theorem integral_life {k a : ℝ} (hk : k ≠ 0) (T : ℝ) :
    ∫ t in (0 : ℝ)..T, k * Real.exp (-(k * t)) * (a * t) =
      a / k * (1 - Real.exp (-(k * T))) - a * T * Real.exp (-(k * T)) := by
  have hd : ∀ t ∈ Set.uIcc 0 T, HasDerivAt
      (fun t => -(a / k) * Real.exp (-(k * t)) - a * t * Real.exp (-(k * t)))
      (k * Real.exp (-(k * t)) * (a * t)) t := by
    intro t _
    have e : HasDerivAt (fun t => Real.exp (-(k * t))) (Real.exp (-(k * t)) * (-k)) t := by
      have := ((hasDerivAt_id t).const_mul k).neg.exp
      simpa using this
    have l : HasDerivAt (fun t : ℝ => a * t) a t := by simpa using (hasDerivAt_id t).const_mul a
    refine ((e.const_mul (-(a / k))).sub (l.mul e)).congr_deriv ?_
    field_simp
    ring
  rw [intervalIntegral.integral_eq_sub_of_hasDerivAt hd]
  · simp
    ring
  · apply Continuous.intervalIntegrable
    fun_prop

/-- **C137.** The mean dilepton yield of a formed resonance. It decays with the rate λ = Γ_had/ħ·(m/E)/F of `C120`, with the
lifetime factor F, shines until then or until the end of the event at T, and shines once more with the
branching ratio if it is still there. In the mean this gives F·Γ_dil/Γ_had for the decays before T and
Γ_dil/Γ_tot for the ones after it. -/
theorem C137_yield {R : Res} {p : Wid.Part} {m : ℝ} {had dil : List (Mode × ℝ)}
    (h : Shining R p m had dil) (hs : p.scaling = 1) {F T : ℝ} (hF : 0 < F) (hT : 0 ≤ T)
    {l : ℝ → List (Mode × ℝ)} {f : List (Mode × ℝ)} (hl : ∀ t, shineOne R p false t = .ok (l t))
    (hf : shineFinalOne R p false true = .ok f) :
    let lam := rate (totalWeight had) m p.momentum.t / F
    (∫ t in (0 : ℝ)..T, lam * Real.exp (-(lam * t)) * totalWeight (l t)) +
        Real.exp (-(lam * T)) * (totalWeight (l T) + totalWeight f) =
      F * totalWeight dil / totalWeight had * (1 - Real.exp (-(lam * T))) +
        totalWeight dil / (totalWeight had + totalWeight dil) * Real.exp (-(lam * T)) := by
  intro lam
  obtain ⟨a, ea, t, ph, pn, -, -, pd, hm, md⟩ := h.facts
  obtain ⟨f', hf', -, tf⟩ := C137_final h true
  rw [hf] at hf'
  cases hf'
  have hb := hbarc_pos
  have hE := h.energy
  have hM := h.mass
  have lt : ∀ t, 0 ≤ t → totalWeight (l t) = rate (totalWeight dil) m p.momentum.t * t := by
    intro t ht
    have e := hl t
    rw [shineOne_eq h] at e
    rw [← Except.ok.inj e, emit_total (c := 1 / hbarc * (m / p.momentum.t) * t) (by positivity) dil (fun x hx => (pd x hx).le)]
    · unfold rate; ring
    · intro w
      rw [weight_eq h, hs]
      unfold rate
      ring
  have kp : 0 < lam := by
    simp only [lam, rate]
    positivity
  have ei : (∫ t in (0 : ℝ)..T, lam * Real.exp (-(lam * t)) * totalWeight (l t)) =
      ∫ t in (0 : ℝ)..T, lam * Real.exp (-(lam * t)) * (rate (totalWeight dil) m p.momentum.t * t) := by
    apply intervalIntegral.integral_congr
    intro t ht
    rw [Set.uIcc_of_le hT] at ht
    simp only
    rw [lt t ht.1]
  have er : rate (totalWeight dil) m p.momentum.t / lam = F * totalWeight dil / totalWeight had := by
    simp only [lam, rate]
    field_simp
  rw [ei, integral_life kp.ne', lt T hT, tf, er]
  ring

/-- **C137.** So the mean yield of resonances that decay in the event is not the branching ratio but larger, as the
lifetimes are drawn from the hadronic width alone. -/
theorem C137_yield_false {R : Res} {p : Wid.Part} {m : ℝ} {had dil : List (Mode × ℝ)}
    (h : Shining R p m had dil) (hs : p.scaling = 1) {T : ℝ} (hT : 0 < T) (hd : dil ≠ [])
    {l : ℝ → List (Mode × ℝ)} {f : List (Mode × ℝ)} (hl : ∀ t, shineOne R p false t = .ok (l t))
    (hf : shineFinalOne R p false true = .ok f) :
    let lam := rate (totalWeight had) m p.momentum.t
    totalWeight dil / (totalWeight had + totalWeight dil) <
      (∫ t in (0 : ℝ)..T, lam * Real.exp (-(lam * t)) * totalWeight (l t)) +
        Real.exp (-(lam * T)) * (totalWeight (l T) + totalWeight f) := by
  intro lam
  have := C137_yield h hs one_pos hT.le hl hf
  simp only [div_one, one_mul] at this
  change _ = _ at this
  rw [this]
  obtain ⟨a, ea, t, ph, pn, -, -, pd, hm, md⟩ := h.facts
  have dp := sum_pos_of pd hd
  have kp : 0 < lam := by
    have := hbarc_pos; have := h.energy; have := h.mass
    simp only [lam, rate]
    positivity
  have e1 : Real.exp (-(lam * T)) < 1 := by
    rw [Real.exp_lt_one_iff]
    have : 0 < lam * T := by positivity
    linarith
  have lt : totalWeight dil / (totalWeight had + totalWeight dil) < totalWeight dil / totalWeight had :=
    div_lt_div_of_pos_left dp ph (by linarith)
  change _ < _ * (1 - Real.exp (-(lam * T))) + _ * Real.exp (-(lam * T))
  nlinarith

/-- A resonance of mass 1 with a hadronic and a Dalitz decay. -/
noncomputable def omega : Res :=
  ⟨1, 1 / 10, [⟨1 / 5, 9 / 10, .threeBody⟩, ⟨1 / 100, 1 / 10, .dalitz true fun _ => 0⟩]⟩

/-- A concrete resonance that shines. -/
example : Shining omega ⟨⟨1, 0, 0, 0⟩, 0, 1, 0, 0⟩ 1 [(⟨1 / 5, 9 / 10, .threeBody⟩, 9 / 100)]
    [(⟨1 / 100, 1 / 10, .dalitz true fun _ => 0⟩, 1 / 100)] := by
  have ab : V4.abs ⟨1, 0, 0, 0⟩ = 1 := by
    unfold V4.abs V4.sqr V4.dot V3.dot V4.vec
    norm_num
  have w1 : partialWidth omega 1 ⟨1 / 5, 9 / 10, .threeBody⟩ = .ok (9 / 100) := by
    unfold partialWidth Wid.width omega
    rw [if_neg (by norm_num)]
    norm_num
  have w2 : partialWidth omega 1 ⟨1 / 100, 1 / 10, .dalitz true fun _ => 0⟩ = .ok (1 / 100) := by
    unfold partialWidth Wid.width omega
    rw [if_neg (by norm_num)]
    norm_num
  have pw : ∀ wh, partialWidths omega 1 wh omega.modes = .ok
      ((if wanted ⟨1 / 5, 9 / 10, .threeBody⟩ wh = true then [(⟨1 / 5, 9 / 10, .threeBody⟩, 9 / 100)] else []) ++
      (if wanted ⟨1 / 100, 1 / 10, .dalitz true fun _ => 0⟩ wh = true
        then [(⟨1 / 100, 1 / 10, .dalitz true fun _ => 0⟩, 1 / 100)] else [])) := by
    intro wh
    change partialWidths omega 1 wh [_, _] = _
    rw [partialWidths, partialWidths, partialWidths, w1, w2]
    change Except.ok _ = _
    cases wh <;> norm_num [wanted, Kind.isDilepton]
  refine ⟨by norm_num [omega, cutoff], ?_, by norm_num, by norm_num, by unfold V3.dot; norm_num [V4.vec], ?_, ?_,
    by simp, by norm_num⟩
  · intro D hD
    change D ∈ [_, _] at hD
    simp only [List.mem_cons, List.not_mem_nil, or_false] at hD
    rcases hD with rfl | rfl <;> norm_num [Mode.Valid, omega]
  · rw [ab, pw]; rfl
  · rw [ab, pw]; rfl

/-! ### The end of the event -/

/-- How often a particle with decay modes that is not a core particle shines at the end. -/
def times (F : Finder) (x : Fin) : ℕ :=
  if x.modes = false ∨ x.core = true then 0
  else if F.findFinal = false then (if x.stable then 1 else 2)
  else if F.nonStrong = true then (if x.stable then 0 else 1)
  else 1

theorem sum_filter (f : Fin → ℕ) (q : Fin → Bool) (l : List Fin) :
    ((l.filter q).map f).sum = (l.map fun x => if q x = true then f x else 0).sum := by
  induction l with
  | nil => rfl
  | cons x l ih =>
    rw [List.filter_cons]
    split_ifs with h
    · simp [ih, h]
    · simp [ih, h]

theorem sum_replace (F : Finder) (prod : ℕ → Fin → List Fin) (g : Fin → ℕ) (i : ℕ) (l : List Fin) :
    ((replace F prod i l).map g).sum + (l.map fun x => if decays F x = true then g x else 0).sum =
      (l.map g).sum + ((products F prod i l).map g).sum := by
  induction l generalizing i with
  | nil => rfl
  | cons x l ih =>
    rw [replace, products]
    simp only [List.map_append, List.sum_append, List.map_cons, List.sum_cons]
    have := ih (i + 1)
    split_ifs with h
    · omega
    · simp; omega

theorem rounds_sum (F : Finder) (hF : F.findFinal = true) (prod : ℕ → ℕ → Fin → List Fin) (f : Fin → ℕ)
    (n r : ℕ) (ps : List Fin) {s q e : List Fin} (h : rounds F prod n r ps = some (s, q, e)) :
    (s.map f).sum + ((e.filter (shines false)).map f).sum =
      ((ps ++ q).map fun x => times F x * f x).sum := by
  have key : ∀ x, (if shines true x = true then f x else 0) =
      if decays F x = true then times F x * f x else 0 := by
    intro x
    unfold shines decays times
    rw [hF]
    cases x.modes <;> cases x.stable <;> cases x.core <;> cases F.nonStrong <;> simp
  have key2 : ∀ x, decays F x = false →
      (if shines true x = true then f x else 0) + (if shines false x = true then f x else 0) = times F x * f x := by
    intro x
    unfold shines decays times
    rw [hF]
    cases x.modes <;> cases x.stable <;> cases x.core <;> cases F.nonStrong <;> simp
  induction n generalizing r ps s q e with
  | zero => cases h
  | succ n ih =>
    rw [rounds] at h
    split_ifs at h with hany
    · cases hr : rounds F prod n (r + 1) (replace F (prod r) 0 ps) with
      | none => rw [hr] at h; cases h
      | some t =>
        obtain ⟨s', q', e'⟩ := t
        rw [hr] at h
        cases h
        have i := ih _ _ hr
        have sr := sum_replace F (prod r) (fun x => times F x * f x) 0 ps
        rw [List.map_append, List.sum_append] at i
        rw [List.map_append, List.sum_append, sum_filter]
        simp only [List.map_append, List.sum_append]
        simp only [key]
        omega
    · cases h
      rw [List.append_nil, sum_filter, sum_filter]
      have hn : ∀ x ∈ ps, decays F x = false := by
        intro x hx
        by_contra hc
        rw [Bool.not_eq_false] at hc
        exact hany (List.any_eq_true.2 ⟨x, hx, hc⟩)
      clear hany ih
      induction ps with
      | nil => rfl
      | cons x l ih =>
        have i := ih fun y hy => hn y (List.mem_cons_of_mem _ hy)
        have k := key2 x (hn x List.mem_cons_self)
        simp only [List.map_cons, List.sum_cons]
        omega

/-- **C137.** At the end of an event, whatever the decays give: of all particles there, and of all that come from
their decays, each one with decay modes shines the number of times given by `times`. As this holds for every `f`, it
is a statement about each single particle. -/
theorem C137_final_count (F : Finder) (prod : ℕ → ℕ → Fin → List Fin) (f : Fin → ℕ) (n : ℕ)
    (ps : List Fin) {s q : List Fin} (h : doFinal F prod n ps = some (s, q)) :
    (s.map f).sum = ((ps ++ q).map fun x => times F x * f x).sum := by
  unfold doFinal at h
  cases hr : rounds F prod n 0 ps with
  | none => rw [hr] at h; cases h
  | some t =>
    obtain ⟨s', q', e'⟩ := t
    rw [hr] at h
    cases h
    simp only [List.map_append, List.sum_append]
    by_cases hF : F.findFinal = true
    · rw [rounds_sum F hF prod f n 0 ps hr, List.map_append, List.sum_append]
    · rw [Bool.not_eq_true] at hF
      cases n with
      | zero => cases hr
      | succ n =>
        rw [rounds, if_neg] at hr
        · cases hr
          rw [sum_filter, sum_filter]
          have key : ∀ x, (if shines true x = true then f x else 0) +
              (if shines false x = true then f x else 0) = times F x * f x := by
            intro x
            unfold shines times
            rw [hF]
            cases x.modes <;> cases x.stable <;> cases x.core <;> simp
            omega
          induction ps with
          | nil => rfl
          | cons x l ih =>
            have k := key x
            simp only [List.map_cons, List.sum_cons, List.map_nil, List.sum_nil] at *
            omega
        · intro hc
          obtain ⟨x, -, hx⟩ := List.any_eq_true.1 hc
          unfold decays at hx
          rw [hF] at hx
          simp at hx

/-- **C137.** If the resonances are forced to decay by the strong interaction, every particle with decay modes
that is not in the core shines exactly once at the end, and no other particle. -/
theorem C137_once_partial (F : Finder) (hF : F.findFinal = true) (hn : F.nonStrong = false)
    (prod : ℕ → ℕ → Fin → List Fin) (f : Fin → ℕ) (n : ℕ)
    (ps : List Fin) {s q : List Fin} (h : doFinal F prod n ps = some (s, q)) :
    (s.map f).sum = ((ps ++ q).map fun x => if x.modes = true ∧ x.core = false then f x else 0).sum := by
  rw [C137_final_count F prod f n ps h]
  congr 2
  funext x
  unfold times
  rw [hF, hn]
  cases x.modes <;> cases x.core <;> simp

/-- A resonance and a stable particle with decay modes. -/
def rho : Fin := ⟨true, false, false, 0⟩
/-- A stable particle with decay modes, like a π⁰. -/
def pi0 : Fin := ⟨true, true, false, 1⟩

/-- **C137.** If final decays are not forced, the resonances that are left shine twice; and if weak and
electromagnetic decays are forced as well, the particles that decay by them do not shine at all. -/
theorem C137_once_false :
    (∃ F : Finder, F.findFinal = false ∧ ∀ prod, doFinal F prod 1 [rho] = some ([rho, rho], [])) ∧
    (∃ F : Finder, F.findFinal = true ∧ F.nonStrong = true ∧
      doFinal F (fun _ _ _ => []) 2 [pi0] = some ([], [])) :=
  ⟨⟨⟨1, true, false, false⟩, rfl, fun _ => rfl⟩, ⟨⟨1, true, true, true⟩, rfl, rfl, rfl⟩⟩

/-- A chain: a resonance decays into a resonance and a stable particle, which goes on to two stable ones. -/
example : doFinal ⟨1, true, true, false⟩ (fun r _ _ => if r = 0 then [rho, pi0] else [pi0, pi0]) 5 [rho] =
    some ([rho, rho, pi0, pi0, pi0], [rho, pi0, pi0, pi0]) := rfl

end Verif.Em
