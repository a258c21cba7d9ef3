import Verif.Resc.Model
import Mathlib.Algebra.BigOperators.Group.List.Basic
import Mathlib.Algebra.Order.Archimedean.Basic
import Mathlib.Algebra.Order.BigOperators.Group.List
import Mathlib.Tactic.Linarith
import Mathlib.Tactic.FieldSimp
import Mathlib.Tactic.Ring
import Mathlib.Tactic.NormNum
import Mathlib.Tactic.Positivity
/-
C175: the momenta of the partons after the change of flavours.
-/
namespace Verif.Resc

/-- Specification: on the mass shell. -/
def OnShell (q : Part) : Prop := 0 ≤ q.m ∧ 0 ≤ q.e ∧ q.e ^ 2 = q.m ^ 2 + (q.px ^ 2 + q.py ^ 2 + q.pz ^ 2)

/-- Specification: the same parton with its momentum multiplied by a number. -/
def Scaled (f : ℝ) (q r : Part) : Prop := r.m = q.m ∧ r.px = f * q.px ∧ r.py = f * q.py ∧ r.pz = f * q.pz

/-- Specification: the sum of the masses. -/
def masses (l : List Part) : ℝ := (l.map Part.m).sum

theorem pAbs2_nonneg (q : Part) : 0 ≤ q.pAbs2 := by
  unfold Part.pAbs2; nlinarith [mul_self_nonneg q.px, mul_self_nonneg q.py, mul_self_nonneg q.pz]

theorem pAbs_sq (q : Part) : q.pAbs * q.pAbs = q.pAbs2 := Real.mul_self_sqrt (pAbs2_nonneg q)

theorem pAbs_nonneg (q : Part) : 0 ≤ q.pAbs := Real.sqrt_nonneg _

theorem rescale_scaled (f : ℝ) (q : Part) : Scaled f q (rescale f q) := ⟨rfl, rfl, rfl, rfl⟩

theorem rescale_e_sq (f : ℝ) (q : Part) : (rescale f q).e ^ 2 = q.m ^ 2 + f ^ 2 * q.pAbs2 := by
  have h : 0 ≤ q.m * q.m + f * q.pAbs * (f * q.pAbs) := by nlinarith [mul_self_nonneg q.m, mul_self_nonneg (f * q.pAbs)]
  show (Real.sqrt _) ^ 2 = _
  rw [Real.sq_sqrt h, ← pAbs_sq]; ring

theorem rescale_e_nonneg (f : ℝ) (q : Part) : 0 ≤ (rescale f q).e := Real.sqrt_nonneg _

theorem rescale_pAbs2 (f : ℝ) (q : Part) : (rescale f q).pAbs2 = f ^ 2 * q.pAbs2 := by
  simp only [Part.pAbs2, rescale]; ring

theorem rescale_pAbs {f : ℝ} (hf : 0 ≤ f) (q : Part) : (rescale f q).pAbs = f * q.pAbs := by
  unfold Part.pAbs
  rw [rescale_pAbs2, Real.sqrt_mul (sq_nonneg f), Real.sqrt_sq hf]

theorem rescale_onShell {f : ℝ} {q : Part} (h : 0 ≤ q.m) : OnShell (rescale f q) := by
  refine ⟨h, rescale_e_nonneg f q, ?_⟩
  rw [rescale_e_sq]
  simp only [Part.pAbs2, rescale]
  ring

theorem rescale_comp {f g : ℝ} {q r s : Part} (h : Scaled f q r) (h' : Scaled g r s) : Scaled (g * f) q s := by
  obtain ⟨a1, a2, a3, a4⟩ := h
  obtain ⟨b1, b2, b3, b4⟩ := h'
  refine ⟨b1.trans a1, ?_, ?_, ?_⟩
  · rw [b2, a2]; ring
  · rw [b3, a3]; ring
  · rw [b4, a4]; ring

theorem onShell_sq {q : Part} (h : OnShell q) : q.e ^ 2 = q.m ^ 2 + q.pAbs2 := by
  rw [h.2.2]; unfold Part.pAbs2; ring

theorem e_ge_m {q : Part} (h : OnShell q) : q.m ≤ q.e :=
  le_of_sq_le_sq (by rw [onShell_sq h]; linarith [pAbs2_nonneg q]) h.2.1 
where le_of_sq_le_sq {a b : ℝ} (h : a ^ 2 ≤ b ^ 2) (hb : 0 ≤ b) : a ≤ b := abs_le_of_sq_le_sq' h hb |>.2

/-- The tangent of the energy of a parton lies below it. -/
theorem tangent {q : Part} (h : OnShell q) (h0 : q.e ≠ 0) (f : ℝ) : q.e + (f - 1) * (q.pAbs2 / q.e) ≤ (rescale f q).e := by
  have he : 0 < q.e := lt_of_le_of_ne h.2.1 (Ne.symm h0)
  have h1 : q.e + (f - 1) * (q.pAbs2 / q.e) = (q.m ^ 2 + f * q.pAbs2) / q.e := by
    field_simp
    rw [onShell_sq h]
    ring
  rw [h1, div_le_iff₀ he]
  have h2 : (q.m ^ 2 + f * q.pAbs2) ^ 2 ≤ ((rescale f q).e * q.e) ^ 2 := by
    rw [mul_pow, rescale_e_sq, onShell_sq h]
    nlinarith [mul_nonneg (sq_nonneg (q.m * (1 - f))) (pAbs2_nonneg q)]
  exact (abs_le_of_sq_le_sq' h2 (mul_nonneg (rescale_e_nonneg f q) he.le)).2

theorem energy_ge {f : ℝ} : ∀ {l : List Part}, (∀ q ∈ l, OnShell q) → (∀ q ∈ l, q.e ≠ 0) →
    energy l + (f - 1) * slope l ≤ energy (l.map (rescale f)) := by
  intro l
  induction l with
  | nil => intro _ _; simp [energy, slope]
  | cons q l ih =>
    intro h h0
    have h1 := tangent (h q (by simp)) (h0 q (by simp)) f
    have h2 := ih (fun r hr => h r (List.mem_cons_of_mem _ hr)) (fun r hr => h0 r (List.mem_cons_of_mem _ hr))
    simp only [energy, slope, List.map_cons, List.sum_cons] at *
    linarith

theorem energy_sub_slope_le : ∀ {l : List Part}, (∀ q ∈ l, OnShell q) → (∀ q ∈ l, q.e ≠ 0) → energy l - slope l ≤ masses l := by
  intro l
  induction l with
  | nil => intro _ _; simp [energy, slope, masses]
  | cons q l ih =>
    intro h h0
    have hq := h q (by simp)
    have he : 0 < q.e := lt_of_le_of_ne hq.2.1 (Ne.symm (h0 q (by simp)))
    have h1 : q.e - q.pAbs2 / q.e ≤ q.m := by
      have : q.e - q.pAbs2 / q.e = q.m ^ 2 / q.e := by
        field_simp
        rw [onShell_sq hq]; ring
      rw [this, div_le_iff₀ he]
      nlinarith [e_ge_m hq, hq.1]
    have h2 := ih (fun r hr => h r (List.mem_cons_of_mem _ hr)) (fun r hr => h0 r (List.mem_cons_of_mem _ hr))
    simp only [energy, slope, masses, List.map_cons, List.sum_cons] at *
    linarith

/-- The sum of the absolute values of the momenta. -/
noncomputable def absSum (l : List Part) : ℝ := (l.map Part.pAbs).sum

theorem absSum_nonneg (l : List Part) : 0 ≤ absSum l := by
  apply List.sum_nonneg
  intro x hx
  obtain ⟨q, -, rfl⟩ := List.mem_map.1 hx
  exact pAbs_nonneg q

theorem slope_le : ∀ {l : List Part}, (∀ q ∈ l, OnShell q) → (∀ q ∈ l, q.e ≠ 0) → slope l ≤ absSum l := by
  intro l
  induction l with
  | nil => intro _ _; simp [absSum, slope]
  | cons q l ih =>
    intro h h0
    have hq := h q (by simp)
    have he : 0 < q.e := lt_of_le_of_ne hq.2.1 (Ne.symm (h0 q (by simp)))
    have h1 : q.pAbs2 / q.e ≤ q.pAbs := by
      rw [div_le_iff₀ he, ← pAbs_sq]
      have : q.pAbs ≤ q.e := (abs_le_of_sq_le_sq' (by rw [onShell_sq hq, sq q.pAbs, pAbs_sq]; nlinarith [sq_nonneg q.m]) hq.2.1).2
      exact mul_le_mul_of_nonneg_left this (pAbs_nonneg q)
    have h2 := ih (fun r hr => h r (List.mem_cons_of_mem _ hr)) (fun r hr => h0 r (List.mem_cons_of_mem _ hr))
    simp only [absSum, slope, List.map_cons, List.sum_cons] at *
    linarith

theorem absSum_rescale {f : ℝ} (hf : 0 ≤ f) : ∀ l : List Part, absSum (l.map (rescale f)) = f * absSum l := by
  intro l
  induction l with
  | nil => simp [absSum]
  | cons q l ih => 
    simp only [absSum, List.map_cons, List.sum_cons, rescale_pAbs hf] at *
    rw [ih]; ring

theorem masses_rescale (f : ℝ) (l : List Part) : masses (l.map (rescale f)) = masses l := by
  simp [masses, rescale, Function.comp_def]

theorem slope_pos : ∀ {l : List Part}, (∀ q ∈ l, OnShell q) → (∀ q ∈ l, q.e ≠ 0) → (∃ q ∈ l, q.pAbs2 ≠ 0) → 0 < slope l := by
  intro l h h0 ⟨q, hq, hp⟩
  have hnn : ∀ x ∈ l.map (fun q => q.pAbs2 / q.e), 0 ≤ x := by
    intro x hx
    obtain ⟨r, hr, rfl⟩ := List.mem_map.1 hx
    exact div_nonneg (pAbs2_nonneg r) (h r hr).2.1
  have hle := List.single_le_sum hnn _ (List.mem_map.2 ⟨q, hq, rfl⟩)
  have he : 0 < q.e := lt_of_le_of_ne (h q hq).2.1 (Ne.symm (h0 q hq))
  have hpp : 0 < q.pAbs2 := lt_of_le_of_ne (pAbs2_nonneg q) (Ne.symm hp)
  exact lt_of_lt_of_le (div_pos hpp he) hle

/-- What the loop keeps: partons on the shell with positive energy, some of them moving. -/
structure Ok (l : List Part) : Prop where
  shell : ∀ q ∈ l, OnShell q
  pos : ∀ q ∈ l, q.e ≠ 0
  moving : ∃ q ∈ l, q.pAbs2 ≠ 0

theorem Ok.step {l : List Part} (h : Ok l) {f : ℝ} (hf : 0 < f) : Ok (l.map (rescale f)) := by
  refine ⟨fun r hr => ?_, fun r hr => ?_, ?_⟩
  · obtain ⟨q, hq, rfl⟩ := List.mem_map.1 hr
    exact rescale_onShell (h.shell q hq).1
  · obtain ⟨q, hq, rfl⟩ := List.mem_map.1 hr
    intro h0
    have h1 := rescale_e_sq f q
    rw [h0] at h1
    have h2 := onShell_sq (h.shell q hq)
    have h3 : 0 < q.e ^ 2 := by have := h.pos q hq; positivity
    have hf2 : 0 < f ^ 2 := by positivity
    have h4 : q.pAbs2 = 0 := by
      by_contra hne
      have : 0 < q.pAbs2 := lt_of_le_of_ne (pAbs2_nonneg q) (Ne.symm hne)
      nlinarith [sq_nonneg q.m, mul_pos hf2 this]
    nlinarith
  · obtain ⟨q, hq, hp⟩ := h.moving
    refine ⟨_, List.mem_map_of_mem hq, ?_⟩
    rw [rescale_pAbs2]
    exact mul_ne_zero (by positivity) hp

theorem factor_pos {l : List Part} (h : Ok l) {e0 : ℝ} (hm : masses l < e0) : 0 < 1 + (e0 - energy l) / slope l := by
  have hs := slope_pos h.shell h.pos h.moving
  have h1 := energy_sub_slope_le h.shell h.pos
  have : 1 + (e0 - energy l) / slope l = (slope l + (e0 - energy l)) / slope l := by field_simp
  rw [this]
  exact div_pos (by linarith) hs

theorem masses_nonneg {l : List Part} (h : Ok l) : 0 ≤ masses l := by
  apply List.sum_nonneg
  intro x hx
  obtain ⟨q, hq, rfl⟩ := List.mem_map.1 hx
  exact (h.shell q hq).1

/-- With too much energy the loop ends, as the sum of the momenta becomes smaller by at least the tolerance. -/
theorem loop_high {e0 : ℝ} (h0 : 0 < e0) : ∀ (n : Nat) {l : List Part}, Ok l → masses l < e0 → e0 ≤ energy l →
    absSum l ≤ n * (reallySmall * e0) → ∃ l', loop (n + 1) e0 (energy l) l = some l' := by
  have hd : 0 < reallySmall * e0 := mul_pos (by unfold reallySmall; norm_num) h0
  intro n
  induction n with
  | zero =>
    intro l h hm he ha
    exfalso
    have h1 := slope_pos h.shell h.pos h.moving
    have h2 := slope_le h.shell h.pos
    simp at ha
    linarith
  | succ n ih =>
    intro l h hm he ha
    rw [loop]
    by_cases hc : |energy l - e0| ≤ |reallySmall * e0|
    · exact ⟨l, by rw [if_pos hc]⟩
    · have hs := slope_pos h.shell h.pos h.moving
      rw [if_neg hc, if_neg (by
        push Not
        exact ⟨hs.ne', h.pos⟩)]
      rw [abs_of_nonneg (by linarith), abs_of_pos hd] at hc
      push Not at hc
      have hf := factor_pos h hm
      set f := 1 + (e0 - energy l) / slope l with hfdef
      have hfs : (f - 1) * slope l = e0 - energy l := by rw [hfdef]; field_simp; ring
      refine ih (h.step hf) (by rw [masses_rescale]; exact hm) ?_ ?_
      · have := @energy_ge f l h.shell h.pos
        linarith
      · rw [absSum_rescale hf.le]
        have h2 := slope_le h.shell h.pos
        have hf1 : f - 1 ≤ 0 := by
          by_contra hneg
          push Not at hneg
          have := mul_pos hneg hs
          linarith
        have h3 : (f - 1) * absSum l ≤ (f - 1) * slope l := mul_le_mul_of_nonpos_left h2 hf1
        push_cast at ha
        nlinarith

/-- **C175** With partons on the mass shell of which one moves, and an initial energy above the sum of the masses, the loop ends. -/
theorem C175_ends {e0 : ℝ} {l : List Part} (hs : ∀ q ∈ l, OnShell q ∧ 0 < q.e) (hm : ∃ q ∈ l, q.px ≠ 0 ∨ q.py ≠ 0 ∨ q.pz ≠ 0)
    (he : masses l < e0) : ∃ fuel l', loop fuel e0 (energy l) l = some l' := by
  have h : Ok l := by
    refine ⟨fun q hq => (hs q hq).1, fun q hq => (hs q hq).2.ne', ?_⟩
    obtain ⟨q, hq, hp⟩ := hm
    refine ⟨q, hq, fun h => ?_⟩
    unfold Part.pAbs2 at h
    have h1 : q.px * q.px = 0 := by nlinarith [mul_self_nonneg q.px, mul_self_nonneg q.py, mul_self_nonneg q.pz]
    have h2 : q.py * q.py = 0 := by nlinarith [mul_self_nonneg q.px, mul_self_nonneg q.py, mul_self_nonneg q.pz]
    have h3 : q.pz * q.pz = 0 := by nlinarith [mul_self_nonneg q.px, mul_self_nonneg q.py, mul_self_nonneg q.pz]
    simp at h1 h2 h3
    simp [h1, h2, h3] at hp
  have h0 : 0 < e0 := lt_of_le_of_lt (masses_nonneg h) he
  have hd : 0 < reallySmall * e0 := mul_pos (by unfold reallySmall; norm_num) h0
  have hsl := slope_pos h.shell h.pos h.moving
  have hf := factor_pos h he
  set f := 1 + (e0 - energy l) / slope l with hfdef
  obtain ⟨n, hn⟩ := exists_nat_ge (absSum (l.map (rescale f)) / (reallySmall * e0))
  rw [div_le_iff₀ hd] at hn
  by_cases hc : |energy l - e0| ≤ |reallySmall * e0|
  · exact ⟨1, l, by rw [loop, if_pos hc]⟩
  · have hfs : (f - 1) * slope l = e0 - energy l := by rw [hfdef]; field_simp; ring
    obtain ⟨l', hl'⟩ := loop_high h0 n (h.step hf) (by rw [masses_rescale]; exact he) (by
      have := @energy_ge f l h.shell h.pos
      linarith) hn
    refine ⟨n + 2, l', ?_⟩
    rw [loop, if_neg hc, if_neg (by push Not; exact ⟨hsl.ne', h.pos⟩)]
    exact hl'

/-- **C175** At the end all momenta are multiplied by one number, the masses are the same, each parton is on the mass shell if all were,
and the energy is the initial one up to the tolerance of 10⁻⁶. -/
theorem C175_result : ∀ {fuel : Nat} {e0 : ℝ} {l l' : List Part}, loop fuel e0 (energy l) l = some l' →
    (∃ f, List.Forall₂ (Scaled f) l l') ∧ ((∀ q ∈ l, OnShell q) → ∀ q ∈ l', OnShell q) ∧ |energy l' - e0| ≤ 1 / 10 ^ 6 * |e0| := by
  intro fuel
  induction fuel with
  | zero => intro e0 l l' h; cases h
  | succ n ih =>
    intro e0 l l' h
    rw [loop] at h
    by_cases hc : |energy l - e0| ≤ |reallySmall * e0|
    · rw [if_pos hc] at h
      cases h
      refine ⟨⟨1, ?_⟩, id, ?_⟩
      · rw [List.forall₂_same]
        exact fun q _ => ⟨rfl, (one_mul _).symm, (one_mul _).symm, (one_mul _).symm⟩
      · rw [abs_mul, abs_of_pos (show (0 : ℝ) < reallySmall by unfold reallySmall; norm_num)] at hc
        exact hc
    · rw [if_neg hc] at h
      by_cases hz : slope l = 0 ∨ ∃ q ∈ l, q.e = 0
      · rw [if_pos hz] at h; cases h
      · rw [if_neg hz] at h
        obtain ⟨⟨g, hg⟩, h2, h3⟩ := ih h
        set f := 1 + (e0 - energy l) / slope l
        refine ⟨⟨g * f, ?_⟩, fun hs => h2 ?_, h3⟩
        · rw [List.forall₂_map_left_iff] at hg
          exact hg.imp fun q r hqr => rescale_comp (rescale_scaled f q) hqr
        · intro r hr
          obtain ⟨q, hq, rfl⟩ := List.mem_map.1 hr
          exact rescale_onShell (hs q hq).1

theorem sum_scaled {f : ℝ} {l l' : List Part} (h : List.Forall₂ (Scaled f) l l') :
    (l'.map Part.px).sum = f * (l.map Part.px).sum ∧ (l'.map Part.py).sum = f * (l.map Part.py).sum ∧
    (l'.map Part.pz).sum = f * (l.map Part.pz).sum := by
  induction h with
  | nil => simp
  | cons h _ ih =>
    obtain ⟨h1, h2, h3⟩ := ih
    simp only [List.map_cons, List.sum_cons, h1, h2, h3, h.2.1, h.2.2.1, h.2.2.2]
    refine ⟨?_, ?_, ?_⟩ <;> ring

/-- **C175** In the centre-of-momentum frame the total momentum stays zero. -/
theorem C175_frame {fuel : Nat} {e0 : ℝ} {l l' : List Part} (h : loop fuel e0 (energy l) l = some l')
    (hx : (l.map Part.px).sum = 0) (hy : (l.map Part.py).sum = 0) (hz : (l.map Part.pz).sum = 0) :
    (l'.map Part.px).sum = 0 ∧ (l'.map Part.py).sum = 0 ∧ (l'.map Part.pz).sum = 0 := by
  obtain ⟨⟨f, hf⟩, -, -⟩ := C175_result h
  obtain ⟨h1, h2, h3⟩ := sum_scaled hf
  rw [h1, h2, h3, hx, hy, hz]
  simp

theorem energy_ge_masses {l : List Part} (h : ∀ q ∈ l, OnShell q) : masses l ≤ energy l := by
  unfold masses energy
  exact List.sum_le_sum fun q hq => e_ge_m (h q hq)

/-- **C175** fails in one respect: partons that are heavier together than the initial energy (after a change to heavy flavours) are
not refused, the loop does not end. -/
theorem C175_heavy_false {e0 : ℝ} : ∀ (fuel : Nat) {l : List Part}, (∀ q ∈ l, OnShell q) → e0 + 1 / 10 ^ 6 * |e0| < masses l →
    loop fuel e0 (energy l) l = none := by
  intro fuel
  induction fuel with
  | zero => intro l _ _; rfl
  | succ n ih =>
    intro l hs hm
    have hge := energy_ge_masses hs
    rw [loop]
    rw [if_neg (by
      rw [abs_mul, abs_of_pos (show (0 : ℝ) < reallySmall by unfold reallySmall; norm_num)]
      have : reallySmall = 1 / 10 ^ 6 := rfl
      rw [this]
      push Not
      exact lt_of_lt_of_le (by linarith) (le_abs_self _))]
    by_cases hz : slope l = 0 ∨ ∃ q ∈ l, q.e = 0
    · rw [if_pos hz]
    · rw [if_neg hz]
      refine ih (fun r hr => ?_) (by rw [masses_rescale]; exact hm)
      obtain ⟨q, hq, rfl⟩ := List.mem_map.1 hr
      exact rescale_onShell (hs q hq).1

/-- Two quarks of mass 3 and momentum 4 in opposite directions. -/
noncomputable def exParts : List Part := [⟨3, 0, 0, 4, 5⟩, ⟨3, 0, 0, -4, 5⟩]

theorem exParts_shell : ∀ q ∈ exParts, OnShell q ∧ 0 < q.e := by
  simp [exParts, OnShell]; norm_num

example : ∃ fuel l', loop fuel 8 (energy exParts) exParts = some l' :=
  C175_ends exParts_shell ⟨_, List.mem_cons_self, by norm_num⟩ (by simp [exParts, masses]; norm_num)

example : ∀ fuel, loop fuel 5 (energy exParts) exParts = none := fun fuel =>
  C175_heavy_false fuel (fun q hq => (exParts_shell q hq).1) (by simp [exParts, masses]; norm_num)

end Verif.Resc
