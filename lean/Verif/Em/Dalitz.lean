import Mathlib.Tactic.Ring
import Mathlib.Tactic.Linarith
import Mathlib.Tactic.Positivity
import Mathlib.Tactic.FieldSimp
import Mathlib.Tactic.IntervalCases
import Mathlib.MeasureTheory.Integral.IntervalIntegral.Basic
import Verif.Act.Phase
import Verif.Em.Model

/-!
C138: Dalitz decays.
-/

namespace Verif.Em

open Verif Kin Act MeasureTheory

theorem add_comm4 (a b : V4) : a.add b = b.add a := by
  unfold V4.add; ext <;> simp only <;> ring

theorem unit_neg {u : V3} (h : Unit3 u) : Unit3 u.neg := by
  unfold Unit3 V3.neg at *; simpa using h

theorem smul_neg3 (u : V3) (a : ℝ) : u.smul (-a) = u.neg.smul a := by
  unfold V3.smul V3.neg; ext <;> simp only <;> ring

theorem neg_neg3 (u : V3) : u.neg.neg = u := by
  unfold V3.neg; ext <;> simp only <;> ring

/-- The pair: two particles back to back in the frame of a pair of mass `M` that moves with momentum
`-pcm u`. -/
theorem pair_boost {M m1 m2 pcm : ℝ} (h1 : 0 ≤ m1) (h2 : 0 ≤ m2) (hM : 0 < M) (h : m1 + m2 ≤ M) {u v : V3}
    (hu : Unit3 u) (hv : Unit3 v) :
    let beta := (u.smul pcm).div (Real.sqrt (pcm * pcm + M * M))
    let p1 := boost (onShell m1 (v.smul (pCM M m1 m2))) beta
    let p2 := boost (onShell m2 (v.neg.smul (pCM M m1 m2))) beta
    HasMass p1 m1 ∧ HasMass p2 m2 ∧
      p1.add p2 = V4.mk' (Real.sqrt (pcm * pcm + M * M)) (u.smul (-pcm)) := by
  intro beta p1 p2
  obtain ⟨a1, a2, a3⟩ := C34_two_body m1 m2 M v h1 h2 hM h hv
  obtain ⟨b1, b2⟩ := boost_rest M pcm u hu hM
  refine ⟨boost_mass _ _ _ b2 a1, boost_mass _ _ _ b2 a2, ?_⟩
  rw [← C29_linear]
  exact (congrArg (fun x => boost x beta) a3).trans b1

/-- The momenta of a decay `M → h d`, `d → 1 2` in the rest frame of the mother. -/
theorem chain {E mh m1 m2 dil : ℝ} (hh : 0 ≤ mh) (h1 : 0 ≤ m1) (h2 : 0 ≤ m2) (hd : 0 < dil) (hl : m1 + m2 ≤ dil)
    (hE : dil + mh ≤ E) {u v : V3} (hu : Unit3 u) (hv : Unit3 v) :
    let pd := pCM E dil mh
    let d4 := V4.mk' (Real.sqrt (dil * dil + pd * pd)) (u.smul pd)
    let ph := onShell mh (u.neg.smul pd)
    let p1 := boost (onShell m1 (v.smul (pCM dil m1 m2))) d4.velocity.neg
    let p2 := boost (onShell m2 (v.neg.smul (pCM dil m1 m2))) d4.velocity.neg
    HasMass ph mh ∧ HasMass p1 m1 ∧ HasMass p2 m2 ∧ HasMass (p1.add p2) dil ∧
      ph.add (p1.add p2) = ⟨E, 0, 0, 0⟩ := by
  intro pd d4 ph p1 p2
  have hE0 : 0 < E := by linarith
  obtain ⟨a1, a2, a3⟩ := C34_two_body dil mh E u hd.le hh hE0 hE hu
  have e1 : (sampleAngles dil mh E u).1 = d4 := by
    unfold sampleAngles onShell
    simp only
    have : (u.smul (pCM E dil mh)).dot (u.smul (pCM E dil mh)) = pd * pd := by
      unfold Unit3 at hu
      unfold V3.smul V3.dot; simp only [pd]; linear_combination (pCM E dil mh) ^ 2 * hu
    rw [this]
  have e2 : (sampleAngles dil mh E u).2 = ph := rfl
  rw [e2] at a2 a3
  rw [e1] at a3 a1
  have hv4 : d4.velocity.neg = (u.neg.smul pd).div (Real.sqrt (pd * pd + dil * dil)) := by
    rw [add_comm (pd * pd)]
    simp only [d4]
    unfold V4.velocity V3.neg V3.div V3.smul V4.mk' V4.vec
    ext <;> simp only <;> ring
  obtain ⟨c1, c2, c3⟩ := pair_boost (pcm := pd) h1 h2 hd hl (unit_neg hu) hv
  rw [← hv4] at c1 c2 c3
  have c4 : p1.add p2 = d4 := by
    refine c3.trans ?_
    simp only [d4]
    rw [add_comm (pd * pd), smul_neg3, neg_neg3]
  refine ⟨a2, c1, c2, ?_, ?_⟩
  · rw [c4]; exact a1
  · rw [c4, add_comm4]; exact a3

/-- A Dalitz decay that is open: one hadron and two leptons, in any order. -/
structure Open (E : ℝ) (out : List Out) (i : ℕ) : Prop where
  length : out.length = 3
  index : i < 3
  hadron : ∀ j, j < 3 → ((out[j]?.map Out.lepton) = some false ↔ j = i)
  mass : ∀ o ∈ out, 0 ≤ o.mass
  lepton : ∀ o ∈ out, o.lepton = true → 0 < o.mass
  energy : (out.map Out.mass).sum ≤ E

theorem nonLepton_eq {E : ℝ} {out : List Out} {i : ℕ} (h : Open E out i) : nonLepton out = some i := by
  obtain ⟨hl, hi, hh, -⟩ := h
  match out, hl with
  | [a, b, c], _ =>
    have h0 := hh 0 (by omega)
    have h1 := hh 1 (by omega)
    have h2 := hh 2 (by omega)
    simp at h0 h1 h2
    unfold nonLepton nonLepton nonLepton nonLepton
    interval_cases i <;> simp_all

theorem perm3 (i : ℕ) (hi : i < 3) (p : ℕ → V4) :
    sum4 p 3 = (p i).add ((p ((i + 1) % 3)).add (p ((i + 2) % 3))) := by
  unfold sum4 sum4 sum4 sum4 V4.add
  interval_cases i <;> ext <;> simp only [Nat.reduceAdd, Nat.reduceMod] <;> ring

/-- **C138.** The products of an open Dalitz decay are on their mass shells and their momenta add up to the one of
the mother at rest; the mass of the pair of leptons is the one drawn, uniformly between its kinematic limits. -/
theorem C138_momenta {E : ℝ} {out : List Out} {i : ℕ} (h : Open E out i) {r : ℝ} (hr0 : 0 ≤ r) (hr1 : r ≤ 1)
    {u v : V3} (hu : Unit3 u) (hv : Unit3 v) (diff : ℝ → ℝ) (w : ℝ) :
    let m (j : ℕ) : ℝ := (out.map Out.mass).getD j 0
    let lo := m ((i + 1) % 3) + m ((i + 2) % 3)
    ∃ p dil b, dalitz E out r u v diff w = .ok (p, dil, b) ∧
      dil = lo + ((E - m i) - lo) * r ∧ lo ≤ dil ∧ dil ≤ E - m i ∧
      sum4 p 3 = ⟨E, 0, 0, 0⟩ ∧ (∀ j, j < 3 → HasMass (p j) (m j)) ∧
      HasMass ((p ((i + 1) % 3)).add (p ((i + 2) % 3))) dil := by
  intro m lo
  have hi := h.index
  have hl := h.length
  have pos : ∀ j, j < 3 → 0 ≤ m j ∧ (j ≠ i → 0 < m j) := by
    intro j hj
    have hj' : j < out.length := by omega
    have e : m j = out[j].mass := by
      simp only [m]
      rw [List.getD_eq_getElem?_getD, List.getElem?_map, List.getElem?_eq_getElem hj']
      rfl
    refine ⟨by rw [e]; exact h.mass _ (List.getElem_mem _), fun hne => ?_⟩
    rw [e]
    apply h.lepton _ (List.getElem_mem _)
    by_contra hc
    rw [Bool.not_eq_true] at hc
    apply hne
    apply (h.hadron j hj).1
    rw [List.getElem?_eq_getElem hj']
    simp [hc]
  have sum : m i + lo ≤ E := by
    refine le_trans (le_of_eq ?_) h.energy
    simp only [lo, m]
    match out, hl with
    | [a, b, c], _ =>
      interval_cases i <;> simp [List.getD] <;> ring
  have l1 : (i + 1) % 3 < 3 := Nat.mod_lt _ (by omega)
  have l2 : (i + 2) % 3 < 3 := Nat.mod_lt _ (by omega)
  have n1 : (i + 1) % 3 ≠ i := by omega
  have n2 : (i + 2) % 3 ≠ i := by omega
  have n3 : (i + 2) % 3 ≠ (i + 1) % 3 := by omega
  have hd1 : lo ≤ lo + (E - m i - lo) * r := by
    have : 0 ≤ (E - m i - lo) * r := mul_nonneg (by linarith) hr0
    linarith
  have hd2 : lo + (E - m i - lo) * r ≤ E - m i := by nlinarith
  have hd0 : 0 < lo + (E - m i - lo) * r := by
    have := (pos _ l1).2 n1
    have := (pos _ l2).2 n2
    have : 0 < lo := by simp only [lo]; linarith
    linarith
  obtain ⟨c1, c2, c3, c4, c5⟩ := chain (E := E) (pos i hi).1 (pos _ l1).1 (pos _ l2).1 hd0 hd1
    (by linarith) hu hv
  unfold dalitz
  rw [if_neg (by simpa using hl), nonLepton_eq h]
  refine ⟨_, _, _, rfl, rfl, hd1, hd2, ?_, ?_, ?_⟩
  · rw [perm3 i hi]
    simp only [if_true, if_neg n1, if_neg n2, if_neg n3]
    exact c5
  · intro j hj
    have : j = i ∨ j = (i + 1) % 3 ∨ j = (i + 2) % 3 := by omega
    rcases this with rfl | rfl | rfl
    · simp only [if_true]; exact c1
    · simp only [if_true, if_neg n1]; exact c2
    · simp only [if_neg n2, if_neg n3]; exact c3
  · simp only [if_true, if_neg n1, if_neg n2, if_neg n3]
    exact c4

/-- **C138.** The weights are a Monte-Carlo integral over the mass of the pair: in the mean over the masses drawn,
the weight of a decay is the shining weight times the integral of the differential width over the width of
the channel, so the shining weight itself if the width is this integral. -/
theorem C138_weight {E : ℝ} {out : List Out} {i : ℕ} (h : Open E out i) (u v : V3) (diff : ℝ → ℝ) (w shining : ℝ) :
    let m (j : ℕ) : ℝ := (out.map Out.mass).getD j 0
    let lo := m ((i + 1) % 3) + m ((i + 2) % 3)
    ∃ b : ℝ → ℝ, (∀ r, ∃ p dil, dalitz E out r u v diff w = .ok (p, dil, b r)) ∧
      ∫ r in (0 : ℝ)..1, totalDilWeight shining (b r) =
        shining * (∫ x in lo..(E - m i), diff x) / w := by
  intro m lo
  have hi := h.index
  have hl := h.length
  refine ⟨fun r => (E - m i - m ((i + 1) % 3) - m ((i + 2) % 3)) * diff (lo + (E - m i - lo) * r) / w, ?_, ?_⟩
  · intro r
    unfold dalitz
    rw [if_neg (by simpa using hl), nonLepton_eq h]
    exact ⟨_, _, rfl⟩
  · have e : ∀ r : ℝ, totalDilWeight shining ((E - m i - m ((i + 1) % 3) - m ((i + 2) % 3)) *
        diff (lo + (E - m i - lo) * r) / w) = shining * (E - m i - lo) / w * diff (lo + (E - m i - lo) * r) := by
      intro r
      simp only [totalDilWeight, lo]
      ring
    simp only [e]
    rw [intervalIntegral.integral_const_mul]
    have := intervalIntegral.smul_integral_comp_add_mul (a := 0) (b := 1) (f := diff) (E - m i - lo) lo
    rw [smul_eq_mul, mul_zero, mul_one, add_zero, add_sub_cancel] at this
    rw [← this]
    ring

/-- **C138.** With another number of products, or with leptons alone, the decay is refused. -/
theorem C138_refused (E r : ℝ) (out : List Out) (u v : V3) (diff : ℝ → ℝ) (w : ℝ) :
    (dalitz E out r u v diff w = .error .wrongNumber ↔ out.length ≠ 3) ∧
    (dalitz E out r u v diff w = .error .noHadron ↔ out.length = 3 ∧ ∀ o ∈ out, o.lepton = true) := by
  have key : ∀ l : List Out, nonLepton l = none ↔ ∀ o ∈ l, o.lepton = true := by
    intro l
    induction l with
    | nil => simp [nonLepton]
    | cons o l ih =>
      rw [nonLepton]
      cases ho : o.lepton <;> simp [ho, ih]
  unfold dalitz
  by_cases hl : out.length = 3
  · rw [if_neg (by simpa using hl), ← key]
    cases nonLepton out <;> simp [hl]
  · rw [if_pos hl]
    simp [hl]

/-- η → e⁺ γ e⁻ with the masses 1/2 and 1/1000. -/
example : Open (1 / 2) [⟨true, 1 / 1000⟩, ⟨false, 0⟩, ⟨true, 1 / 1000⟩] 1 := by
  refine ⟨rfl, by norm_num, ?_, ?_, ?_, by norm_num⟩
  · intro j hj
    interval_cases j <;> simp
  · intro o ho
    simp only [List.mem_cons, List.not_mem_nil, or_false] at ho
    rcases ho with rfl | rfl | rfl <;> norm_num
  · intro o ho
    simp only [List.mem_cons, List.not_mem_nil, or_false] at ho
    rcases ho with rfl | rfl | rfl <;> norm_num

end Verif.Em
