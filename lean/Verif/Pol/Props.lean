import Mathlib.Tactic.Ring
import Mathlib.Tactic.Linarith
import Mathlib.Tactic.NormNum
import Mathlib.Tactic.FinCases
import Verif.Pol.Model
import Verif.Act.Props
/-!
C183: spin vectors in scatterings.
-/
namespace Verif.Pol
open Verif Kin Act

/-- A massive particle moving forward in time. -/
def Massive (o : Part) : Prop := 0 < o.p.t ∧ o.p.x ^ 2 + o.p.y ^ 2 + o.p.z ^ 2 < o.p.t ^ 2

theorem massive_sub {o : Part} (h : Massive o) : Subluminal o.p.velocity := (C29_rest o.p h.1 h.2).1

/-- **C183**, without spin interactions no spin vector is changed or drawn. -/
theorem C183_off (pr : Proc) (k : ℕ) (draw : ℕ → V3) (i1 i2 : Part) (out : List Part) (h : pr ≠ .elastic) :
    final false pr k draw i1 i2 out = some out := by
  cases pr <;> simp_all [final, spinInteraction, stringSpin]

/-- **C183**, elastic collisions: with or without spin interactions the squared spin vector of each particle stays, and nothing but the spin is touched. -/
theorem C183_elastic (on : Bool) (k : ℕ) (draw : ℕ → V3) (i1 i2 a b : Part) (ha : Massive a) (hb : Massive b) :
    ∃ a' b', final on .elastic k draw i1 i2 [a, b] = some [a', b'] ∧ a'.p = a.p ∧ b'.p = b.p ∧
      minkowski a'.S a'.S = minkowski i1.S i1.S ∧ minkowski b'.S b'.S = minkowski i2.S i2.S ∧
      (on = false → a'.S = i1.S ∧ b'.S = i2.S) := by
  cases on
  · exact ⟨_, _, rfl, rfl, rfl, rfl, rfl, fun _ => ⟨rfl, rfl⟩⟩
  · refine ⟨_, _, rfl, rfl, rfl, ?_, ?_, by simp⟩
    · exact C29_isometry _ _ _ (massive_sub ha)
    · exact C29_isometry _ _ _ (massive_sub hb)

theorem unpolarizeAll_get (draw : ℕ → V3) (l : List Part) (n : ℕ) (o : Part) (h : l[n]? = some o) :
    (unpolarizeAll draw l)[n]? = some (unpolarize o (draw n)) := by
  induction l generalizing draw n with
  | nil => simp at h
  | cons x xs ih =>
    cases n with
    | zero => simp at h; subst h; rfl
    | succ n => simp at h; simpa [unpolarizeAll] using ih (fun n => draw (n + 1)) n h

theorem unpolarizeAll_length (draw : ℕ → V3) (l : List Part) : (unpolarizeAll draw l).length = l.length := by
  induction l generalizing draw with
  | nil => rfl
  | cons x xs ih => simp [unpolarizeAll, ih]

/-- **C183**, single diffraction: the surviving hadron, the last outgoing particle, carries on the squared spin vector of the hadron it comes from (the first
for AX, the second for XB); all others get fresh spin vectors. -/
theorem C183_diffractive (k : ℕ) (draw : ℕ → V3) (i1 i2 h : Part) (xs : List Part) (hm : Massive h) :
    (∃ ys h', final true .stringAX k draw i1 i2 (xs ++ [h]) = some (ys ++ [h']) ∧ h'.p = h.p ∧
      minkowski h'.S h'.S = minkowski i1.S i1.S ∧ ys.length = xs.length ∧
      ∀ (n : ℕ) (o : Part), xs[n]? = some o → ys[n]? = some (unpolarize o (draw n))) ∧
    (∃ ys h', final true .stringXB k draw i1 i2 (xs ++ [h]) = some (ys ++ [h']) ∧ h'.p = h.p ∧
      minkowski h'.S h'.S = minkowski i2.S i2.S ∧ ys.length = xs.length ∧
      ∀ (n : ℕ) (o : Part), xs[n]? = some o → ys[n]? = some (unpolarize o (draw n))) := by
  constructor
  · refine ⟨unpolarizeAll draw xs, { h with S := boost i1.S h.p.velocity }, ?_, rfl,
      C29_isometry _ _ _ (massive_sub hm), unpolarizeAll_length _ _, fun n o => unpolarizeAll_get draw xs n o⟩
    simp [final, stringSpin]
  · refine ⟨unpolarizeAll draw xs, { h with S := boost i2.S h.p.velocity }, ?_, rfl,
      C29_isometry _ _ _ (massive_sub hm), unpolarizeAll_length _ _, fun n o => unpolarizeAll_get draw xs n o⟩
    simp [final, stringSpin]

/-- **C183**, all other processes give every outgoing particle a fresh spin vector, zero for particles without mass or spin. -/
theorem C183_fresh (pr : Proc) (k : ℕ) (draw : ℕ → V3) (i1 i2 : Part) (out : List Part)
    (h : pr = .twoToOne ∨ pr = .twoToTwo ∨ pr = .twoToMany ∨ pr = .stringOther) :
    ∃ l, final true pr k draw i1 i2 out = some l ∧ l.length = out.length ∧
      ∀ (n : ℕ) (o : Part), out[n]? = some o → ∃ o', l[n]? = some o' ∧ o'.p = o.p ∧
        (o.spinless = true → o'.S = ⟨0, 0, 0, 0⟩) ∧
        (o.spinless = false → o'.S = boost ⟨0, (draw n).x, (draw n).y, (draw n).z⟩ o.p.velocity) := by
  refine ⟨unpolarizeAll draw out, ?_, unpolarizeAll_length _ _, ?_⟩
  · rcases h with rfl | rfl | rfl | rfl <;> simp [final, spinInteraction, stringSpin]
  · intro n o ho
    refine ⟨_, unpolarizeAll_get draw out n o ho, rfl, ?_, ?_⟩
    · intro h; simp [unpolarize, h]
    · intro h; simp [unpolarize, h, unpolarizedSpin, V4.mk']

/-- **C183**, finding: the spin of a Λ is not handed on to a Σ* formed with a pion. The final state of a 2 → 1 process is the same for all spins of the
incoming particles and for all random numbers of the spin flip, as `spin_interaction` is not called for these processes. -/
theorem C183_lambda_false (on : Bool) (k k' : ℕ) (draw : ℕ → V3) (i1 i2 i1' i2' : Part) (out : List Part) :
    final on .twoToOne k draw i1 i2 out = final on .twoToOne k' draw i1' i2' out := rfl

/-- What `spin_interaction` would do for Λ π → Σ* if it were called: two of the nine random numbers flip the spin, and a flip reverses the spin vector if
this is orthogonal to the momentum of the Λ, as a spin vector should be. -/
theorem C183_flip (l pi o : Part) (hl : l.isLambda = true) (hpi : pi.isPion = true) (ho : o.isSigmaStar = true) (hm : Massive l)
    (horth : minkowski l.S l.p = 0) (k : ℕ) :
    (k ∈ [1, 2, 3, 4, 5, 6, 7] → spinInteraction true .twoToOne k l pi [o] =
      some [{ o with S := boost l.S o.p.velocity }]) ∧
    (k ∈ [8, 9] → spinInteraction true .twoToOne k l pi [o] =
      some [{ o with S := boost (V4.mk (-l.S.t) (-l.S.x) (-l.S.y) (-l.S.z)) o.p.velocity }]) := by
  have hfl : flip l.S l.p.velocity = ⟨-l.S.t, -l.S.x, -l.S.y, -l.S.z⟩ := by
    obtain ⟨hs, hr⟩ := C29_rest l.p hm.1 hm.2
    have e := C29_isometry l.S l.p _ hs
    rw [hr, horth] at e
    have hsq : 0 < Real.sqrt (l.p.t ^ 2 - l.p.x ^ 2 - l.p.y ^ 2 - l.p.z ^ 2) := Real.sqrt_pos.2 (by linarith [hm.2])
    have ht : (boost l.S l.p.velocity).t = 0 := by
      unfold minkowski at e
      simp only [mul_zero, sub_zero] at e
      rcases mul_eq_zero.1 e with h | h
      · exact h
      · exact absurd h hsq.ne'
    have hneg : boost ⟨-l.S.t, -l.S.x, -l.S.y, -l.S.z⟩ l.p.velocity =
        ⟨(boost l.S l.p.velocity).t, -(boost l.S l.p.velocity).x, -(boost l.S l.p.velocity).y, -(boost l.S l.p.velocity).z⟩ := by
      have : (boost ⟨-l.S.t, -l.S.x, -l.S.y, -l.S.z⟩ l.p.velocity).t = -(boost l.S l.p.velocity).t := by
        unfold boost V4.mk' V4.vec V3.dot; simp only; ring
      ext
      · rw [this, ht]; simp
      all_goals (unfold boost V4.mk' V4.vec V3.dot V3.sub V3.smul; simp only; ring)
    unfold flip
    simp only
    rw [← hneg, C29_inverse _ _ hs]
  constructor
  · intro hk
    have h7 : k ≤ 7 := by fin_cases hk <;> norm_num
    simp [spinInteraction, hl, hpi, ho, h7]
  · intro hk
    have h7 : ¬ k ≤ 7 := by fin_cases hk <;> norm_num
    simp [spinInteraction, hl, hpi, ho, h7, hfl]

/-- **C183**, finding: after an elastic collision the spin vector is no longer orthogonal to the momentum, although it was before. A particle of mass 3
and momentum 4 along the x axis, with its spin along the y axis, is scattered to the y axis. -/
theorem C183_orthogonal_false :
    ∃ i1 i2 a b a' b' : Part, Massive a ∧ Massive b ∧ minkowski i1.S i1.p = 0 ∧ minkowski i1.p i1.p = minkowski a.p a.p ∧
      i1.p.add i2.p = a.p.add b.p ∧
      final true .elastic 1 (fun _ => ⟨0, 0, 0⟩) i1 i2 [a, b] = some [a', b'] ∧ minkowski a'.S a'.p = -(40 / 3) := by
  refine ⟨⟨⟨5, 4, 0, 0⟩, ⟨0, 0, 1, 0⟩, true, false, false, false⟩, ⟨⟨5, -4, 0, 0⟩, ⟨0, 0, 0, 0⟩, false, true, false, true⟩,
    ⟨⟨5, 0, 4, 0⟩, ⟨0, 0, 0, 0⟩, true, false, false, false⟩, ⟨⟨5, 0, -4, 0⟩, ⟨0, 0, 0, 0⟩, false, true, false, true⟩, _, _,
    ⟨by norm_num, by norm_num⟩, ⟨by norm_num, by norm_num⟩, by norm_num [minkowski], by norm_num [minkowski],
    by norm_num [V4.add], rfl, ?_⟩
  have hv : (V4.mk 5 0 4 0).velocity = ⟨0, 4 / 5, 0⟩ := by
    unfold V4.velocity V3.div V3.smul V4.vec; norm_num
  have hg : gamma ⟨0, 4 / 5, 0⟩ = 5 / 3 := by
    unfold gamma V3.sqr V3.dot
    simp only
    rw [if_pos (by norm_num), show (1 - (0 * 0 + 4 / 5 * (4 / 5) + 0 * 0) : ℝ) = (3 / 5) ^ 2 by norm_num,
      Real.sqrt_sq (by norm_num)]
    norm_num
  simp only [hv]
  unfold minkowski boost
  simp only [hg]
  unfold V4.mk' V4.vec V3.dot V3.sub V3.smul
  norm_num

/-- A Λ and a pion. -/
def LambdaPion (l pi : Part) : Prop := l.isLambda = true ∧ l.isPion = false ∧ pi.isPion = true ∧ pi.isLambda = false

/-- **C183**, decays: the Λ of Σ* → Λ π, whichever comes first, carries on the squared spin vector of the Σ* and the pion has none; the products of all
other decays get fresh spin vectors. -/
theorem C183_decay (draw : ℕ → V3) (parent : Part) :
    (∀ l pi, parent.isSigmaStar = true → LambdaPion l pi → Massive l → ∃ l' pi',
      decaySpin true draw parent [l, pi] = [l', pi'] ∧ decaySpin true draw parent [pi, l] = [pi', l'] ∧
      minkowski l'.S l'.S = minkowski parent.S parent.S ∧ pi'.S = ⟨0, 0, 0, 0⟩ ∧ l'.p = l.p ∧ pi'.p = pi.p) ∧
    (∀ out, (parent.isSigmaStar = false ∨ ∀ l pi, LambdaPion l pi → out ≠ [l, pi] ∧ out ≠ [pi, l]) →
      (decaySpin true draw parent out).length = out.length ∧
      ∀ (n : ℕ) (o : Part), out[n]? = some o → (decaySpin true draw parent out)[n]? = some (unpolarize o (draw n))) ∧
    (∀ out, decaySpin false draw parent out = out) := by
  refine ⟨?_, ?_, fun out => rfl⟩
  · rintro l pi hs ⟨h1, h2, h3, h4⟩ hm
    refine ⟨{ l with S := boost parent.S l.p.velocity }, { pi with S := ⟨0, 0, 0, 0⟩ }, ?_, ?_,
      C29_isometry _ _ _ (massive_sub hm), rfl, rfl, rfl⟩
    · simp [decaySpin, hs, h1, h2, h3, h4]
    · simp [decaySpin, hs, h1, h2, h3, h4]
  · intro out h
    have key : decaySpin true draw parent out = unpolarizeAll draw out := by
      unfold decaySpin
      simp only [Bool.not_true, Bool.false_eq_true, if_false]
      split
      · rename_i a b
        split_ifs with c1 c2
        · simp only [Bool.and_eq_true, Bool.not_eq_true'] at c1
          rcases h with h | h
          · simp [h] at c1
          · exact absurd rfl (h a b ⟨c1.1.1.1.2, c1.2, c1.1.1.2, c1.1.2⟩).1
        · simp only [Bool.and_eq_true, Bool.not_eq_true'] at c2
          rcases h with h | h
          · simp [h] at c2
          · exact absurd rfl (h b a ⟨c2.1.1.1.2, c2.2, c2.1.1.2, c2.1.2⟩).2
        · rfl
      · rfl
    rw [key]
    exact ⟨unpolarizeAll_length _ _, fun n o => unpolarizeAll_get draw out n o⟩

/-- The hypotheses of `C183_flip` can be met: a Λ at rest with its spin along the z axis. -/
example : minkowski (V4.mk 0 0 0 1) (V4.mk 1 0 0 0) = 0 ∧
    Massive ⟨⟨1, 0, 0, 0⟩, ⟨0, 0, 0, 1⟩, true, false, false, false⟩ := by
  constructor
  · norm_num [minkowski]
  · constructor <;> norm_num

end Verif.Pol
