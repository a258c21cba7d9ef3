import Mathlib.Tactic.FieldSimp
import Mathlib.Tactic.Ring
import Mathlib.Tactic.Positivity
import Mathlib.Tactic.Linarith
import Mathlib.Algebra.Order.BigOperators.Group.List
import Mathlib.Algebra.Order.BigOperators.GroupWithZero.List
import Verif.Kin.Props
import Verif.Multi.React

/-
C99: the probabilities of reactions with many incoming particles: detailed balance with the inverse
reactions, positivity, and independence of the order of the incoming particles.
-/
namespace Verif.Multi

open Verif.Pdg List Verif.Kin

/-! ### Specification -/

/-- Probability for `n` particles with the energies `es` in a volume `vol` to react during `dt`, if the
squared matrix element is `M` and the outgoing phase space is `ph` (GeV and fm, `k` powers of ħc). -/
noncomputable def rate (es : List ℝ) (dt vol M ph f : ℝ) : ℝ :=
  dt / vol ^ (es.length - 1) * (es.map fun e => 1 / (2 * e)).prod * M * ph *
    (0.197327053 : ℝ) ^ (3 * es.length - 4) * f

/-- Two-body phase space. -/
noncomputable def twoBody (sqrts m1 m2 : ℝ) : ℝ := pCM sqrts m1 m2 / (4 * Real.pi * sqrts)

/-- `M` is the squared matrix element that belongs to the cross section `xs` (in mb) of the inverse
reaction with incoming masses `m1`, `m2` and outgoing phase space `ph`. -/
def Inverse (M ph xs sqrts m1 m2 : ℝ) : Prop :=
  xs * (4 * pCM sqrts m1 m2 * sqrts) = 10 * (0.197327053 : ℝ) ^ 2 * (M * ph)

/-! ### Lemmas -/

theorem lambda_pCM {sqrts m1 m2 : ℝ} (h1 : 0 ≤ m1) (h2 : 0 ≤ m2) (h0 : 0 < sqrts)
    (h : m1 + m2 ≤ sqrts) :
    lambdaTilde (sqrts * sqrts) (m1 * m1) (m2 * m2) = 4 * (sqrts * sqrts) * pCM sqrts m1 m2 ^ 2 := by
  have hs : sqrts * sqrts ≠ 0 := by positivity
  have e : (sqrts * sqrts - m1 * m1 - m2 * m2) * (sqrts * sqrts - m1 * m1 - m2 * m2) -
      4 * (m1 * m1) * (m2 * m2) = 4 * (sqrts * sqrts) * pCM sqrts m1 m2 ^ 2 := by
    rw [(pCM_sq h1 h2 h0 h).1, pCMsqr_factor hs]
    field_simp
    ring
  unfold lambdaTilde
  simp only
  rw [e, if_neg]
  exact not_lt.2 (by positivity)

theorem gev2mb_eq : gev2mb = 10 * (0.197327053 : ℝ) ^ 2 := by
  unfold gev2mb hbarc
  norm_num

theorem gev2mb_ne : gev2mb ≠ 0 := by
  rw [gev2mb_eq]
  norm_num

/-! ### Detailed balance -/

/-- **C99.** A 3-to-2 reaction has the probability given by the matrix element of the 2-to-3
reaction. -/
theorem C99_three_to_two (env : Env) (a b c : Nat × ℝ) (sqrts dt vol M f : ℝ) (o1 o2 : Nat)
    (he : 0 < a.2 ∧ 0 < b.2 ∧ 0 < c.2) (hs : 0 < sqrts)
    (hm : 0 ≤ env.mass o1 ∧ 0 ≤ env.mass o2) (ht : env.mass o1 + env.mass o2 ≤ sqrts)
    (hph : phi3 env (env.mass a.1) (env.mass b.1) (env.mass c.1) sqrts ≠ 0)
    (hM : Inverse M (phi3 env (env.mass a.1) (env.mass b.1) (env.mass c.1) sqrts)
      (env.xs23 o1 o2 sqrts) sqrts (env.mass o1) (env.mass o2)) (fq : ℚ) (hf : (fq : ℝ) = f) :
    weight env [a, b, c] sqrts dt vol ⟨[o1, o2], fq, .threeToTwo⟩ =
      some (rate [a.2, b.2, c.2] dt vol M (twoBody sqrts (env.mass o1) (env.mass o2)) f) := by
  obtain ⟨e1, e2, e3⟩ := he
  have hl := lambda_pCM hm.1 hm.2 hs ht
  have hpi := Real.pi_pos
  have hxs : env.xs23 o1 o2 sqrts / gev2mb * (4 * pCM sqrts (env.mass o1) (env.mass o2) * sqrts) =
      M * phi3 env (env.mass a.1) (env.mass b.1) (env.mass c.1) sqrts := by
    unfold Inverse at hM
    rw [← gev2mb_eq] at hM
    rw [div_mul_eq_mul_div, div_eq_iff gev2mb_ne, hM]
    ring
  simp only [weight, prob32, hl, hf]
  congr 1
  unfold rate twoBody
  generalize phi3 env (env.mass a.1) (env.mass b.1) (env.mass c.1) sqrts = ph at *
  generalize pCM sqrts (env.mass o1) (env.mass o2) = p at *
  generalize env.xs23 o1 o2 sqrts / gev2mb = xs at *
  simp only [List.length_cons, List.length_nil, List.map_cons, List.map_nil, List.prod_cons,
    List.prod_nil, Nat.reduceAdd, Nat.reduceSub, Nat.reduceMul]
  have hM' : M = xs * (4 * p * sqrts) / ph := by
    rw [hxs]
    field_simp
  rw [hM']
  simp only [hbarc]
  field_simp
  ring

/-- **C99.** A 4-to-2 reaction has the probability given by the matrix element of the 2-to-4
reaction. -/
theorem C99_four_to_two (env : Env) (a b c d : Nat × ℝ) (sqrts dt vol M f : ℝ) (o1 o2 : Nat)
    (he : 0 < a.2 ∧ 0 < b.2 ∧ 0 < c.2 ∧ 0 < d.2) (hs : 0 < sqrts)
    (hm : 0 ≤ env.mass o1 ∧ 0 ≤ env.mass o2) (ht : env.mass o1 + env.mass o2 ≤ sqrts)
    (hph : phi4 env [a.1, b.1, c.1, d.1] (sqrts * sqrts) ≠ 0)
    (hM : Inverse M (phi4 env [a.1, b.1, c.1, d.1] (sqrts * sqrts))
      (env.xs24 o1 o2 sqrts) sqrts (env.mass o1) (env.mass o2)) (fq : ℚ) (hf : (fq : ℝ) = f) :
    weight env [a, b, c, d] sqrts dt vol ⟨[o1, o2], fq, .fourToTwo⟩ =
      some (rate [a.2, b.2, c.2, d.2] dt vol M (twoBody sqrts (env.mass o1) (env.mass o2)) f) := by
  obtain ⟨e1, e2, e3, e4⟩ := he
  have hl := lambda_pCM hm.1 hm.2 hs ht
  have hpi := Real.pi_pos
  have hxs : env.xs24 o1 o2 sqrts / gev2mb * (4 * pCM sqrts (env.mass o1) (env.mass o2) * sqrts) =
      M * phi4 env [a.1, b.1, c.1, d.1] (sqrts * sqrts) := by
    unfold Inverse at hM
    rw [← gev2mb_eq] at hM
    rw [div_mul_eq_mul_div, div_eq_iff gev2mb_ne, hM]
    ring
  simp only [weight, prob42, hl, hf]
  congr 1
  unfold rate twoBody
  generalize phi4 env [a.1, b.1, c.1, d.1] (sqrts * sqrts) = ph at *
  generalize pCM sqrts (env.mass o1) (env.mass o2) = p at *
  generalize env.xs24 o1 o2 sqrts / gev2mb = xs at *
  simp only [List.length_cons, List.length_nil, List.map_cons, List.map_nil, List.prod_cons,
    List.prod_nil, Nat.reduceAdd, Nat.reduceSub, Nat.reduceMul]
  have hM' : M = xs * (4 * p * sqrts) / ph := by
    rw [hxs]
    field_simp
  rw [hM']
  simp only [hbarc]
  field_simp
  ring

/-- **C99.** Five pions annihilate to a nucleon pair with the probability given by the inelastic
proton-antiproton cross section. -/
theorem C99_five_to_two (env : Env) (a b c d e : Nat × ℝ) (sqrts dt vol M f : ℝ) (o1 o2 : Nat)
    (he : 0 < a.2 ∧ 0 < b.2 ∧ 0 < c.2 ∧ 0 < d.2 ∧ 0 < e.2) (hs : 0 < sqrts)
    (hm : 0 ≤ env.mass proton) (ht : env.mass proton + env.mass proton ≤ sqrts)
    (hph : phi5 (sqrts * sqrts) ≠ 0)
    (hin : env.ppbarElastic (sqrts * sqrts) ≤ env.ppbarTotal (sqrts * sqrts))
    (hM : Inverse M (phi5 (sqrts * sqrts))
      (env.ppbarTotal (sqrts * sqrts) - env.ppbarElastic (sqrts * sqrts)) sqrts (env.mass proton)
      (env.mass proton)) (fq : ℚ) (hf : (fq : ℝ) = f) :
    weight env [a, b, c, d, e] sqrts dt vol ⟨[o1, o2], fq, .fiveToTwo⟩ =
      some (rate [a.2, b.2, c.2, d.2, e.2] dt vol M
        (twoBody sqrts (env.mass proton) (env.mass proton)) f) := by
  obtain ⟨e1, e2, e3, e4, e5⟩ := he
  have hl := lambda_pCM hm hm hs ht
  have hpi := Real.pi_pos
  have hxs : (env.ppbarTotal (sqrts * sqrts) - env.ppbarElastic (sqrts * sqrts)) / gev2mb *
      (4 * pCM sqrts (env.mass proton) (env.mass proton) * sqrts) = M * phi5 (sqrts * sqrts) := by
    unfold Inverse at hM
    rw [← gev2mb_eq] at hM
    rw [div_mul_eq_mul_div, div_eq_iff gev2mb_ne, hM]
    ring
  simp only [weight, prob52, hl, hf]
  rw [max_eq_right (by linarith)]
  congr 1
  unfold rate twoBody
  generalize phi5 (sqrts * sqrts) = ph at *
  generalize pCM sqrts (env.mass proton) (env.mass proton) = p at *
  generalize (env.ppbarTotal (sqrts * sqrts) - env.ppbarElastic (sqrts * sqrts)) / gev2mb = xs at *
  simp only [List.length_cons, List.length_nil, List.map_cons, List.map_nil, List.prod_cons,
    List.prod_nil, Nat.reduceAdd, Nat.reduceSub, Nat.reduceMul]
  have hM' : M = xs * (4 * p * sqrts) / ph := by
    rw [hxs]
    field_simp
  rw [hM']
  simp only [hbarc]
  field_simp
  ring

/-- **C99.** Three mesons form a resonance with the probability given by its partial width
`Γ = M Φ₃ / (2 √s)` and its spectral function (one-body phase space `2π A(√s) / (2 √s)`). -/
theorem C99_three_to_one (env : Env) (a b c : Nat × ℝ) (sqrts dt vol M f : ℝ) (o : Nat)
    (he : 0 < a.2 ∧ 0 < b.2 ∧ 0 < c.2) (hs : 0 < sqrts)
    (hph : phi3 env (env.mass a.1) (env.mass b.1) (env.mass c.1) sqrts ≠ 0)
    (hM : env.width o sqrts [a.1, b.1, c.1] * (2 * sqrts) =
      M * phi3 env (env.mass a.1) (env.mass b.1) (env.mass c.1) sqrts)
    (fq : ℚ) (hf : (fq : ℝ) = f) :
    weight env [a, b, c] sqrts dt vol ⟨[o], fq, .threeToOne⟩ =
      some (rate [a.2, b.2, c.2] dt vol M (2 * Real.pi * env.spectral o sqrts / (2 * sqrts)) f) := by
  obtain ⟨e1, e2, e3⟩ := he
  have hpi := Real.pi_pos
  simp only [weight, prob31, hf]
  congr 1
  unfold rate
  generalize phi3 env (env.mass a.1) (env.mass b.1) (env.mass c.1) sqrts = ph at *
  generalize env.width o sqrts [a.1, b.1, c.1] = w at *
  simp only [List.length_cons, List.length_nil, List.map_cons, List.map_nil, List.prod_cons,
    List.prod_nil, Nat.reduceAdd, Nat.reduceSub, Nat.reduceMul]
  have hM' : M = w * (2 * sqrts) / ph := by
    rw [hM]
    field_simp
  rw [hM']
  simp only [hbarc]
  field_simp
  ring

/-! ### The parametrised phase spaces are positive -/

theorem g4_pos {nn np nl : Nat} {x : ℝ} (h0 : 0 < x) (h1 : x < 1)
    (h : (nn = 3 ∧ np = 1) ∨ nn = 4 ∨ (nn = 2 ∧ nl = 1 ∧ np = 1) ∨ (nn = 3 ∧ nl = 1)) :
    0 < g4 nn np nl x := by
  have y0 : 0 < 1 - x := by linarith
  have p1 : 0 < x * (1 - x) := mul_pos h0 y0
  have p2 : 0 < x * (1 - x) * (1 - x) := mul_pos p1 y0
  have p3 : 0 < x * x * (1 - x) := mul_pos (mul_pos h0 h0) y0
  unfold g4
  split_ifs with c1 c2 c3 c4
  · apply div_pos <;> nlinarith [sq_nonneg (x - 1/2), sq_nonneg (x * (x - 1))]
  · apply div_pos <;> nlinarith [sq_nonneg (x - 1/2), sq_nonneg (x - 1)]
  · apply div_pos <;> nlinarith [sq_nonneg (x - 1/2), sq_nonneg (x * (x - 1))]
  · apply div_pos <;> nlinarith [sq_nonneg (x - 1/2), sq_nonneg (x * (x - 1))]
  · exfalso
    tauto

theorem phi4_perm (env : Env) {l l' : List Nat} (h : l ~ l') (s : ℝ) :
    phi4 env l s = phi4 env l' s := by
  unfold phi4
  rw [(h.map env.mass).sum_eq, (h.map env.mass).prod_eq, h.countP_eq, h.countP_eq, h.countP_eq]

/-- **C99.** The phase space used for a nucleus with three constituents is positive above threshold
for every catalyst, so the probability is finite. -/
theorem C99_phi4_positive (env : Env) (inc : List Nat) (n x : Nat) (cs : List Nat)
    (hn : (n, cs) ∈ madeOf) (hx : x ∈ pions ++ nucleons) (hp : inc ~ x :: cs)
    (hm : ∀ d ∈ inc, 0 < env.mass d) (s : ℝ) (hs : (inc.map env.mass).sum < Real.sqrt s) :
    0 < phi4 env inc s := by
  have hsum : 0 < (inc.map env.mass).sum := by
    apply List.sum_pos
    · intro y hy
      obtain ⟨d, hd, rfl⟩ := List.mem_map.1 hy
      exact hm d hd
    · intro e
      have := (List.map_eq_nil_iff.1 e) ▸ hp.length_eq
      simp at this
  have hprod : 0 < (inc.map env.mass).prod := by
    apply List.prod_pos
    intro y hy
    obtain ⟨d, hd, rfl⟩ := List.mem_map.1 hy
    exact hm d hd
  have hpi := Real.pi_pos
  have hsq : 0 < Real.sqrt s := hsum.trans hs
  have hx1 : 1 - (inc.map env.mass).sum / Real.sqrt s < 1 := by
    have : 0 < (inc.map env.mass).sum / Real.sqrt s := div_pos hsum hsq
    linarith
  have hx0 : 0 < 1 - (inc.map env.mass).sum / Real.sqrt s := by
    rw [sub_pos, div_lt_one hsq]
    exact hs
  have hg := fun hcase => g4_pos (nn := inc.countP isNucleon) (np := inc.countP isPion)
    (nl := inc.countP isLambda) hx0 hx1 hcase
  have hcase : (inc.countP isNucleon = 3 ∧ inc.countP isPion = 1) ∨ inc.countP isNucleon = 4 ∨
      (inc.countP isNucleon = 2 ∧ inc.countP isLambda = 1 ∧ inc.countP isPion = 1) ∨
      (inc.countP isNucleon = 3 ∧ inc.countP isLambda = 1) := by
    rw [hp.countP_eq, hp.countP_eq, hp.countP_eq]
    simp only [pions, nucleons, List.cons_append, List.nil_append, List.mem_cons, List.not_mem_nil,
      or_false] at hx
    simp only [madeOf, List.mem_cons, List.not_mem_nil, or_false, Prod.mk.injEq] at hn
    rcases hn with ⟨-, rfl⟩ | ⟨-, rfl⟩ | ⟨-, rfl⟩ | ⟨-, rfl⟩ | ⟨-, rfl⟩ | ⟨-, rfl⟩ <;>
      rcases hx with rfl | rfl | rfl | rfl | rfl | rfl | rfl <;> decide +kernel
  have hg := hg hcase
  unfold phi4
  dsimp only
  rw [if_pos hg]
  have h2 : 0 < Real.sqrt 2 := Real.sqrt_pos.2 (by norm_num)
  have h3 : 0 < Real.sqrt (inc.map env.mass).prod := Real.sqrt_pos.2 hprod
  have h4 := Real.rpow_pos_of_pos hx0 (3.5 : ℝ)
  have h5 : 0 < 1 - (1 - (inc.map env.mass).sum / Real.sqrt s) := by linarith
  positivity

/-- **C99.** The five-pion phase space is positive above threshold. -/
theorem C99_phi5_positive (s : ℝ) (hs : (5 * 0.138) ^ 2 < s) : 0 < phi5 s := by
  unfold phi5 pionMass
  dsimp only
  have h1 : 0 < s - 25 * 0.138 * 0.138 := by norm_num at hs ⊢; linarith
  have h2 : 0 < 1 + s / (25 * 0.138 * 0.138) := by
    have : 0 < s := lt_trans (by norm_num) hs
    positivity
  have h3 := Real.rpow_pos_of_pos h2 (-1.982 : ℝ)
  have h4 := pow_pos h1 5
  positivity

/-! ### Order of the incoming particles -/

theorem i3_swap (env : Env) (m1 m2 m3 sqrts : ℝ) : i3 env m1 m2 m3 sqrts = i3 env m2 m1 m3 sqrts := by
  unfold i3
  rw [add_comm m1 m2, show (m1 - m2) * (m1 - m2) = (m2 - m1) * (m2 - m1) by ring]
  split_ifs with h
  · rfl
  · dsimp only
    generalize Real.sqrt _ = r1
    generalize Real.sqrt _ = r2
    generalize Real.sqrt _ = r3
    ring

/-- **C99** (partial: that the three-body phase space does not depend on the order of all three masses
is a property of the elliptic integrals and assumed; exchanging the first two is proved,
`i3_swap`). The probability of a reaction does not depend on the order in which the incoming
particles are listed. -/
theorem C99_order_partial (env : Env) (inc inc' : List (Nat × ℝ)) (h : inc ~ inc')
    (hI : ∀ m1 m2 m3 s, i3 env m1 m2 m3 s = i3 env m1 m3 m2 s)
    (hw : ∀ o s l l', l ~ l' → env.width o s l = env.width o s l') (sqrts dt vol : ℝ)
    (ch : Channel) : weight env inc sqrts dt vol ch = weight env inc' sqrts dt vol ch := by
  have hphi : ∀ a b c a' b' c' : ℝ, [a, b, c] ~ [a', b', c'] →
      phi3 env a b c sqrts = phi3 env a' b' c' sqrts := by
    intro a b c a' b' c' hp
    unfold phi3
    congr 1
    rcases perm3.1 hp with ⟨rfl, rfl, rfl⟩ | ⟨rfl, rfl, rfl⟩ | ⟨rfl, rfl, rfl⟩ | ⟨rfl, rfl, rfl⟩ |
      ⟨rfl, rfl, rfl⟩ | ⟨rfl, rfl, rfl⟩
    · rfl
    · exact hI _ _ _ _
    · exact i3_swap _ _ _ _ _
    · rw [i3_swap, hI]
    · rw [hI, i3_swap]
    · rw [hI, i3_swap, hI]
  have hlen := h.length_eq
  have hfst := h.map Prod.fst
  have hprod := (h.map Prod.snd).prod_eq
  obtain ⟨outs, f, kind⟩ := ch
  cases kind with
  | threeToOne =>
    rcases inc with _ | ⟨a, _ | ⟨b, _ | ⟨c, _ | ⟨d, t⟩⟩⟩⟩ <;>
      rcases inc' with _ | ⟨a', _ | ⟨b', _ | ⟨c', _ | ⟨d', t'⟩⟩⟩⟩ <;>
      simp only [List.length_cons, List.length_nil] at hlen <;>
      first | rfl | (exfalso; omega) | skip
    rcases outs with _ | ⟨o, _ | ⟨o2, t⟩⟩ <;> try rfl
    simp only [weight, prob31]
    have e := hphi _ _ _ _ _ _ (hfst.map env.mass)
    simp only [List.map_cons, List.map_nil, List.prod_cons, List.prod_nil, mul_one] at hprod hfst e
    rw [hw _ _ _ _ hfst, e, show 4 * a.2 * b.2 * c.2 = 4 * (a.2 * (b.2 * c.2)) by ring, hprod,
      show 4 * a'.2 * b'.2 * c'.2 = 4 * (a'.2 * (b'.2 * c'.2)) by ring]
  | threeToTwo =>
    rcases inc with _ | ⟨a, _ | ⟨b, _ | ⟨c, _ | ⟨d, t⟩⟩⟩⟩ <;>
      rcases inc' with _ | ⟨a', _ | ⟨b', _ | ⟨c', _ | ⟨d', t'⟩⟩⟩⟩ <;>
      simp only [List.length_cons, List.length_nil] at hlen <;>
      first | rfl | (exfalso; omega) | skip
    rcases outs with _ | ⟨o, _ | ⟨o2, _ | ⟨o3, t⟩⟩⟩ <;> try rfl
    simp only [weight, prob32]
    have e := hphi _ _ _ _ _ _ (hfst.map env.mass)
    simp only [List.map_cons, List.map_nil, List.prod_cons, List.prod_nil, mul_one] at hprod hfst e
    rw [e, show 4 * a.2 * b.2 * c.2 = 4 * (a.2 * (b.2 * c.2)) by ring, hprod,
      show 4 * a'.2 * b'.2 * c'.2 = 4 * (a'.2 * (b'.2 * c'.2)) by ring]
  | fourToTwo =>
    rcases inc with _ | ⟨a, _ | ⟨b, _ | ⟨c, _ | ⟨d, _ | ⟨e, t⟩⟩⟩⟩⟩ <;>
      rcases inc' with _ | ⟨a', _ | ⟨b', _ | ⟨c', _ | ⟨d', _ | ⟨e', t'⟩⟩⟩⟩⟩ <;>
      simp only [List.length_cons, List.length_nil] at hlen <;>
      first | rfl | (exfalso; omega) | skip
    rcases outs with _ | ⟨o, _ | ⟨o2, _ | ⟨o3, t⟩⟩⟩ <;> try rfl
    simp only [weight, prob42]
    have e := phi4_perm env hfst (sqrts * sqrts)
    simp only [List.map_cons, List.map_nil, List.prod_cons, List.prod_nil, mul_one] at hprod e
    rw [e, show 16 * a.2 * b.2 * c.2 * d.2 = 16 * (a.2 * (b.2 * (c.2 * d.2))) by ring, hprod,
      show 16 * a'.2 * b'.2 * c'.2 * d'.2 = 16 * (a'.2 * (b'.2 * (c'.2 * d'.2))) by ring]
  | fiveToTwo =>
    rcases inc with _ | ⟨a, _ | ⟨b, _ | ⟨c, _ | ⟨d, _ | ⟨e, _ | ⟨g, t⟩⟩⟩⟩⟩⟩ <;>
      rcases inc' with _ | ⟨a', _ | ⟨b', _ | ⟨c', _ | ⟨d', _ | ⟨e', _ | ⟨g', t'⟩⟩⟩⟩⟩⟩ <;>
      simp only [List.length_cons, List.length_nil] at hlen <;>
      first | rfl | (exfalso; omega) | skip
    rcases outs with _ | ⟨o, _ | ⟨o2, _ | ⟨o3, t⟩⟩⟩ <;> try rfl
    simp only [weight, prob52]
    simp only [List.map_cons, List.map_nil, List.prod_cons, List.prod_nil, mul_one] at hprod
    rw [show 32 * a.2 * b.2 * c.2 * d.2 * e.2 = 32 * (a.2 * (b.2 * (c.2 * (d.2 * e.2)))) by ring,
      hprod, show 32 * a'.2 * b'.2 * c'.2 * d'.2 * e'.2 =
        32 * (a'.2 * (b'.2 * (c'.2 * (d'.2 * e'.2)))) by ring]

/-- The hypotheses are met: π p n above threshold, with a unit cross section. -/
example : ∃ M : ℝ, Inverse M 2 1 3 1 1 := by
  refine ⟨1 * (4 * pCM 3 1 1 * 3) / (10 * (0.197327053 : ℝ) ^ 2) / 2, ?_⟩
  unfold Inverse
  field_simp

example : (triton, [proton, neutron, neutron]) ∈ madeOf ∧ piP ∈ pions ++ nucleons ∧
    [neutron, piP, proton, neutron] ~ piP :: [proton, neutron, neutron] := by
  refine ⟨by decide, by decide, ?_⟩
  exact (List.Perm.swap _ _ _).trans ((List.Perm.swap _ _ _).cons _)

end Verif.Multi
