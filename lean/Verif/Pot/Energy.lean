import Verif.Pot.Mom
import Verif.Pot.Vdf
import Verif.Pot.Root
import Verif.Kin.Props
import Mathlib.Tactic.LinearCombination
/-!
C128: the energy of a particle in momentum dependent potentials and its gradient.
-/
namespace Verif.Pot
open Verif.Kin Verif.Emt

/-! ### Specification -/

/-- The energy in the local rest frame: `√(m² + q²)`, the Skyrme potential of the rest frame density and the
momentum dependent part. -/
noncomputable def restEnergy (P : Pars) (q rho m : ℝ) : ℝ :=
  Real.sqrt (m * m + q * q) + nucleonEnergy P.a P.b P.tau rho +
    yukawa (if q / hbarc < 1 / 1000000 then 0 else q / hbarc) (fermiMomentum rho) P.c P.lambda

/-- A current of matter: timelike, with a positive density. -/
def Matter (j : V4) : Prop := j.x ^ 2 + j.y ^ 2 + j.z ^ 2 < j.t ^ 2 ∧ 0 < j.t

/-! ### The equation -/

theorem small_pos : 0 < reallySmall := by unfold reallySmall; norm_num

theorem beta_sub {j : V4} (h : j.x ^ 2 + j.y ^ 2 + j.z ^ 2 < j.t ^ 2) : Subluminal (betaLRF j) := by
  unfold betaLRF Subluminal
  split_ifs with hc
  · have ht : 0 < j.t := small_pos.trans hc
    simp only [V3.div, V3.smul, V4.vec]
    rw [show (j.x * (1 / j.t)) ^ 2 + (j.y * (1 / j.t)) ^ 2 + (j.z * (1 / j.t)) ^ 2 =
      (j.x ^ 2 + j.y ^ 2 + j.z ^ 2) / j.t ^ 2 by field_simp]
    rw [div_lt_one (by positivity)]
    exact h
  · simp [zero3]

theorem toLRF_sqr {j : V4} (p : V4) (h : j.x ^ 2 + j.y ^ 2 + j.z ^ 2 < j.t ^ 2) :
    minkowski (toLRF j p) (toLRF j p) = minkowski p p := by
  unfold toLRF
  split_ifs
  · exact C29_isometry _ _ _ (beta_sub h)
  · rfl

theorem vec_abs_sq (p : V4) : p.vec.abs * p.vec.abs = p.x * p.x + p.y * p.y + p.z * p.z := by
  unfold V3.abs V4.vec V3.dot
  exact Real.mul_self_sqrt (by nlinarith [mul_self_nonneg p.x, mul_self_nonneg p.y, mul_self_nonneg p.z])

theorem abs4_ok {j : V4} (h : j.x ^ 2 + j.y ^ 2 + j.z ^ 2 < j.t ^ 2) : abs4 j = .ok (density j) ∧ 0 < density j := by
  have e : j.sqr = j.t ^ 2 - j.x ^ 2 - j.y ^ 2 - j.z ^ 2 := by unfold V4.sqr V4.dot V4.vec V3.dot; ring
  have hp : 0 < j.t ^ 2 - j.x ^ 2 - j.y ^ 2 - j.z ^ 2 := by linarith
  unfold abs4 density
  rw [e, if_pos (by linarith [small_pos]), abs_of_pos hp]
  exact ⟨rfl, Real.sqrt_pos.2 hp⟩

/-- **C128.** The equation whose root is taken says that the energy in the local rest frame (the transformed
four-momentum) is, up to the sign, the rest frame energy of the potentials. -/
theorem C128_equation (P : Pars) (hL : 0 < P.lambda) (e m : ℝ) (p : V3) {j : V4} (hj : Matter j) :
    let q := toLRF j (V4.mk' e p)
    rootEq P e p j m = .ok (q.t ^ 2 - restEnergy P q.vec.abs (density j) m ^ 2) := by
  obtain ⟨h1, h2⟩ := abs4_ok hj.1
  intro q
  have hm := toLRF_sqr (V4.mk' e p) hj.1
  have hv := vec_abs_sq q
  unfold rootEq energyLRF
  simp only [h1, C125_value _ _ _ h2, C127_part hL h2.le, bind_ok]
  congr 1
  change _ - _ - ((restEnergy P q.vec.abs (density j) m) * (restEnergy P q.vec.abs (density j) m) -
    q.vec.abs * q.vec.abs) = _
  rw [hv]
  unfold minkowski at hm
  change q.t * q.t - q.x * q.x - q.y * q.y - q.z * q.z = e * e - p.x * p.x - p.y * p.y - p.z * p.z at hm
  unfold V3.sqr V3.dot
  linear_combination -hm

/-- The transformation is the boost to the frame where the current has no spatial part, unless the velocity of that
frame is at most `1e-6`. -/
theorem C128_frame {j : V4} (hj : Matter j) (hs : reallySmall < j.t) :
    betaLRF j = ⟨j.x / j.t, j.y / j.t, j.z / j.t⟩ ∧
    ((betaLRF j).abs ≤ reallySmall → ∀ p, toLRF j p = p) ∧
    ((betaLRF j).abs > reallySmall → ∀ p, toLRF j p = boost p (betaLRF j) ∧
      (boost j (betaLRF j)).vec = ⟨0, 0, 0⟩) := by
  have hb : betaLRF j = ⟨j.x / j.t, j.y / j.t, j.z / j.t⟩ := by
    unfold betaLRF; rw [if_pos hs]
    simp only [V3.div, V3.smul, V4.vec, mul_one_div]
  refine ⟨hb, fun h p => ?_, fun h p => ⟨?_, ?_⟩⟩
  · unfold toLRF; rw [if_neg (not_lt.2 h)]
  · unfold toLRF; rw [if_pos h]
  · obtain ⟨hg, hv⟩ := gamma_spec (beta_sub hj.1)
    have ht := hj.2.ne'
    unfold boost V4.mk' V4.vec V3.sub V3.smul V3.dot
    simp only
    generalize hG : gamma (betaLRF j) = g at hg hv
    rw [hb] at hv ⊢
    simp only at hv ⊢
    have hk : g / (g + 1) * (g * (j.t - (j.x * (j.x / j.t) + j.y * (j.y / j.t) + j.z * (j.z / j.t))) + j.t) = j.t := by
      have e : j.x * (j.x / j.t) + j.y * (j.y / j.t) + j.z * (j.z / j.t) = j.t * (1 - 1 / g ^ 2) := by
        rw [← hv]; field_simp
      rw [e]
      have : g + 1 ≠ 0 := by positivity
      field_simp
      ring
    rw [hk]
    congr 1 <;> field_simp <;> ring

/-- For a current at rest the root is the sum of free energy and potentials, or the negative of it. -/
theorem C128_comoving (P : Pars) (hL : 0 < P.lambda) (e m : ℝ) (p : V3) {rho : ℝ} (h : 0 < rho) :
    rootEq P e p ⟨rho, 0, 0, 0⟩ m = .ok 0 ↔ e = restEnergy P p.abs rho m ∨ e = -restEnergy P p.abs rho m := by
  have hj : Matter ⟨rho, 0, 0, 0⟩ := ⟨by simp; positivity, h⟩
  have hb : (betaLRF ⟨rho, 0, 0, 0⟩).abs = 0 := by
    unfold betaLRF; split_ifs <;> simp [V3.div, V3.smul, V4.vec, V3.abs, V3.dot, zero3]
  have ht : toLRF ⟨rho, 0, 0, 0⟩ (V4.mk' e p) = V4.mk' e p := by
    unfold toLRF; rw [hb, if_neg (not_lt.2 small_pos.le)]
  have hd : density ⟨rho, 0, 0, 0⟩ = rho := by
    unfold density; simp only; rw [show rho ^ 2 - 0 ^ 2 - 0 ^ 2 - 0 ^ 2 = rho ^ 2 by ring, Real.sqrt_sq h.le]
  rw [C128_equation P hL e m p hj, ht, hd]
  change Except.ok (e ^ 2 - restEnergy P p.abs rho m ^ 2) = _ ↔ _
  rw [Except.ok.injEq, sub_eq_zero, sq_eq_sq_iff_eq_or_eq_neg]

/-! ### The search -/

theorem scan_spec (solve : ℝ → ℝ → Option ℝ) (g : ℝ) (coin : Nat → Bool) (fuel : Nat) :
    ∀ i k : Nat, i ≤ 999 → k ≤ 999 → (999 - i) + (999 - k) < fuel →
    ∃ r, scan solve g coin fuel (g - (1 + i) / 10) (g + (1 + k) / 10) = some r ∧
      (∀ x, r = .ok x → ∃ i' k' : Nat, i' ≤ 999 ∧ k' ≤ 999 ∧
        solve (g - (1 + i') / 10) (g + (1 + k') / 10) = some x) ∧
      (∀ e, r = .error e → e = .noRoot ∧ solve (g - 100) (g + 100) = none) := by
  induction fuel with
  | zero => intro i k _ _ h; omega
  | succ n ih =>
    intro i k hi hk hf
    rw [scan]
    cases hs : solve (g - (1 + (i : ℝ)) / 10) (g + (1 + (k : ℝ)) / 10) with
    | some x =>
      refine ⟨.ok x, rfl, fun y hy => ⟨i, k, hi, hk, ?_⟩, fun e he => by cases he⟩
      cases hy; exact hs
    | none =>
      simp only
      have ci : g - (1 + (i : ℝ)) / 10 > g - 100 ↔ i < 999 := by
        constructor
        · intro h; have : (i : ℝ) < 999 := by linarith
          exact_mod_cast this
        · intro h; have : (i : ℝ) < 999 := by exact_mod_cast h
          linarith
      have ck : g + (1 + (k : ℝ)) / 10 < g + 100 ↔ k < 999 := by
        constructor
        · intro h; have : (k : ℝ) < 999 := by linarith
          exact_mod_cast this
        · intro h; have : (k : ℝ) < 999 := by exact_mod_cast h
          linarith
      have right : k < 999 → ∃ r, scan solve g coin n (g - (1 + (i : ℝ)) / 10) (g + (1 + (k : ℝ)) / 10 + 1 / 10) = some r ∧ _ :=
        fun h => by
          have := ih i (k + 1) hi (by omega) (by omega)
          rw [show g + (1 + ((k + 1 : ℕ) : ℝ)) / 10 = g + (1 + (k : ℝ)) / 10 + 1 / 10 by push_cast; ring] at this
          exact this
      have left : i < 999 → ∃ r, scan solve g coin n (g - (1 + (i : ℝ)) / 10 - 1 / 10) (g + (1 + (k : ℝ)) / 10) = some r ∧ _ :=
        fun h => by
          have := ih (i + 1) k (by omega) hk (by omega)
          rw [show g - (1 + ((i + 1 : ℕ) : ℝ)) / 10 = g - (1 + (i : ℝ)) / 10 - 1 / 10 by push_cast; ring] at this
          exact this
      by_cases h1 : i < 999 <;> by_cases h2 : k < 999
      · rw [if_neg (by rw [ci, ck]; tauto), if_neg (by rw [ci]; tauto), if_neg (by rw [ck]; tauto)]
        split_ifs
        · exact right h2
        · exact left h1
      · rw [if_neg (by rw [ci, ck]; tauto), if_neg (by rw [ci]; tauto), if_pos (by rw [ck]; tauto)]
        exact left h1
      · rw [if_neg (by rw [ci, ck]; tauto), if_pos (by rw [ci]; tauto)]
        exact right h2
      · rw [if_pos (by rw [ci, ck]; tauto)]
        refine ⟨_, rfl, fun x hx => (by cases hx), fun e he => ⟨by cases he; rfl, ?_⟩⟩
        have hi' : i = 999 := by omega
        have hk' : k = 999 := by omega
        subst hi' hk'
        rw [show g - 100 = g - (1 + ((999 : ℕ) : ℝ)) / 10 by push_cast; ring,
          show g + 100 = g + (1 + ((999 : ℕ) : ℝ)) / 10 by push_cast; ring]
        exact hs

theorem widths_spec (solve : ℝ → ℝ → Option ℝ) (g : ℝ) (ws : List ℝ) :
    (∀ x, widths solve g ws = some x → ∃ w ∈ ws, solve (g - w) (g + w) = some x) ∧
    (widths solve g ws = none → ∀ w ∈ ws, solve (g - w) (g + w) = none) := by
  induction ws with
  | nil => exact ⟨fun x h => by simp [widths] at h, fun _ w hw => absurd hw List.not_mem_nil⟩
  | cons w ws ih =>
    rw [widths]
    cases h : solve (g - w) (g + w) with
    | some y =>
      refine ⟨fun x hx => ⟨w, List.mem_cons_self .., ?_⟩, fun hc => by simp at hc⟩
      rw [h]; exact hx
    | none =>
      refine ⟨fun x hx => ?_, fun hn v hv => ?_⟩
      · obtain ⟨v, hv, e⟩ := ih.1 x hx
        exact ⟨v, List.mem_cons_of_mem _ hv, e⟩
      · rcases List.mem_cons.1 hv with rfl | hv
        · exact h
        · exact ih.2 hn v hv

/-- **C128.** The search ends, whatever the solver and the random numbers do, after at most 4 + 1999 calls of the solver;
what is returned was found by the solver in an interval around the free energy inside of ±100 GeV, and an error is
thrown only if the solver fails on the full interval. -/
theorem C128_search (solve : ℝ → ℝ → Option ℝ) (g : ℝ) (coin : Nat → Bool) :
    ∃ r, frameEnergy solve g coin 1999 = some r ∧
      (∀ x, r = .ok x → ∃ lo hi, g - 100 ≤ lo ∧ lo < g ∧ g < hi ∧ hi ≤ g + 100 ∧ solve lo hi = some x) ∧
      (∀ e, r = .error e → e = .noRoot ∧ solve (g - 100) (g + 100) = none ∧
        ∀ w ∈ [0.05, 0.5, 5, 50], solve (g - w) (g + w) = none) := by
  unfold frameEnergy
  cases h : widths solve g [5 / 100, 5 / 10, 5, 50] with
  | some x =>
    refine ⟨_, rfl, fun y hy => ?_, fun e he => by cases he⟩
    cases hy
    obtain ⟨w, hw, e⟩ := (widths_spec solve g _).1 x h
    refine ⟨g - w, g + w, ?_, ?_, ?_, ?_, e⟩ <;>
    · simp only [List.mem_cons, List.not_mem_nil, or_false] at hw
      rcases hw with rfl | rfl | rfl | rfl <;> linarith
  | none =>
    obtain ⟨r, h1, h2, h3⟩ := scan_spec solve g coin 1999 0 0 (by omega) (by omega) (by omega)
    rw [show g - (1 + ((0 : ℕ) : ℝ)) / 10 = g - 1 / 10 by push_cast; ring,
      show g + (1 + ((0 : ℕ) : ℝ)) / 10 = g + 1 / 10 by push_cast; ring] at h1
    refine ⟨r, h1, fun x hx => ?_, fun e he => ⟨(h3 e he).1, (h3 e he).2, ?_⟩⟩
    · obtain ⟨i, k, hi, hk, e⟩ := h2 x hx
      have hi' : (i : ℝ) ≤ 999 := by exact_mod_cast hi
      have hk' : (k : ℝ) ≤ 999 := by exact_mod_cast hk
      have h0 : (0 : ℝ) ≤ i := Nat.cast_nonneg i
      have h0' : (0 : ℝ) ≤ k := Nat.cast_nonneg k
      exact ⟨_, _, by linarith, by linarith, by linarith, by linarith, e⟩
    · intro w hw
      refine (widths_spec solve g _).2 h w ?_
      simp only [List.mem_cons, List.not_mem_nil, or_false] at hw ⊢
      rcases hw with rfl | rfl | rfl | rfl
      · left; norm_num
      · right; left; norm_num
      · right; right; left; rfl
      · right; right; right; rfl

/-- **C128.** For a current at rest, with a solver that keeps its promises, the energy is that of the potentials, or the
negative of it, to `5e-8`. -/
theorem C128_energy (P : Pars) (hL : 0 < P.lambda) (m : ℝ) (p : V3) {rho : ℝ} (h : 0 < rho) (coin : Nat → Bool)
    (f : ℝ → ℝ) (hf : ∀ e, rootEq P e p ⟨rho, 0, 0, 0⟩ m = .ok (f e))
    (step : ℝ → ℝ → Nat → Option (ℝ × ℝ)) (hb : ∀ lo hi, Brackets f (step lo hi) lo hi) (x : ℝ)
    (hx : frameEnergy (fun lo hi => tryFindRoot f (step lo hi) lo hi 100000) (Real.sqrt (m * m + p.sqr)) coin 1999 =
      some (.ok x)) :
    ∃ r, (r = restEnergy P p.abs rho m ∨ r = -restEnergy P p.abs rho m) ∧ |x - r| ≤ 1 / 20000000 * |r| := by
  obtain ⟨r, h1, h2, -⟩ := C128_search (fun lo hi => tryFindRoot f (step lo hi) lo hi 100000)
    (Real.sqrt (m * m + p.sqr)) coin
  rw [hx] at h1
  obtain ⟨lo, hi, -, -, -, -, hs⟩ := h2 x (Option.some.inj h1).symm
  have hfc : f = fun e => e ^ 2 - restEnergy P p.abs rho m ^ 2 := by
    funext e
    have hj : Matter ⟨rho, 0, 0, 0⟩ := ⟨by simp; positivity, h⟩
    have hbt : (betaLRF ⟨rho, 0, 0, 0⟩).abs = 0 := by
      unfold betaLRF; split_ifs <;> simp [V3.div, V3.smul, V4.vec, V3.abs, V3.dot, zero3]
    have ht : toLRF ⟨rho, 0, 0, 0⟩ (V4.mk' e p) = V4.mk' e p := by
      unfold toLRF; rw [hbt, if_neg (not_lt.2 small_pos.le)]
    have hd : density ⟨rho, 0, 0, 0⟩ = rho := by
      unfold density; simp only; rw [show rho ^ 2 - 0 ^ 2 - 0 ^ 2 - 0 ^ 2 = rho ^ 2 by ring, Real.sqrt_sq h.le]
    have := hf e
    rw [C128_equation P hL e m p hj, ht, hd] at this
    exact (Except.ok.inj this).symm
  have hc : Continuous f := by rw [hfc]; fun_prop
  obtain ⟨r, h0, -, -, h3⟩ := C131_root hc.continuousOn (hb lo hi) hs
  refine ⟨r, ?_, h3⟩
  have := hf r
  rw [h0] at this
  exact (C128_comoving P hL r m p h).1 this

/-! ### The gradient -/

/-- **C128.** The gradient is the central difference in each direction, and zero as soon as the current is not known
at one of the six places. -/
theorem C128_gradient (cur : V3 → Option V4) (E : V4 → ℝ) (d r : V3) :
    energyGradient cur (fun j => .ok (E j)) d r = .ok (do
      let x1 ← cur ⟨r.x - d.x, r.y, r.z⟩
      let x2 ← cur ⟨r.x + d.x, r.y, r.z⟩
      let y1 ← cur ⟨r.x, r.y - d.y, r.z⟩
      let y2 ← cur ⟨r.x, r.y + d.y, r.z⟩
      let z1 ← cur ⟨r.x, r.y, r.z - d.z⟩
      let z2 ← cur ⟨r.x, r.y, r.z + d.z⟩
      some ⟨(E x2 - E x1) / (2 * d.x), (E y2 - E y1) / (2 * d.y), (E z2 - E z1) / (2 * d.z)⟩) := by
  unfold energyGradient
  simp only [V3.sub, V3.add, sub_zero, add_zero, bind_ok]
  cases cur ⟨r.x - d.x, r.y, r.z⟩ <;> cases cur ⟨r.x + d.x, r.y, r.z⟩ <;> try rfl
  cases cur ⟨r.x, r.y - d.y, r.z⟩ <;> cases cur ⟨r.x, r.y + d.y, r.z⟩ <;> try rfl
  cases cur ⟨r.x, r.y, r.z - d.z⟩ <;> cases cur ⟨r.x, r.y, r.z + d.z⟩ <;> rfl

/-- It is exact where the energy is a polynomial of second degree in the place. -/
theorem C128_gradient_exact (cur : V3 → V4) (E : V4 → ℝ) (d r : V3) (hd : d.x ≠ 0 ∧ d.y ≠ 0 ∧ d.z ≠ 0)
    (e0 bx by' bz cx cy cz : ℝ)
    (hE : ∀ s : V3, E (cur s) = e0 + bx * s.x + by' * s.y + bz * s.z + cx * s.x ^ 2 + cy * s.y ^ 2 + cz * s.z ^ 2) :
    energyGradient (fun s => some (cur s)) (fun j => .ok (E j)) d r =
      .ok (some ⟨bx + 2 * cx * r.x, by' + 2 * cy * r.y, bz + 2 * cz * r.z⟩) := by
  rw [C128_gradient]
  simp only [Option.bind_eq_bind, Option.bind_some, hE]
  obtain ⟨h1, h2, h3⟩ := hd
  congr 3 <;> field_simp <;> ring

/-- The current is that of the lattice inside of it, computed from the particles outside if that is wanted. -/
theorem C128_current (l : V3 → Option V4) (outside : Bool) (direct : V3 → V4) (r : V3) :
    (∀ j, l r = some j → currentAt (some l) outside direct r = some j) ∧
    (l r = none → currentAt (some l) outside direct r = if outside then some (direct r) else none) ∧
    currentAt none outside direct r = if outside then some (direct r) else none := by
  refine ⟨fun j h => ?_, fun h => ?_, rfl⟩ <;> unfold currentAt <;> simp [h]

/-- **C128 is false for antimatter**: the energy does not depend on the sign of the density, and the force on an
antibaryon is minus that on the baryon, so that in antimatter it points the wrong way. -/
theorem C128_antimatter_false (P : Pars) (e m : ℝ) (p : V3) {rho : ℝ} (h : 0 < rho) (d : Nat) (g : V3) :
    rootEq P e p ⟨-rho, 0, 0, 0⟩ m = rootEq P e p ⟨rho, 0, 0, 0⟩ m ∧
    g.neg.smul (forceScale (Pdg.getAntiparticle d)).1 = (g.neg.smul (forceScale d).1).neg := by
  constructor
  · have hb : ∀ a : ℝ, (betaLRF ⟨a, 0, 0, 0⟩).abs = 0 := by
      intro a
      unfold betaLRF; split_ifs <;> simp [V3.div, V3.smul, V4.vec, V3.abs, V3.dot, zero3]
    have ht : ∀ a : ℝ, toLRF ⟨a, 0, 0, 0⟩ (V4.mk' e p) = V4.mk' e p := by
      intro a; unfold toLRF; rw [hb, if_neg (not_lt.2 small_pos.le)]
    have ha : abs4 ⟨-rho, 0, 0, 0⟩ = abs4 ⟨rho, 0, 0, 0⟩ := by
      unfold abs4 V4.sqr V4.dot V4.vec V3.dot; simp
    unfold rootEq
    rw [ha, ht, ht]
  · rw [C125_antiparticle]
    simp only [V3.smul, V3.neg]
    congr 1 <;> ring

/-- A flowing current is matter in the sense used. -/
example : Matter ⟨5, 3, 0, 0⟩ ∧ reallySmall < (5 : ℝ) ∧ (betaLRF ⟨5, 3, 0, 0⟩).abs > reallySmall := by
  refine ⟨⟨by norm_num, by norm_num⟩, by unfold reallySmall; norm_num, ?_⟩
  unfold betaLRF
  rw [if_pos (by unfold reallySmall; norm_num)]
  simp only [V3.div, V3.smul, V4.vec, V3.abs, V3.dot]
  rw [show (3 * (1 / 5) * (3 * (1 / 5)) + 0 * (1 / 5) * (0 * (1 / 5)) + 0 * (1 / 5) * (0 * (1 / 5)) : ℝ) = (3 / 5) ^ 2 by norm_num,
    Real.sqrt_sq (by norm_num)]
  unfold reallySmall; norm_num

end Verif.Pot
