import Verif.Chem.Density

/-! C164: how good the chemical potentials and the maxima are. -/

namespace Verif.Chem
open Verif.Ini Real

/-- The tolerance of the final check, 0.001 particles per fm³. -/
noncomputable def tolerance : ℝ := 1 / 1000 * (197327053 / 1000000000) ^ 3

theorem domain_of {m s mu : ℝ} (hs : s = 1 ∨ s = -1) (h : s = -1 → mu ≤ m) : mu ∈ Domain m s := by
  rcases hs with rfl | rfl
  · exact .inl rfl
  · exact .inr (.inr ⟨rfl, h rfl⟩)

/-- **C164.** The chemical potential returned lies between those of densities that are smaller and larger by the
tolerance, and a gas with it exists. -/
theorem C164_bracket {S : Solver} {g m n T s eps mu : ℝ} (hg : 0 < g) (hm : 0 ≤ m) (hT : 0 < T) (hs : s = 1 ∨ s = -1)
    (h : effective S g m n T s eps = .ok mu) :
    mu ∈ Domain m s ∧ |n - gas g m T mu s| ≤ tolerance ∧ ∀ a ∈ Domain m s,
      (gas g m T a s < n - tolerance → a < mu) ∧ (n + tolerance < gas g m T a s → mu < a) := by
  obtain ⟨-, h1, h2, -⟩ := (C164_returned S g m n T s eps mu).1 h
  rw [C164_density] at h1
  have hd := domain_of hs h2
  have mono := (C164_monotone (s := s) hg hm hT).2.monotoneOn
  have h3 := abs_le.1 h1
  refine ⟨hd, h1, fun a ha => ⟨fun hl => ?_, fun hl => ?_⟩⟩
  · by_contra hc
    have := mono hd ha (not_lt.1 hc)
    unfold tolerance at hl
    simp only at this
    linarith
  · by_contra hc
    have := mono ha hd (not_lt.1 hc)
    unfold tolerance at hl
    simp only at this
    linarith

/-- **C164.** A result other than 0 reproduces the density with the precision asked for. -/
theorem C164_accurate {S : Solver} {g m n T s eps mu : ℝ} (h : effective S g m n T s eps = .ok mu) (h0 : mu ≠ 0) :
    |n - gas g m T mu s| < eps := by
  obtain ⟨hc, -⟩ := (C164_returned S g m n T s eps mu).1 h
  rw [← C164_density]
  rcases hc with ⟨k, st', -, -, -, h4, -⟩ | ⟨h4, -⟩
  · exact h4
  · exact absurd h4 h0

/-- **C164.** There is no result if bosons are denser than the critical density, by more than the tolerance. -/
theorem C164_condensate {S : Solver} {g m n T eps : ℝ} (hg : 0 < g) (hm : 0 ≤ m) (hT : 0 < T)
    (h : gas g m T m (-1) + tolerance < n) : ∃ e, effective S g m n T (-1) eps = .error e := by
  cases he : effective S g m n T (-1) eps with
  | error e => exact ⟨e, rfl⟩
  | ok mu =>
    obtain ⟨h1, h2, -⟩ := C164_bracket hg hm hT (.inr rfl) he
    have hm' : mu ≤ m := by
      rcases h1 with h | h | h
      · norm_num at h
      · norm_num at h
      · exact h.2
    have := (C164_monotone (s := -1) hg hm hT).2.monotoneOn h1 (.inr (.inr ⟨rfl, le_rfl⟩)) hm'
    have h3 := (abs_le.1 h2).2
    linarith

/-! ### Root finders -/

/-- A root finder that stays where it is. -/
def rest (x : ℝ) : Solver := ⟨ℝ, fun _ => x, fun y => some y, fun y => y⟩

theorem rest_at (x y : ℝ) (k : ℕ) : (rest x).at ((rest x).set y) k = some x := by
  induction k with
  | zero => rfl
  | succ k ih => rw [Solver.at, ih]; rfl

theorem fermi_pos (p m T mu : ℝ) : 0 ≤ juttner p m T mu 1 := by
  rw [C124_occupation]
  have := exp_pos ((energy m p - mu) / T)
  positivity

/-- **C164** is false for dilute gases: the precision of the density is absolute, so that a root finder may stop where
the density is larger than the given one by any factor. -/
theorem C164_dilute_false (K : ℝ) : ∃ (S : Solver) (n mu : ℝ), 0 < n ∧
    effective S 2 1 n (1 / 10) 1 precision = .ok mu ∧ K * n ≤ gas 2 1 (1 / 10) mu 1 := by
  obtain ⟨C, hC, hs⟩ := gas_small (g := 2) (m := 1) (T := 1 / 10) (s := 1) two_pos zero_le_one (by norm_num) (.inl rfl)
  have hpr : 0 < precision := by unfold precision; norm_num
  obtain ⟨mu, h0, hmu⟩ : ∃ mu ≤ (0 : ℝ), C * exp (mu / (1 / 10)) < precision := by
    refine ⟨min 0 (1 / 10 * log (precision / (2 * C))), min_le_left _ _, ?_⟩
    have : exp (min 0 (1 / 10 * log (precision / (2 * C))) / (1 / 10)) ≤ precision / (2 * C) := by
      have hp2 : 0 < precision / (2 * C) := by positivity
      calc exp (min 0 (1 / 10 * log (precision / (2 * C))) / (1 / 10)) ≤ exp (log (precision / (2 * C))) := by
            apply exp_le_exp.2
            rw [div_le_iff₀ (by norm_num), mul_comm (log _)]
            exact min_le_right _ _
        _ = _ := exp_log hp2
    calc C * exp (min 0 (1 / 10 * log (precision / (2 * C))) / (1 / 10)) ≤ C * (precision / (2 * C)) := by gcongr
      _ = precision / 2 := by field_simp
      _ < precision := by linarith
  have hg := (C164_monotone (g := 2) (m := 1) (T := 1 / 10) (s := 1) two_pos zero_le_one (by norm_num)).1 mu (.inl rfl)
  have hlt := (hs mu h0).trans_lt hmu
  set G := gas 2 1 (1 / 10) mu 1 with hG
  have hK : 0 < max K 1 := lt_of_lt_of_le one_pos (le_max_right _ _)
  have hn : G / max K 1 ≤ G := div_le_self hg.le (le_max_right _ _)
  have hn0 : 0 < G / max K 1 := div_pos hg hK
  have habs : |G / max K 1 - G| < precision := by
    rw [abs_lt]
    constructor <;> linarith
  refine ⟨rest mu, G / max K 1, mu, hn0, ?_, ?_⟩
  · rw [C164_returned]
    refine ⟨.inl ⟨1, mu, le_rfl, by norm_num, rest_at mu _ 1, ?_, rfl, fun i _ h1 h2 _ => by omega⟩, ?_, ?_, ?_⟩
    · rw [C164_density]
      exact habs
    · rw [C164_density]
      refine habs.le.trans ?_
      unfold precision
      norm_num
    · intro h
      norm_num at h
    · exact fermi_pos _ _ _ _
  · rw [mul_div_assoc', div_le_iff₀ hK, mul_comm]
    exact mul_le_mul_of_nonneg_left (le_max_left _ _) hg.le

/-- **C164** is false if the root finder does not converge: 0 is returned if it is acceptable, although the density
differs by more than the precision. -/
theorem C164_unconverged_false (g m T : ℝ) : ∃ (S : Solver) (n : ℝ),
    effective S g m n T 1 precision = .ok 0 ∧ precision < |n - gas g m T 0 1| := by
  have hpr : 0 < precision := by unfold precision; norm_num
  have e : |gas g m T 0 1 + 2 * precision - gas g m T 0 1| = 2 * precision := by
    rw [add_sub_cancel_left, abs_of_pos (by positivity)]
  refine ⟨rest 0, gas g m T 0 1 + 2 * precision, ?_, by rw [e]; linarith⟩
  rw [C164_returned]
  refine ⟨.inr ⟨rfl, fun k _ _ => ⟨(0 : ℝ), rest_at 0 _ k, ?_⟩⟩, ?_, ?_, fermi_pos _ _ _ _⟩
  · rw [C164_density]
    show precision ≤ |gas g m T 0 1 + 2 * precision - gas g m T 0 1|
    rw [e]
    linarith
  · rw [C164_density, e]
    unfold precision
    norm_num
  · intro h
    norm_num at h

/-! ### The maximum -/

theorem loopMax_some (S : Solver) (F : ℝ → ℝ) (eps : ℝ) (j k : ℕ) (p0 : ℝ) (st : S.State) (q : ℝ)
    (h : loopMax S F eps j k p0 st = .ok (some q)) : |F q| < eps := by
  fun_induction loopMax S F eps j k p0 st with
  | case1 => cases h
  | case2 j k p0 st st' hi hc =>
    have := Option.some.inj (Except.ok.inj h)
    rw [← this]; exact hc
  | case3 j k p0 st st' hi hc ih => exact ih h
  | case4 => cases h
  | case5 k p0 st hi j p hc =>
    have := Option.some.inj (Except.ok.inj h)
    rw [← this]; exact hc
  | case6 k p0 st hi j p hc ih => exact ih h

theorem loopMax_error (S : Solver) (F : ℝ → ℝ) (eps : ℝ) (j k : ℕ) (p0 : ℝ) (st : S.State) (e : Err)
    (h : loopMax S F eps j k p0 st = .error e) : e = .stuck ∧
      (∃ i st', S.at st i = some st' ∧ S.iterate st' = none) ∧
      ∀ a, 1 ≤ a → a ≤ j → ∃ i st', S.at (S.set (p0 + a * (5 / 100))) i = some st' ∧ S.iterate st' = none := by
  fun_induction loopMax S F eps j k p0 st with
  | case1 => cases h
  | case2 => cases h
  | case3 j k p0 st st' hi hc ih =>
    obtain ⟨h1, ⟨i, s2, h2, h3⟩, h4⟩ := ih h
    exact ⟨h1, ⟨i + 1, s2, by rw [S.at_succ hi]; exact h2, h3⟩, h4⟩
  | case4 k p0 st hi =>
    exact ⟨(Except.error.inj h).symm, ⟨0, st, rfl, hi⟩, fun a h1 h2 => by omega⟩
  | case5 => cases h
  | case6 k p0 st hi j p hc ih =>
    obtain ⟨h1, h2, h3⟩ := ih h
    refine ⟨h1, ⟨0, st, rfl, hi⟩, ?_⟩
    intro a ha1 ha2
    by_cases h0 : a = 1
    · subst h0
      rw [Nat.cast_one, one_mul]
      exact h2
    · obtain ⟨b, rfl⟩ : ∃ b, a = b + 1 := ⟨a - 1, by omega⟩
      have := h3 b (by omega) (by omega)
      rw [show p0 + ((b + 1 : ℕ) : ℝ) * (5 / 100) = p + (b : ℝ) * (5 / 100) by push_cast; ring]
      exact this

/-- **C164.** The momentum found solves the equation of the maximum with the precision asked for; the search fails only
if the root finder is stuck for each of the guesses 0.05, 0.1, ..., 5.05 GeV. -/
theorem C164_search (S : Solver) (m T mu s eps : ℝ) :
    (∀ q, findMax S m T mu s eps = .ok (some q) → |pMaxEquation q m T mu s| < eps) ∧
    (∀ e, findMax S m T mu s eps = .error e → e = .stuck ∧ ∀ a ≤ 100, ∃ i st',
      S.at (S.set (0.05 * (a + 1 : ℕ))) i = some st' ∧ S.iterate st' = none) := by
  constructor
  · intro q h
    exact loopMax_some S (fun p => pMaxEquation p m T mu s) eps _ _ _ _ q h
  · intro e h
    obtain ⟨h1, h2, h3⟩ := loopMax_error _ _ _ _ _ _ _ _ h
    refine ⟨h1, fun a ha => ?_⟩
    by_cases h0 : a = 0
    · subst h0
      rw [show (0.05 : ℝ) * ((0 + 1 : ℕ) : ℝ) = 50 / 1000 by norm_num]
      exact h2
    · have := h3 a (by omega) ha
      rw [show (0.05 : ℝ) * ((a + 1 : ℕ) : ℝ) = 50 / 1000 + a * (5 / 100) by push_cast; ring]
      exact this

/-! ### A species -/

/-- **C164.** The chemical potential of a species is that of an ideal gas of its degeneracy and statistics, at the
density of its particles in the volume up to 0.001 per fm³; the sampled distribution is that of a gas. -/
theorem C164_species {S S' : Solver} {count j : ℕ} {m V T : ℝ} {q : Solved} (hm : 0 ≤ m) (hT : 0 < T)
    (h : solve S S' count j m V T = .ok q) :
    let s : ℝ := if j % 2 = 1 then 1 else -1
    |(count : ℝ) / V - gas (j + 1) m T q.mu s / 0.197327053 ^ 3| ≤ 0.001 ∧ (j % 2 = 0 → q.mu ≤ m) ∧
      Gas m T q.mu s ∧ (q.pmax = 0 ∨ |pMaxEquation q.pmax m T q.mu s| < precision) := by
  intro s
  have hs : statistics j = s := by
    unfold statistics
    show _ = if j % 2 = 1 then (1 : ℝ) else -1
    rcases Nat.mod_two_eq_zero_or_one j with h | h <;> simp [h]
  unfold solve at h
  simp only at h
  rw [hs] at h
  have hss : s = 1 ∨ s = -1 := by
    show (if j % 2 = 1 then (1 : ℝ) else -1) = 1 ∨ (if j % 2 = 1 then (1 : ℝ) else -1) = -1
    split_ifs <;> simp
  cases he : effective S (j + 1) m (count / (V / (hbarc * hbarc * hbarc))) T s precision with
  | error e => rw [he] at h; cases h
  | ok mu =>
    rw [he] at h
    simp only at h
    cases hf : findMax S' m T mu s precision with
    | error e => rw [hf] at h; cases h
    | ok r =>
      rw [hf] at h
      have hq := Except.ok.inj h
      have hmu : q.mu = mu := by rw [← hq]
      have hp : q.pmax = r.getD 0 := by rw [← hq]
      obtain ⟨h1, h2, -⟩ := C164_bracket (by positivity) hm hT hss he
      have hb : j % 2 = 0 → q.mu ≤ m := by
        intro h0
        have hs1 : s = -1 := if_neg (by omega)
        rw [hs1] at h1
        rw [hmu]
        rcases h1 with h | h | h
        · norm_num at h
        · norm_num at h
        · exact h.2
      refine ⟨?_, hb, ?_, ?_⟩
      · rw [hmu]
        have hh : (0 : ℝ) < 0.197327053 ^ 3 := by norm_num
        have e1 : (count : ℝ) / V - gas (j + 1) m T mu s / 0.197327053 ^ 3 =
            (count / (V / (hbarc * hbarc * hbarc)) - gas (j + 1) m T mu s) / 0.197327053 ^ 3 := by
          have : hbarc * hbarc * hbarc = 0.197327053 ^ 3 := by unfold hbarc; norm_num
          rw [this, div_div_eq_mul_div]
          field_simp
        rw [e1, abs_div, abs_of_pos hh, div_le_iff₀ hh]
        refine h2.trans (le_of_eq ?_)
        unfold tolerance
        norm_num
      · rcases Nat.mod_two_eq_zero_or_one j with h0 | h0
        · have hs1 : s = -1 := if_neg (by omega)
          rw [hs1]
          exact (C124_gas hT).2.2 (hb h0)
        · have hs1 : s = 1 := if_pos h0
          rw [hs1]
          exact (C124_gas hT).1
      · rw [hp, hmu]
        cases r with
        | none => exact .inl rfl
        | some x => exact .inr ((C164_search S' m T mu s precision).1 x hf)

theorem loopMax_rest (S : Solver) (F : ℝ → ℝ) (eps : ℝ) (st : S.State) (hi : S.iterate st = some st)
    (hx : eps ≤ |F (S.x st)|) (j k : ℕ) (p0 : ℝ) : loopMax S F eps j k p0 st = .ok none := by
  induction k with
  | zero => rw [loopMax.eq_def]
  | succ k ih =>
    rw [loopMax.eq_def]
    simp only [hi]
    rw [if_neg (not_lt.2 hx), ih]

/-- **C164** is false if the search for the maximum does not converge: no error is reported, the maximum is taken to
be 0, and momenta are drawn uniformly up to 10 GeV. Here a nucleon at T = 0.1 GeV. -/
theorem C164_uniform_false : ∃ (S S' : Solver) (V : ℝ) (q : Solved), 0 < V ∧ solve S S' 1 1 1 V (1 / 10) = .ok q ∧
    ∀ (table : ℕ → Option Solved) (mass : ℕ → ℝ) (spin : ℕ → ℕ) (T : ℝ) (pdg : ℕ), table pdg = some q →
      ∀ u c r, quantumSample table mass spin T pdg ((u, c) :: r) = .ok (10 * u) := by
  have hg := (C164_monotone (g := 2) (m := 1) (T := 1 / 10) (s := 1) two_pos zero_le_one (by norm_num)).1 0 (.inl rfl)
  have hh : 0 < hbarc * hbarc * hbarc := by unfold hbarc; norm_num
  refine ⟨rest 0, rest 0, hbarc * hbarc * hbarc / gas 2 1 (1 / 10) 0 1, ⟨0, 0⟩, div_pos hh hg, ?_, ?_⟩
  · have hn : ((1 : ℕ) : ℝ) / (hbarc * hbarc * hbarc / gas 2 1 (1 / 10) 0 1 / (hbarc * hbarc * hbarc)) =
        gas 2 1 (1 / 10) 0 1 := by
      have := hg.ne'
      have := hh.ne'
      generalize hbarc * hbarc * hbarc = H at *
      field_simp
      simp
    have hst : statistics 1 = 1 := by unfold statistics; norm_num
    have h1 : effective (rest 0) (((1 : ℕ) : ℝ) + 1) 1 (gas 2 1 (1 / 10) 0 1) (1 / 10) 1 precision = .ok 0 := by
      rw [show (((1 : ℕ) : ℝ) + 1) = 2 by norm_num, C164_returned]
      refine ⟨.inl ⟨1, (0 : ℝ), le_rfl, by norm_num, rest_at 0 _ 1, ?_, rfl, fun i _ h1 h2 _ => by omega⟩, ?_, ?_,
        fermi_pos _ _ _ _⟩
      · rw [C164_density, sub_self, abs_zero]
        unfold precision
        norm_num
      · rw [C164_density, sub_self, abs_zero]
        norm_num
      · intro h
        norm_num at h
    have h2 : findMax (rest 0) 1 (1 / 10) 0 1 precision = .ok none := by
      unfold findMax
      apply loopMax_rest (rest 0) _ _ _ rfl
      show precision ≤ |pMaxEquation 0 1 (1 / 10) 0 1|
      unfold pMaxEquation precision
      have := exp_pos (-(√(0 * 0 + 1 * 1) - 0) / (1 / 10))
      simp only [mul_zero, zero_mul, zero_div, sub_zero, one_mul]
      rw [abs_of_pos (by positivity)]
      have := exp_pos (-√(0 + 1 * 1) / (1 / 10))
      simp only [one_mul] at *
      nlinarith [exp_pos (-√(0 + 1) / (1 / 10))]
    unfold solve
    simp only
    rw [hn, hst, h1]
    simp only
    rw [h2]
    rfl
  · intro table mass spin T pdg ht u c r
    refine (C124_sample ht ((u, c) :: r) (10 * u)).2 ⟨[], u, c, r, rfl, rfl, .inl ?_, fun e he => ?_⟩
    · simp
    · cases he

/-- A species that is found: the root finders are at the exact solutions. A massless Boltzmann gas has its maximum at
2T; here a nucleon. -/
example : ∃ (S : Solver) (mu : ℝ), effective S 2 1 (1 / 1000) (1 / 10) 1 precision = .ok mu ∧
    gas 2 1 (1 / 10) mu 1 = 1 / 1000 := by
  obtain ⟨mu, h, -⟩ := (C164_unique (g := 2) (m := 1) (T := 1 / 10) two_pos zero_le_one (by norm_num) (1 / 1000)
    (by norm_num)).1
  refine ⟨rest mu, mu, ?_, h⟩
  rw [C164_returned]
  refine ⟨.inl ⟨1, mu, le_rfl, by norm_num, rest_at mu _ 1, ?_, rfl, fun i _ h1 h2 _ => by omega⟩, ?_, ?_,
    fermi_pos _ _ _ _⟩
  · rw [C164_density, h, sub_self, abs_zero]
    unfold precision
    norm_num
  · rw [C164_density, h, sub_self, abs_zero]
    norm_num
  · intro h
    norm_num at h

end Verif.Chem
