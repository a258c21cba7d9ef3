import Verif.Chem.Model

/-! C164: what the search for the chemical potential returns. -/

namespace Verif.Chem
open Verif.Ini Real

/-- The k-th state of the root finder. -/
def Solver.at (S : Solver) (st : S.State) : ℕ → Option S.State
  | 0 => some st
  | k + 1 => (S.at st k).bind S.iterate

theorem Solver.at_succ (S : Solver) {st st' : S.State} (h : S.iterate st = some st') (k : ℕ) :
    S.at st (k + 1) = S.at st' k := by
  induction k with
  | zero => simp [Solver.at, h]
  | succ k ih => rw [Solver.at, ih]; rfl

theorem loop_ok (S : Solver) (F : ℝ → ℝ) (eps : ℝ) (N : ℕ) (st : S.State) (r : Option ℝ) :
    loop S F eps N st = .ok r ↔
      (∃ k st', 1 ≤ k ∧ k ≤ N ∧ S.at st k = some st' ∧ |F (S.x st')| < eps ∧ r = some (S.x st') ∧
        ∀ i st'', 1 ≤ i → i < k → S.at st i = some st'' → eps ≤ |F (S.x st'')|) ∨
      (r = none ∧ ∀ k, 1 ≤ k → k ≤ N → ∃ st', S.at st k = some st' ∧ eps ≤ |F (S.x st')|) := by
  induction N generalizing st with
  | zero =>
    unfold loop
    constructor
    · intro h
      exact .inr ⟨(Except.ok.inj h).symm, fun k h1 h2 => by omega⟩
    · rintro (⟨k, st', h1, h2, -⟩ | ⟨h, -⟩)
      · omega
      · rw [h]
  | succ N ih =>
    unfold loop
    cases hi : S.iterate st with
    | none =>
      simp only
      constructor
      · intro h; cases h
      · have h1 : S.at st 1 = none := by simp [Solver.at, hi]
        have hn : ∀ k, 1 ≤ k → S.at st k = none := by
          intro k hk
          induction k, hk using Nat.le_induction with
          | base => exact h1
          | succ k _ ih => rw [Solver.at, ih]; rfl
        rintro (⟨k, st', h1, h2, h3, -⟩ | ⟨h, h2⟩)
        · rw [hn k h1] at h3; cases h3
        · obtain ⟨st', h3, -⟩ := h2 1 le_rfl (by omega)
          rw [h1] at h3; cases h3
    | some st1 =>
      simp only
      by_cases hc : |F (S.x st1)| < eps
      · rw [if_pos hc]
        have e1 : S.at st 1 = some st1 := by simp [Solver.at, hi]
        constructor
        · intro h
          exact .inl ⟨1, st1, le_rfl, by omega, e1, hc, (Except.ok.inj h).symm, fun i _ h1 h2 _ => by omega⟩
        · rintro (⟨k, st', h1, h2, h3, h4, h5, h6⟩ | ⟨h, h2⟩)
          · by_cases hk : k = 1
            · subst hk
              rw [e1] at h3
              rw [h5, Option.some.inj h3]
            · exact absurd (h6 1 st1 le_rfl (by omega) e1) (not_le.2 hc)
          · obtain ⟨st', h3, h4⟩ := h2 1 le_rfl (by omega)
            rw [e1] at h3
            rw [← Option.some.inj h3] at h4
            exact absurd h4 (not_le.2 hc)
      · rw [if_neg hc, ih st1]
        have e1 : S.at st 1 = some st1 := by simp [Solver.at, hi]
        constructor
        · rintro (⟨k, st', h1, h2, h3, h4, h5, h6⟩ | ⟨h, h2⟩)
          · refine .inl ⟨k + 1, st', by omega, by omega, ?_, h4, h5, ?_⟩
            · rw [S.at_succ hi]; exact h3
            · intro i st'' hi1 hi2 hi3
              obtain ⟨i, rfl⟩ : ∃ i', i = i' + 1 := ⟨i - 1, by omega⟩
              rw [S.at_succ hi] at hi3
              by_cases h0 : i = 0
              · subst h0
                have : st1 = st'' := Option.some.inj hi3
                rw [← this]
                exact not_lt.1 hc
              · exact h6 i st'' (by omega) (by omega) hi3
          · refine .inr ⟨h, ?_⟩
            intro k hk1 hk2
            obtain ⟨k, rfl⟩ : ∃ i', k = i' + 1 := ⟨k - 1, by omega⟩
            rw [S.at_succ hi]
            by_cases h0 : k = 0
            · subst h0
              exact ⟨st1, rfl, not_lt.1 hc⟩
            · exact h2 k (by omega) (by omega)
        · rintro (⟨k, st', h1, h2, h3, h4, h5, h6⟩ | ⟨h, h2⟩)
          · obtain ⟨k, rfl⟩ : ∃ i', k = i' + 1 := ⟨k - 1, by omega⟩
            rw [S.at_succ hi] at h3
            by_cases h0 : k = 0
            · subst h0
              have : st1 = st' := Option.some.inj h3
              rw [← this] at h4
              exact absurd h4 hc
            · refine .inl ⟨k, st', by omega, by omega, h3, h4, h5, ?_⟩
              intro i st'' hi1 hi2 hi3
              exact h6 (i + 1) st'' (by omega) (by omega) (by rw [S.at_succ hi]; exact hi3)
          · refine .inr ⟨h, ?_⟩
            intro k hk1 hk2
            obtain ⟨st', h3, h4⟩ := h2 (k + 1) (by omega) (by omega)
            rw [S.at_succ hi] at h3
            exact ⟨st', h3, h4⟩

/-- What is demanded of a chemical potential: the density is reproduced up to 0.001 per fm³, bosons do not condense,
and the distribution function is not negative at a momentum of 5 MeV. -/
def Acceptable (g m n T s mu : ℝ) : Prop :=
  |n - densityOne g m T mu s| ≤ 1 / 1000 * (197327053 / 1000000000) ^ 3 ∧ (s = -1 → mu ≤ m) ∧
    0 ≤ juttner (1 / 200) m T mu s

theorem check_ok (g m n T s mu mu' : ℝ) : check g m n T s mu = .ok mu' ↔ mu' = mu ∧ Acceptable g m n T s mu := by
  unfold check Acceptable
  have e : |(n - densityOne g m T mu s) / (hbarc * hbarc * hbarc)| > 1 / 1000 ↔
      ¬ |n - densityOne g m T mu s| ≤ 1 / 1000 * (197327053 / 1000000000) ^ 3 := by
    have hp : 0 < hbarc * hbarc * hbarc := by unfold hbarc; positivity
    rw [abs_div, abs_of_pos hp, gt_iff_lt, lt_div_iff₀ hp, not_le]
    unfold hbarc
    rw [show (197327053 / 1000000000 : ℝ) * (197327053 / 1000000000) * (197327053 / 1000000000) =
      (197327053 / 1000000000) ^ 3 by ring]
  rw [show (5 / 1000 : ℝ) = 1 / 200 by norm_num]
  by_cases h1 : |n - densityOne g m T mu s| ≤ 1 / 1000 * (197327053 / 1000000000) ^ 3
  · rw [if_neg (by rw [e]; exact not_not.2 h1)]
    by_cases h2 : s = -1 ∧ mu > m
    · rw [if_pos h2]
      constructor
      · intro h; cases h
      · rintro ⟨-, -, h3, -⟩
        exact absurd (h3 h2.1) (not_le.2 h2.2)
    · rw [if_neg h2]
      by_cases h3 : juttner (1 / 200) m T mu s < 0
      · rw [if_pos h3]
        constructor
        · intro h; cases h
        · rintro ⟨-, -, -, h4⟩
          exact absurd h4 (not_le.2 h3)
      · rw [if_neg h3]
        constructor
        · intro h
          exact ⟨(Except.ok.inj h).symm, h1, fun hs => not_lt.1 fun hl => h2 ⟨hs, hl⟩, not_lt.1 h3⟩
        · rintro ⟨h, -⟩
          rw [h]
  · rw [if_pos (by rw [e]; exact h1)]
    constructor
    · intro h; cases h
    · rintro ⟨-, h, -⟩
      exact absurd h h1

/-- What the root finder offers: the first of 100000 states at which the density differs by less than the precision,
or 0 if there is no such state and it is never stuck. -/
def Candidate (S : Solver) (g m n T s eps mu : ℝ) : Prop :=
  let st := S.set (if s = -1 then 0.999999 * m else 1.05 * m)
  (∃ k st', 1 ≤ k ∧ k ≤ 100000 ∧ S.at st k = some st' ∧ |n - densityOne g m T mu s| < eps ∧ mu = S.x st' ∧
    ∀ i st'', 1 ≤ i → i < k → S.at st i = some st'' → eps ≤ |n - densityOne g m T (S.x st'') s|) ∨
  (mu = 0 ∧ ∀ k, 1 ≤ k → k ≤ 100000 → ∃ st', S.at st k = some st' ∧ eps ≤ |n - densityOne g m T (S.x st') s|)

theorem guess_eq (m s : ℝ) : guess m s = if s = -1 then 0.999999 * m else 1.05 * m := by
  unfold guess
  split_ifs <;> norm_num

theorem find_ok (S : Solver) (g m n T s eps mu : ℝ) :
    (∃ r, find S g m n T s (guess m s) eps = .ok r ∧ r.getD 0 = mu) ↔ Candidate S g m n T s eps mu := by
  unfold find Candidate
  rw [guess_eq]
  dsimp only
  have key := loop_ok S (fun mu => rootEquation g m n T mu s) eps 100000
    (S.set (if s = -1 then 0.999999 * m else 1.05 * m))
  constructor
  · rintro ⟨r, h, h1⟩
    rcases (key r).1 h with ⟨k, st', a1, a2, a3, a4, a5, a6⟩ | ⟨a1, a2⟩
    · rw [a5, Option.getD_some] at h1
      exact .inl ⟨k, st', a1, a2, a3, by rw [← h1]; exact a4, h1.symm, a6⟩
    · rw [a1, Option.getD_none] at h1
      exact .inr ⟨h1.symm, a2⟩
  · rintro (⟨k, st', h1, h2, h3, h4, h5, h6⟩ | ⟨h0, h⟩)
    · exact ⟨some mu, (key (some mu)).2 (.inl ⟨k, st', h1, h2, h3, by rw [← h5]; exact h4, by rw [h5], h6⟩), rfl⟩
    · exact ⟨none, (key none).2 (.inr ⟨rfl, h⟩), h0.symm⟩

/-- **C164.** A chemical potential is returned exactly if it is what the root finder offers and acceptable. -/
theorem C164_returned (S : Solver) (g m n T s eps mu : ℝ) :
    effective S g m n T s eps = .ok mu ↔ Candidate S g m n T s eps mu ∧ Acceptable g m n T s mu := by
  rw [← find_ok]
  unfold effective
  cases hl : find S g m n T s (guess m s) eps with
  | error e =>
    simp only
    constructor
    · intro h; cases h
    · rintro ⟨⟨r, h, -⟩, -⟩; cases h
  | ok r =>
    simp only
    rw [check_ok]
    constructor
    · rintro ⟨h1, h2⟩
      rw [← h1] at h2
      exact ⟨⟨r, rfl, h1.symm⟩, h2⟩
    · rintro ⟨⟨r', h, h1⟩, h2⟩
      cases h
      rw [h1]
      exact ⟨rfl, h2⟩

/-- **C164.** The search fails exactly if the root finder is stuck before it converges, or its offer does not
reproduce the density, or is a condensate, or makes the distribution function negative. -/
theorem C164_refused (S : Solver) (g m n T s eps : ℝ) (e : Err) :
    effective S g m n T s eps = .error e ↔
      (e = .stuck ∧ ∃ k < 100000, ∃ st, S.at (S.set (if s = -1 then 0.999999 * m else 1.05 * m)) k = some st ∧
        S.iterate st = none ∧ ∀ i st', 1 ≤ i → i ≤ k →
          S.at (S.set (if s = -1 then 0.999999 * m else 1.05 * m)) i = some st' →
          eps ≤ |n - densityOne g m T (S.x st') s|) ∨
      ∃ mu, Candidate S g m n T s eps mu ∧
        ((e = .density ∧ 1 / 1000 * (197327053 / 1000000000) ^ 3 < |n - densityOne g m T mu s|) ∨
         (|n - densityOne g m T mu s| ≤ 1 / 1000 * (197327053 / 1000000000) ^ 3 ∧
          ((e = .condensate ∧ s = -1 ∧ m < mu) ∨
           ((s = -1 → mu ≤ m) ∧ e = .negative ∧ juttner (1 / 200) m T mu s < 0)))) := by
  have aux : ∀ (F : ℝ → ℝ) (N : ℕ) (st : S.State) (e : Err), loop S F eps N st = .error e ↔
      e = .stuck ∧ ∃ k < N, ∃ st', S.at st k = some st' ∧ S.iterate st' = none ∧
        ∀ i st', 1 ≤ i → i ≤ k → S.at st i = some st' → eps ≤ |F (S.x st')| := by
    intro F N
    induction N with
    | zero =>
      intro st e
      constructor
      · intro h; cases h
      · rintro ⟨-, k, hk, -⟩; omega
    | succ N ih =>
      intro st e
      unfold loop
      cases hi : S.iterate st with
      | none =>
        simp only
        constructor
        · intro h
          cases h
          exact ⟨rfl, 0, by omega, st, rfl, hi, fun i _ h1 h2 _ => by omega⟩
        · rintro ⟨h, -⟩
          rw [h]
      | some st1 =>
        simp only
        by_cases hc : |F (S.x st1)| < eps
        · rw [if_pos hc]
          constructor
          · intro h; cases h
          · rintro ⟨-, k, hk, st', h2, h3, h4⟩
            by_cases h0 : k = 0
            · subst h0
              have : st = st' := Option.some.inj h2
              rw [← this, hi] at h3
              cases h3
            · exact absurd (h4 1 st1 le_rfl (by omega) (by simp [Solver.at, hi])) (not_le.2 hc)
        · rw [if_neg hc, ih]
          constructor
          · rintro ⟨h1, k, hk, st', h2, h3, h4⟩
            refine ⟨h1, k + 1, by omega, st', by rw [S.at_succ hi]; exact h2, h3, ?_⟩
            intro i st'' a1 a2 a3
            obtain ⟨i, rfl⟩ : ∃ i', i = i' + 1 := ⟨i - 1, by omega⟩
            rw [S.at_succ hi] at a3
            by_cases h0 : i = 0
            · subst h0
              have : st1 = st'' := Option.some.inj a3
              rw [← this]
              exact not_lt.1 hc
            · exact h4 i st'' (by omega) (by omega) a3
          · rintro ⟨h1, k, hk, st', h2, h3, h4⟩
            by_cases h0 : k = 0
            · subst h0
              have : st = st' := Option.some.inj h2
              rw [← this, hi] at h3
              cases h3
            · obtain ⟨k, rfl⟩ : ∃ i', k = i' + 1 := ⟨k - 1, by omega⟩
              rw [S.at_succ hi] at h2
              refine ⟨h1, k, by omega, st', h2, h3, ?_⟩
              intro i st'' a1 a2 a3
              exact h4 (i + 1) st'' (by omega) (by omega) (by rw [S.at_succ hi]; exact a3)
  have hp : 0 < hbarc * hbarc * hbarc := by unfold hbarc; positivity
  have e3 (mu : ℝ) : |(n - densityOne g m T mu s) / (hbarc * hbarc * hbarc)| > 1 / 1000 ↔
      1 / 1000 * (197327053 / 1000000000) ^ 3 < |n - densityOne g m T mu s| := by
    rw [abs_div, abs_of_pos hp, gt_iff_lt, lt_div_iff₀ hp]
    unfold hbarc
    rw [show (197327053 / 1000000000 : ℝ) * (197327053 / 1000000000) * (197327053 / 1000000000) =
      (197327053 / 1000000000) ^ 3 by ring]
  have hc (mu : ℝ) : check g m n T s mu = .error e ↔
      ((e = .density ∧ 1 / 1000 * (197327053 / 1000000000) ^ 3 < |n - densityOne g m T mu s|) ∨
         (|n - densityOne g m T mu s| ≤ 1 / 1000 * (197327053 / 1000000000) ^ 3 ∧
          ((e = .condensate ∧ s = -1 ∧ m < mu) ∨
           ((s = -1 → mu ≤ m) ∧ e = .negative ∧ juttner (1 / 200) m T mu s < 0)))) := by
    unfold check
    rw [show (5 / 1000 : ℝ) = 1 / 200 by norm_num]
    by_cases h1 : 1 / 1000 * (197327053 / 1000000000) ^ 3 < |n - densityOne g m T mu s|
    · rw [if_pos ((e3 mu).2 h1)]
      constructor
      · intro h
        exact .inl ⟨(Except.error.inj h).symm, h1⟩
      · rintro (⟨h, -⟩ | ⟨h, -⟩)
        · rw [h]
        · exact absurd h (not_le.2 h1)
    · rw [if_neg (fun h => h1 ((e3 mu).1 h))]
      by_cases h2 : s = -1 ∧ mu > m
      · rw [if_pos h2]
        constructor
        · intro h
          exact .inr ⟨not_lt.1 h1, .inl ⟨(Except.error.inj h).symm, h2⟩⟩
        · rintro (⟨-, h⟩ | ⟨-, ⟨h, -⟩ | ⟨h, -⟩⟩)
          · exact absurd h h1
          · rw [h]
          · exact absurd (h h2.1) (not_le.2 h2.2)
      · rw [if_neg h2]
        by_cases h3 : juttner (1 / 200) m T mu s < 0
        · rw [if_pos h3]
          constructor
          · intro h
            exact .inr ⟨not_lt.1 h1, .inr ⟨fun hs => not_lt.1 fun hl => h2 ⟨hs, hl⟩, (Except.error.inj h).symm, h3⟩⟩
          · rintro (⟨-, h⟩ | ⟨-, ⟨-, h⟩ | ⟨-, h, -⟩⟩)
            · exact absurd h h1
            · exact absurd h h2
            · rw [h]
        · rw [if_neg h3]
          constructor
          · intro h; cases h
          · rintro (⟨-, h⟩ | ⟨-, ⟨-, h⟩ | ⟨-, -, h⟩⟩)
            · exact absurd h h1
            · exact absurd h h2
            · exact absurd h h3
  unfold effective
  cases hl : find S g m n T s (guess m s) eps with
  | error e' =>
    simp only
    have hno : ∀ mu, ¬ Candidate S g m n T s eps mu := by
      intro mu hm
      obtain ⟨r, h, -⟩ := (find_ok S g m n T s eps mu).2 hm
      rw [hl] at h
      cases h
    have := (aux _ _ _ e').1 hl
    rw [guess_eq] at this
    constructor
    · intro h
      cases h
      exact .inl this
    · rintro (⟨h, -⟩ | ⟨mu, h, -⟩)
      · rw [h, this.1]
      · exact absurd h (hno mu)
  | ok r =>
    simp only
    rw [hc]
    constructor
    · intro h
      exact .inr ⟨r.getD 0, (find_ok S g m n T s eps _).1 ⟨r, hl, rfl⟩, h⟩
    · rintro (⟨h, h2⟩ | ⟨mu, h, h2⟩)
      · have : find S g m n T s (guess m s) eps = .error .stuck := by
          unfold find
          rw [aux, guess_eq]
          exact ⟨rfl, h2⟩
        rw [hl] at this
        cases this
      · obtain ⟨r', h3, h4⟩ := (find_ok S g m n T s eps mu).2 h
        rw [hl] at h3
        cases h3
        rw [h4]
        exact h2

end Verif.Chem
