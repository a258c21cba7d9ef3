import Verif.Cons.Model
import Verif.Kin.Props
/-
C171: the check of the conservation laws.
-/
namespace Verif.Cons
open Verif.Kin Verif.Act

/-- A particle with finite momentum. -/
structure Fin where
  (t x y z : ℚ) (pdg : Nat)

/-- The particle as the code has it. -/
def Fin.part (p : Fin) : Part := ⟨⟨some p.t, some p.x, some p.y, some p.z⟩, p.pdg, false⟩

/-- Specification: two values that count as equal. -/
def Near (x y : ℚ) : Prop :=
  |x - y| ≤ 1 / 10000 * max |x| |y| ∨ |x - y| ≤ 1 / 1000000 ∨ ((x = 0 ∨ y = 0) ∧ |x - y| ≤ 1 / 10000)

/-- Sum of a quantity over the particles of all ensembles. -/
def total {α : Type} [AddMonoid α] (f : Fin → α) (e : List (List Fin)) : α := (e.flatten.map f).sum

/-- Specification: the particles `e'` have the energy, momentum and quantum numbers of `e`. -/
structure Conserved (e e' : List (List Fin)) : Prop where
  energy : Near (total Fin.t e) (total Fin.t e')
  x : Near (total Fin.x e) (total Fin.x e')
  y : Near (total Fin.y e) (total Fin.y e')
  z : Near (total Fin.z e) (total Fin.z e')
  charge : total (fun p => Pdg.charge p.pdg) e = total (fun p => Pdg.charge p.pdg) e'
  isospin3 : total (fun p => Pdg.isospin3 p.pdg) e = total (fun p => Pdg.isospin3 p.pdg) e'
  strangeness : total (fun p => Pdg.strangeness p.pdg) e = total (fun p => Pdg.strangeness p.pdg) e'
  charmness : total (fun p => Pdg.charmness p.pdg) e = total (fun p => Pdg.charmness p.pdg) e'
  bottomness : total (fun p => Pdg.bottomness p.pdg) e = total (fun p => Pdg.bottomness p.pdg) e'
  baryon : total (fun p => Pdg.baryonNumber p.pdg) e = total (fun p => Pdg.baryonNumber p.pdg) e'

/-- The totals of the specification as quantum numbers of the code. -/
def totals (e : List (List Fin)) : QN :=
  ⟨⟨some (total Fin.t e), some (total Fin.x e), some (total Fin.y e), some (total Fin.z e)⟩, total (fun p => Pdg.charge p.pdg) e,
    total (fun p => Pdg.isospin3 p.pdg) e, total (fun p => Pdg.strangeness p.pdg) e, total (fun p => Pdg.charmness p.pdg) e,
    total (fun p => Pdg.bottomness p.pdg) e, total (fun p => Pdg.baryonNumber p.pdg) e⟩

/-- The particles of the code. -/
def parts (e : List (List Fin)) : List (List Part) := e.map fun l => l.map Fin.part

theorem ofEnsembles_flatten (e : List (List Part)) : ofEnsembles e = QN.ofList e.flatten := by
  unfold ofEnsembles QN.ofList
  generalize QN.zero = q
  induction e generalizing q with
  | nil => rfl
  | cons l e ih => rw [List.foldl_cons, List.flatten_cons, List.foldl_append, ih]

theorem foldl_fin (l : List Fin) (t x y z : ℚ) (c i s m b n : Int) :
    (l.map Fin.part).foldl QN.addValues ⟨⟨some t, some x, some y, some z⟩, c, i, s, m, b, n⟩ =
    ⟨⟨some (t + (l.map Fin.t).sum), some (x + (l.map Fin.x).sum), some (y + (l.map Fin.y).sum), some (z + (l.map Fin.z).sum)⟩,
      c + (l.map fun p => Pdg.charge p.pdg).sum, i + (l.map fun p => Pdg.isospin3 p.pdg).sum, s + (l.map fun p => Pdg.strangeness p.pdg).sum,
      m + (l.map fun p => Pdg.charmness p.pdg).sum, b + (l.map fun p => Pdg.bottomness p.pdg).sum,
      n + (l.map fun p => Pdg.baryonNumber p.pdg).sum⟩ := by
  induction l generalizing t x y z c i s m b n with
  | nil => simp
  | cons p l ih =>
    rw [List.map_cons, List.foldl_cons]
    have : QN.addValues ⟨⟨some t, some x, some y, some z⟩, c, i, s, m, b, n⟩ p.part =
        ⟨⟨some (t + p.t), some (x + p.x), some (y + p.y), some (z + p.z)⟩, c + Pdg.charge p.pdg, i + Pdg.isospin3 p.pdg,
          s + Pdg.strangeness p.pdg, m + Pdg.charmness p.pdg, b + Pdg.bottomness p.pdg, n + Pdg.baryonNumber p.pdg⟩ := rfl
    rw [this, ih]
    simp only [List.map_cons, List.sum_cons, add_assoc]

/-- **C171.** The quantum numbers are the sums over the particles of all ensembles. -/
theorem C171_totals (e : List (List Fin)) : ofEnsembles (parts e) = totals e := by
  rw [ofEnsembles_flatten]
  have : (parts e).flatten = e.flatten.map Fin.part := by
    unfold parts
    rw [List.map_flatten]
  rw [this]
  unfold QN.ofList QN.zero
  rw [foldl_fin]
  simp only [zero_add]
  rfl

/-- **C171.** They depend neither on the order of the particles nor on their distribution over the ensembles. -/
theorem C171_order {e e' : List (List Fin)} (h : e.flatten.Perm e'.flatten) : ofEnsembles (parts e) = ofEnsembles (parts e') := by
  rw [C171_totals, C171_totals]
  unfold totals total
  rw [(h.map Fin.t).sum_eq, (h.map Fin.x).sum_eq, (h.map Fin.y).sum_eq, (h.map Fin.z).sum_eq, (h.map _).sum_eq,
    (h.map fun p => Pdg.isospin3 p.pdg).sum_eq, (h.map fun p => Pdg.strangeness p.pdg).sum_eq, (h.map fun p => Pdg.charmness p.pdg).sum_eq,
    (h.map fun p => Pdg.bottomness p.pdg).sum_eq, (h.map fun p => Pdg.baryonNumber p.pdg).sum_eq]

theorem eq_conserved (e e' : List (List Fin)) : QN.eq (totals e') (totals e) = true ↔ Conserved e e' := by
  have hs : Q4.eq (totals e').mom (totals e).mom = Q4.eq (totals e).mom (totals e').mom := C59_eq_symm _ _
  unfold QN.eq
  rw [hs]
  unfold Q4.eq totals
  simp only [Bool.and_eq_true, C59_eq_meaning, beq_iff_eq]
  constructor
  · rintro ⟨⟨⟨⟨⟨⟨⟨⟨⟨h1, h2⟩, h3⟩, h4⟩, h5⟩, h6⟩, h7⟩, h8⟩, h9⟩, h10⟩
    exact ⟨h1, h2, h3, h4, h5.symm, h6.symm, h7.symm, h8.symm, h9.symm, h10.symm⟩
  · rintro ⟨h1, h2, h3, h4, h5, h6, h7, h8, h9, h10⟩
    exact ⟨⟨⟨⟨⟨⟨⟨⟨⟨h1, h2⟩, h3⟩, h4⟩, h5.symm⟩, h6.symm⟩, h7.symm⟩, h8.symm⟩, h9.symm⟩, h10.symm⟩

theorem eq_symm (a b : QN) : QN.eq a b = QN.eq b a := by
  unfold QN.eq
  rw [C59_eq_symm, Bool.beq_comm (a := a.charge), Bool.beq_comm (a := a.isospin3), Bool.beq_comm (a := a.strangeness),
    Bool.beq_comm (a := a.charmness), Bool.beq_comm (a := a.bottomness), Bool.beq_comm (a := a.baryon)]

/-- Membership in a line that is printed under a condition. -/
theorem mem_if {c : Prop} [Decidable c] {x l : Line} : l ∈ (if c then [x] else []) ↔ c ∧ l = x := by
  split_ifs with h <;> simp [h]

/-- **C171.** The report of any two quantum numbers (finite or not): it has a line for a quantity exactly if the two values of it
differ, with these values; the heading and the components of the momentum according to the tolerance. -/
theorem C171_lines (a b : QN) (l : Line) : l ∈ report a b ↔
    (l = .heading ∧ Q4.eq a.mom b.mom = false) ∨
    (∃ mu x y, (mu, x, y) ∈ [(0, a.mom.t, b.mom.t), (1, a.mom.x, b.mom.x), (2, a.mom.y, b.mom.y), (3, a.mom.z, b.mom.z)] ∧
      almostEqualPhysics x y = false ∧ l = .comp mu x y (dsub x y) (drel x y)) ∨
    (a.charge ≠ b.charge ∧ l = .charge a.charge b.charge) ∨ (a.isospin3 ≠ b.isospin3 ∧ l = .isospin3 a.isospin3 b.isospin3) ∨
    (a.strangeness ≠ b.strangeness ∧ l = .strangeness a.strangeness b.strangeness) ∨
    (a.charmness ≠ b.charmness ∧ l = .charmness a.charmness b.charmness) ∨
    (a.bottomness ≠ b.bottomness ∧ l = .bottomness a.bottomness b.bottomness) ∨ (a.baryon ≠ b.baryon ∧ l = .baryon a.baryon b.baryon) := by
  have hc : ∀ mu x y, l ∈ compLine mu x y ↔ almostEqualPhysics x y = false ∧ l = .comp mu x y (dsub x y) (drel x y) := by
    intro mu x y
    unfold compLine
    rw [mem_if, Bool.not_eq_true']
  unfold report
  by_cases he : QN.eq b a = true
  · rw [if_pos he]
    rw [eq_symm] at he
    unfold QN.eq at he
    simp only [Bool.and_eq_true, beq_iff_eq] at he
    obtain ⟨⟨⟨⟨⟨⟨h1, h2⟩, h3⟩, h4⟩, h5⟩, h6⟩, h7⟩ := he
    have h1' := h1
    unfold Q4.eq at h1'
    simp only [Bool.and_eq_true] at h1'
    obtain ⟨⟨⟨g1, g2⟩, g3⟩, g4⟩ := h1'
    simp only [List.not_mem_nil, h1, h2, h3, h4, h5, h6, h7, ne_eq, not_true_eq_false, false_and, or_false, Bool.true_eq_false, and_false,
      false_or, false_iff, not_exists, List.mem_cons]
    rintro mu x y ⟨hm | hm | hm | hm, hx, -⟩ <;> cases hm
    · rw [g1] at hx; cases hx
    · rw [g2] at hx; cases hx
    · rw [g3] at hx; cases hx
    · rw [g4] at hx; cases hx
  · rw [if_neg he]
    simp only [List.mem_append, mem_if, hc, Bool.not_eq_true', List.mem_cons, List.not_mem_nil, or_false]
    constructor
    · rintro (((((((h | (((h | h) | h) | h)) | h) | h) | h) | h) | h) | h)
      · exact .inl ⟨h.2, h.1⟩
      · exact .inr (.inl ⟨_, _, _, .inl rfl, h⟩)
      · exact .inr (.inl ⟨_, _, _, .inr (.inl rfl), h⟩)
      · exact .inr (.inl ⟨_, _, _, .inr (.inr (.inl rfl)), h⟩)
      · exact .inr (.inl ⟨_, _, _, .inr (.inr (.inr rfl)), h⟩)
      · exact .inr (.inr (.inl h))
      · exact .inr (.inr (.inr (.inl h)))
      · exact .inr (.inr (.inr (.inr (.inl h))))
      · exact .inr (.inr (.inr (.inr (.inr (.inl h)))))
      · exact .inr (.inr (.inr (.inr (.inr (.inr (.inl h))))))
      · exact .inr (.inr (.inr (.inr (.inr (.inr (.inr h))))))
    · rintro (h | ⟨mu, x, y, hm, h⟩ | h | h | h | h | h | h)
      · exact .inl (.inl (.inl (.inl (.inl (.inl (.inl ⟨h.2, h.1⟩))))))
      · rcases hm with hm | hm | hm | hm <;> cases hm
        · exact .inl (.inl (.inl (.inl (.inl (.inl (.inr (.inl (.inl (.inl h)))))))))
        · exact .inl (.inl (.inl (.inl (.inl (.inl (.inr (.inl (.inl (.inr h)))))))))
        · exact .inl (.inl (.inl (.inl (.inl (.inl (.inr (.inl (.inr h))))))))
        · exact .inl (.inl (.inl (.inl (.inl (.inl (.inr (.inr h)))))))
      · exact .inl (.inl (.inl (.inl (.inl (.inr h)))))
      · exact .inl (.inl (.inl (.inl (.inr h))))
      · exact .inl (.inl (.inl (.inr h)))
      · exact .inl (.inl (.inr h))
      · exact .inl (.inr h)
      · exact .inr h

/-- **C171.** The report is empty exactly if everything is conserved. -/
theorem C171_empty (e e' : List (List Fin)) : report (ofEnsembles (parts e)) (ofEnsembles (parts e')) = [] ↔ Conserved e e' := by
  rw [C171_totals, C171_totals, ← eq_conserved]
  constructor
  · intro h
    have hn := fun l => (C171_lines (totals e) (totals e') l).not.1 (by rw [h]; exact List.not_mem_nil)
    simp only [not_or] at hn
    rw [eq_symm]
    unfold QN.eq
    have k0 : Q4.eq (totals e).mom (totals e').mom = true := by
      by_contra hc
      exact (hn .heading).1 ⟨rfl, by simpa using hc⟩
    have k1 : (totals e).charge = (totals e').charge := by
      by_contra hc; exact (hn (.charge _ _)).2.2.1 ⟨hc, rfl⟩
    have k2 : (totals e).isospin3 = (totals e').isospin3 := by
      by_contra hc; exact (hn (.isospin3 _ _)).2.2.2.1 ⟨hc, rfl⟩
    have k3 : (totals e).strangeness = (totals e').strangeness := by
      by_contra hc; exact (hn (.strangeness _ _)).2.2.2.2.1 ⟨hc, rfl⟩
    have k4 : (totals e).charmness = (totals e').charmness := by
      by_contra hc; exact (hn (.charmness _ _)).2.2.2.2.2.1 ⟨hc, rfl⟩
    have k5 : (totals e).bottomness = (totals e').bottomness := by
      by_contra hc; exact (hn (.bottomness _ _)).2.2.2.2.2.2.1 ⟨hc, rfl⟩
    have k6 : (totals e).baryon = (totals e').baryon := by
      by_contra hc; exact (hn (.baryon _ _)).2.2.2.2.2.2.2 ⟨hc, rfl⟩
    simp only [Bool.and_eq_true, beq_iff_eq]
    exact ⟨⟨⟨⟨⟨⟨k0, k1⟩, k2⟩, k3⟩, k4⟩, k5⟩, k6⟩
  · intro h
    unfold report
    rw [if_pos h]

/-- **C171.** The relative deviation that is printed for a finite component is finite, and is that of the two values. -/
theorem C171_relative {x y : ℚ} (h : almostEqualPhysics (some x) (some y) = false) :
    ∃ r : ℚ, drel (some x) (some y) = some r ∧ r * max |x| |y| = x - y ∧ 1 / 10000 < |r| := by
  have hn : ¬Near x y := by
    unfold Near
    rw [← C59_eq_meaning, h]
    simp
  unfold Near at hn
  push Not at hn
  have hpos : 0 < max |x| |y| := by
    rcases lt_or_ge 0 (max |x| |y|) with hp | hp
    · exact hp
    · have hx : x = 0 := abs_nonpos_iff.1 ((le_max_left _ _).trans hp)
      have hy : y = 0 := abs_nonpos_iff.1 ((le_max_right _ _).trans hp)
      have := hn.2.1
      rw [hx, hy] at this
      norm_num at this
  refine ⟨(x - y) / max |x| |y|, ?_, div_mul_cancel₀ _ hpos.ne', ?_⟩
  · unfold drel
    dsimp only
    rw [if_neg hpos.ne']
  · rw [abs_div, abs_of_pos hpos, lt_div_iff₀ hpos]
    exact hn.1

/-- The particles after the steps of a run. -/
def history (h : List (List (List Fin))) : List (List (List Part)) := h.map parts

theorem run_some (s : Setup) (q : QN) (l : List (List (List Part))) (k i : Nat) : run s q k l = some i ↔
    ∃ j, i = k + j ∧ (∃ e, l[j]? = some e ∧ stepOk s q e = false) ∧ ∀ j' < j, ∀ e, l[j']? = some e → stepOk s q e = true := by
  induction l generalizing k with
  | nil => simp [run]
  | cons e l ih =>
    unfold run
    split_ifs with h
    · rw [ih]
      constructor
      · rintro ⟨j, h1, h2, h3⟩
        refine ⟨j + 1, by omega, by simpa using h2, ?_⟩
        intro j' hj' e' he'
        rcases j' with _ | j'
        · rw [List.getElem?_cons_zero] at he'
          exact Option.some.inj he' ▸ h
        · exact h3 j' (by omega) e' (by simpa using he')
      · rintro ⟨j, h1, h2, h3⟩
        rcases j with _ | j
        · obtain ⟨e', he', hn⟩ := h2
          rw [List.getElem?_cons_zero] at he'
          rw [← Option.some.inj he', h] at hn
          cases hn
        · refine ⟨j, by omega, by simpa using h2, ?_⟩
          intro j' hj' e' he'
          exact h3 (j' + 1) (by omega) e' (by simpa using he')
    · constructor
      · intro hi
        have hi := Option.some.inj hi
        exact ⟨0, by omega, ⟨e, rfl, by simpa using h⟩, fun j' hj' => absurd hj' (Nat.not_lt_zero _)⟩
      · rintro ⟨j, h1, h2, h3⟩
        rcases j with _ | j
        · rw [h1]; rfl
        · exact absurd (h3 0 (by omega) e rfl) h

theorem stepOk_iff (s : Setup) (e0 e : List (List Fin)) : stepOk s (ofEnsembles (parts e0)) (parts e) = true ↔
    (s.potentials = false → s.strings = false → s.expansion = false → s.initialConditions = false → Conserved e0 e) := by
  unfold stepOk
  rcases s with ⟨_ | _, _ | _, _ | _, _ | _⟩ <;> simp [C171_empty]

/-- **C171.** Without potentials, strings, expansion and initial conditions the run is ended after a time step exactly if it is the first
after which the particles have not the energy, momentum and quantum numbers of the beginning. -/
theorem C171_run (s : Setup) (h0 : s.potentials = false ∧ s.strings = false ∧ s.expansion = false ∧ s.initialConditions = false)
    (e0 : List (List Fin)) (h : List (List (List Fin))) (i : Nat) : run s (ofEnsembles (parts e0)) 0 (history h) = some i ↔
    (∃ e, h[i]? = some e ∧ ¬Conserved e0 e) ∧ ∀ j < i, ∀ e, h[j]? = some e → Conserved e0 e := by
  have hk : ∀ e, stepOk s (ofEnsembles (parts e0)) (parts e) = true ↔ Conserved e0 e := by
    intro e
    rw [stepOk_iff]
    exact ⟨fun g => g h0.1 h0.2.1 h0.2.2.1 h0.2.2.2, fun g _ _ _ _ => g⟩
  rw [run_some]
  unfold history
  constructor
  · rintro ⟨j, rfl, ⟨e, he, hn⟩, h3⟩
    rw [Nat.zero_add]
    rw [List.getElem?_map, Option.map_eq_some_iff] at he
    obtain ⟨e', he', rfl⟩ := he
    refine ⟨⟨e', he', fun hc => ?_⟩, fun j' hj' e'' he'' => (hk e'').1 (h3 j' hj' _ (by rw [List.getElem?_map, he'']; rfl))⟩
    rw [(hk e').2 hc] at hn
    cases hn
  · rintro ⟨⟨e, he, hn⟩, h3⟩
    refine ⟨i, (Nat.zero_add i).symm, ⟨parts e, by rw [List.getElem?_map, he]; rfl, ?_⟩, ?_⟩
    · rw [← Bool.not_eq_true, hk]
      exact hn
    · intro j' hj' e' he'
      rw [List.getElem?_map, Option.map_eq_some_iff] at he'
      obtain ⟨e'', he'', rfl⟩ := he'
      exact (hk e'').2 (h3 j' hj' e'' he'')

/-- **C171.** Otherwise nothing is checked. -/
theorem C171_unchecked (s : Setup) (h0 : s.potentials = true ∨ s.strings = true ∨ s.expansion = true ∨ s.initialConditions = true)
    (q : QN) (k : Nat) (h : List (List (List Part))) : run s q k h = none := by
  induction h generalizing k with
  | nil => rfl
  | cons e h ih =>
    unfold run
    have : stepOk s q e = true := by
      unfold stepOk
      rcases s with ⟨_ | _, _ | _, _ | _, _ | _⟩ <;> simp_all
    rw [if_pos this]
    exact ih _

/-- A proton at rest that becomes a neutron is noticed after the first step, a change of the energy by 1e-5 is not. -/
example : run ⟨false, false, false, false⟩ (ofEnsembles (parts [[⟨1, 0, 0, 0, 0x2212⟩]])) 0
    (history [[[⟨1 + 1 / 100000, 0, 0, 0, 0x2212⟩]], [[⟨1, 0, 0, 0, 0x2112⟩]]]) = some 1 := by decide +kernel

end Verif.Cons
