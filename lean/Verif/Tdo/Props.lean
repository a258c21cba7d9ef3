import Verif.Tdo.Spec

/-
C154: the file `thermodynamics.dat`.
-/
namespace Verif.Tdo
open Verif.Kin Verif.Emt Verif.Dens Spec

/-! ### Currents -/

theorem bell_eq (P : Params) (r : V3) (p : TPart) (ht : 0 < p.mom.t) (hm : 1 / 1000000 ≤ p.mom.abs) :
    (smearing P (p.pos.sub r) p.mom (1 / p.mom.abs)).1 = bell P r p := by
  have hs : 0 < p.mom.sqr := Real.sqrt_pos.1 (lt_of_lt_of_le (by norm_num) hm)
  obtain ⟨h1, h2⟩ := C107_smearing P hs ht (p.pos.sub r)
  unfold bell
  by_cases h : restDistSqr p.mom (p.pos.sub r) ≤ P.rCut ^ 2
  · rw [if_pos h, h1 h]
  · rw [if_neg h, h2 (not_le.1 h)]

theorem counted_iff (P : Params) (d : Td.Dens) (p : TPart) (hm : 1 / 1000000 ≤ p.mom.abs) :
    counted P (p.seen d) = true ↔ Counts P d p := by
  simp only [counted, Bool.and_eq_true, Bool.not_eq_true', decide_eq_false_iff_not, not_lt,
    Bool.and_eq_false_iff, beq_eq_false_iff_ne]
  constructor
  · rintro ⟨⟨h, h'⟩, _⟩
    refine ⟨fun ho => ?_, h'⟩
    rcases h with h | h
    · rw [ho] at h; cases h
    · exact h
  · rintro ⟨h, h'⟩
    refine ⟨⟨?_, h'⟩, hm⟩
    cases ho : P.onlyParticipants
    · exact Or.inl rfl
    · exact Or.inr (h ho)

theorem current_plain (P : Params) (r : V3) (ps : List Part) :
    (current P false r ps).jmu = sumV4 ((ps.filter (counted P)).map flow) := by
  have key := fun g : V4 → ℝ => sum_split (ps.filter (counted P))
    (fun p => decide (p.factor > 0)) (fun p => g (flow p))
  simp only [current, Bool.false_eq_true, if_false, V4.add, sumV4, List.map_map, Function.comp_def]
    at key ⊢
  rw [key V4.t, key V4.x, key V4.y, key V4.z]

theorem filter_weights {α : Type} (l : List α) (c : α → Bool) (f g : α → ℝ)
    (h1 : ∀ a ∈ l, c a = true → f a = g a) (h0 : ∀ a ∈ l, c a = false → g a = 0) :
    ((l.filter c).map f).sum = (l.map g).sum := by
  induction l with
  | nil => rfl
  | cons a l ih =>
    have ih' := ih (fun b hb => h1 b (List.mem_cons_of_mem _ hb))
      (fun b hb => h0 b (List.mem_cons_of_mem _ hb))
    cases hc : c a
    · rw [List.filter_cons_of_neg (by simp [hc]), List.map_cons, List.sum_cons,
        h0 a (by simp) hc, zero_add, ih']
    · rw [List.filter_cons_of_pos hc, List.map_cons, List.sum_cons, List.map_cons, List.sum_cons,
        h1 a (by simp) hc, ih']

/-- The current of one ensemble. -/
theorem one_current (o : Opt) (P : Params) (d : Td.Dens) (ps : List TPart)
    (hp : ∀ p ∈ ps, 0 < p.mom.t ∧ 1 / 1000000 ≤ p.mom.abs) :
    (current P o.smearing o.position (ps.map (·.seen d))).jmu =
      ⟨(ps.map fun p => weightJ o P d p).sum,
       (ps.map fun p => weightJ o P d p * p.mom.velocity.x).sum,
       (ps.map fun p => weightJ o P d p * p.mom.velocity.y).sum,
       (ps.map fun p => weightJ o P d p * p.mom.velocity.z).sum⟩ := by
  have hw1 : ∀ p ∈ ps, counted P (p.seen d) = true → weightJ o P d p =
      p.factor d * (if o.smearing = true then bell P o.position p * P.normFactor else 1) := by
    intro p h hc
    unfold weightJ
    rw [if_pos ((counted_iff P d p (hp p h).2).1 hc)]
  have hw0 : ∀ p ∈ ps, counted P (p.seen d) = false → weightJ o P d p = 0 := by
    intro p h hc
    unfold weightJ
    rw [if_neg]
    intro hn
    rw [(counted_iff P d p (hp p h).2).2 hn] at hc
    cases hc
  cases hsm : o.smearing
  · rw [current_plain]
    simp only [sumV4, List.filter_map, List.map_map, V4.mk.injEq]
    refine ⟨?_, ?_, ?_, ?_⟩ <;>
    · apply filter_weights
      · intro p h hc
        obtain ⟨f0, f1, f2, f3⟩ := flow_eq hc
        simp only [Function.comp_def, f0, f1, f2, f3, hw1 p h hc, hsm]
        simp [TPart.seen]
      · intro p h hc
        simp [hw0 p h hc]
  · rw [C107_current]
    simp only [sumV4, smul4, List.filter_map, List.map_map, V4.mk.injEq, ← List.sum_map_mul_right]
    refine ⟨?_, ?_, ?_, ?_⟩ <;>
    · apply filter_weights
      · intro p h hc
        have hb := bell_eq P o.position p (hp p h).1 (hp p h).2
        simp only [Function.comp_def, part, smul4, hw1 p h hc, hsm, TPart.seen] at hb ⊢
        rw [hb]
        simp
        try ring
      · intro p h hc
        simp [hw0 p h hc]

theorem add_zero4 (a : V4) : (⟨0, 0, 0, 0⟩ : V4).add a = a := by
  simp [V4.add]

theorem sumCurrent_eq (o : Opt) (P : Params) (d : Td.Dens) (ens : List (List TPart))
    (hp : Physical ens) : sumCurrent o P d ens = J o P d ens := by
  have key : ∀ (ens : List (List TPart)), Physical ens → ∀ j : V4,
      ens.foldl (fun j ps => j.add (current P o.smearing o.position (ps.map (·.seen d))).jmu) j
        = j.add (J o P d ens) := by
    intro ens
    induction ens with
    | nil => intro _ j; simp [J, total, V4.add]
    | cons ps ens ih =>
      intro hp j
      have h1 : ∀ p ∈ ps, 0 < p.mom.t ∧ 1 / 1000000 ≤ p.mom.abs := fun p h => hp p (by simp [h])
      have h2 : Physical ens := fun p h => hp p (by
        rw [List.flatten_cons]; exact List.mem_append_right _ h)
      rw [List.foldl_cons, ih h2, one_current o P d ps h1]
      simp [J, total, V4.add, add_assoc]
  unfold sumCurrent
  rw [key ens hp, add_zero4]

/-! ### The tensor -/

theorem addOne_comp (o : Opt) (P : Params) (T : Tmn) (p : TPart) (ht : 0 < p.mom.t)
    (hm : 1 / 1000000 ≤ p.mom.abs) (mu nu : Fin 4) :
    comp (addOne o P T p) mu nu
      = comp T mu nu + weightT o P p * (up p.mom mu * up p.mom nu / p.mom.t) := by
  unfold addOne
  by_cases h1 : (P.onlyParticipants && p.collisions == 0) = true
  · rw [if_pos h1]
    have : weightT o P p = 0 := by
      unfold weightT Counts
      rw [if_neg]
      rintro ⟨⟨h, _⟩, _⟩
      rw [Bool.and_eq_true, beq_iff_eq] at h1
      exact h h1.1 h1.2
    rw [this]; ring
  rw [if_neg h1]
  have hpart : P.onlyParticipants = true → p.collisions ≠ 0 := by
    intro ho hc
    exact h1 (by simp [ho, hc])
  by_cases h2 : |p.factor o.densType| < 1 / 1000000
  · rw [if_pos h2]
    have : weightT o P p = 0 := by
      unfold weightT Counts
      rw [if_neg]
      rintro ⟨⟨_, h⟩, _⟩
      exact absurd h2 (not_lt.2 h)
    rw [this]; ring
  rw [if_neg h2]
  have hcount : Counts P o.densType p := ⟨hpart, not_lt.1 h2⟩
  cases hsm : o.smearing
  · simp only [Bool.false_eq_true, if_false]
    rw [C105_weight _ _ ht.ne']
    have : weightT o P p = p.factor o.densType := by
      unfold weightT
      rw [if_pos ⟨hcount, by rw [hsm]; intro h; cases h⟩, hsm]
      simp
    rw [this]
  · simp only [if_true]
    rw [bell_eq P o.position p ht hm]
    by_cases h3 : bell P o.position p < 1 / 1000000
    · rw [if_pos h3]
      have : weightT o P p = 0 := by
        unfold weightT
        rw [if_neg]
        rintro ⟨_, h⟩
        exact absurd h3 (not_lt.2 (h hsm))
      rw [this]; ring
    · rw [if_neg h3, C105_weight _ _ ht.ne']
      have : weightT o P p = p.factor o.densType * bell P o.position p * P.normFactor := by
        unfold weightT
        rw [if_pos ⟨hcount, fun _ => not_lt.1 h3⟩, hsm]
        simp [mul_assoc]
      rw [this]

theorem tensor_comp (o : Opt) (P : Params) (ens : List (List TPart)) (hp : Physical ens)
    (mu nu : Fin 4) : comp (tensor o P ens) mu nu = Spec.T o P ens mu nu := by
  have inner : ∀ (ps : List TPart), (∀ p ∈ ps, 0 < p.mom.t ∧ 1 / 1000000 ≤ p.mom.abs) → ∀ T : Tmn,
      comp (ps.foldl (addOne o P) T) mu nu = comp T mu nu
        + (ps.map fun p => weightT o P p * (up p.mom mu * up p.mom nu / p.mom.t)).sum := by
    intro ps
    induction ps with
    | nil => intro _ T; simp
    | cons p ps ih =>
      intro h T
      have hp := h p (by simp)
      rw [List.foldl_cons, ih (fun q hq => h q (List.mem_cons_of_mem _ hq)),
        addOne_comp o P T p hp.1 hp.2, List.map_cons, List.sum_cons, add_assoc]
  have outer : ∀ (ens : List (List TPart)), Physical ens → ∀ T : Tmn,
      comp (ens.foldl (fun T ps => ps.foldl (addOne o P) T) T) mu nu
        = comp T mu nu + Spec.T o P ens mu nu := by
    intro ens
    induction ens with
    | nil => intro _ T; simp [Spec.T, total]
    | cons ps ens ih =>
      intro hp T
      rw [List.foldl_cons, ih (fun p h => hp p (by
        rw [List.flatten_cons]; exact List.mem_append_right _ h)),
        inner ps (fun p h => hp p (by simp [h]))]
      simp [Spec.T, total, add_assoc]
  unfold tensor
  rw [outer ens hp, comp_zero, zero_add]

theorem boosted_total (o : Opt) (P : Params) (ens : List (List TPart)) (hp : Physical ens) {u : V4}
    (hu : FourVelocity u) (mu nu : Fin 4) :
    comp (boosted (tensor o P ens) u) mu nu = TIn (frame u) o P ens mu nu := by
  rw [C105_boost _ hu]
  simp only [tensor_comp o P ens hp, lambda_eq hu, Spec.T, TIn, total, boost_matrix hu]
  generalize ens.flatten = l
  induction l with
  | nil => simp
  | cons p l ih =>
    simp only [List.map_cons, List.sum_cons]
    rw [← ih]
    simp only [Fin.sum_univ_four]
    ring

theorem ten_eq (T : Tmn) : ten T = order.map fun i => comp T i.1 i.2 := by
  simp only [ten, order, List.map_cons, List.map_nil, comp_full]
  rfl

/-! ### Lines -/

theorem fine_abs (o : Opt) (P : Params) (ens : List (List TPart)) (hp : Physical ens) :
    (Fine o P ens → eckartColumn o P ens =
      .ok (if o.rhoEckart then [Real.sqrt |(J o P o.densType ens).sqr|] else [])) ∧
    (¬ Fine o P ens → eckartColumn o P ens = .error .negativeSquare) := by
  unfold eckartColumn
  rw [sumCurrent_eq o P _ ens hp]
  unfold Fine absOf
  cases o.rhoEckart
  · simp
  · simp only [if_true, forall_const]
    constructor
    · intro h
      rw [if_pos h]
    · intro h
      rw [if_neg h]

/-- **C154 (numbers).** Unless the density is wanted and the current is space-like, an output at a time
writes one line: the time and, for the quantities that were asked for, in the documented order, the
Eckart density, the tensor, the tensor in the Landau frame, the velocity of that frame and the three
currents, each as a sum over all particles of all ensembles, whether smeared or not. -/
theorem C154_row (eig : Tmn → (Fin 4 → ℝ) × (Fin 4 → V4)) (o : Opt) (P : Params) (t : ℝ)
    (ens : List (List TPart)) (hp : Physical ens) (hf : Fine o P ens) :
    ∃ v : V3, v.sqr < 1 ∧ output eig o P t ens = (.row (t :: values v o P ens), none) ∧
      ((Solves (tensor o P ens) (eig (tensor o P ens)).1 (eig (tensor o P ens)).2 ∧
        ((eig (tensor o P ens)).2 (maxIndex (eig (tensor o P ens)).1)).sqr > 1 / 1000000) →
        TIn v o P ens 0 1 = 0 ∧ TIn v o P ens 0 2 = 0 ∧ TIn v o P ens 0 3 = 0) := by
  set T := tensor o P ens with hT
  set u := landau (eig T).1 (eig T).2 with hu
  have h4 : FourVelocity u := C106_four_velocity _ _
  refine ⟨frame u, ?_, ?_, ?_⟩
  · rw [frame_sqr h4]
    have h0 := h4.2
    have : 0 < 1 / u.t ^ 2 := by positivity
    linarith
  · unfold output
    rw [(fine_abs o P ens hp).1 hf]
    simp only [Prod.mk.injEq, Line.row.injEq, and_true]
    have e1 : tensorColumns eig o P ens =
        (if o.tmn then order.map fun i => Spec.T o P ens i.1 i.2 else []) ++
        (if o.tmnLandau then order.map fun i => TIn (frame u) o P ens i.1 i.2 else []) ++
        (if o.vLandau then [(frame u).x, (frame u).y, (frame u).z] else []) := by
      unfold tensorColumns
      simp only [← hT, ← hu, ten_eq]
      simp only [hT, tensor_comp o P ens hp, boosted_total o P ens hp h4]
      cases o.tmn <;> cases o.tmnLandau <;> cases o.vLandau <;> simp [frame]
    have e2 : currentColumns o P ens = (if o.jQBS then
        [(J o P .charge ens).t, (J o P .charge ens).x, (J o P .charge ens).y, (J o P .charge ens).z,
         (J o P .baryon ens).t, (J o P .baryon ens).x, (J o P .baryon ens).y, (J o P .baryon ens).z,
         (J o P .strangeness ens).t, (J o P .strangeness ens).x, (J o P .strangeness ens).y,
         (J o P .strangeness ens).z] else []) := by
      unfold currentColumns four
      simp only [sumCurrent_eq o P _ ens hp]
      cases o.jQBS <;> simp
    rw [e1, e2]
    simp only [values, List.append_assoc, List.cons_append, List.nil_append]
  · rintro ⟨hs, ht⟩
    obtain ⟨n1, n2, n3, _⟩ := C106_no_flow_partial hs ht
    rw [← hu, boosted_total o P ens hp h4] at n1 n2 n3
    exact ⟨n1, n2, n3⟩

/-- **C154 (columns).** For all options the header names the columns in the order of the numbers, and
every line has as many numbers as the header has columns. -/
theorem C154_columns (version : String) (o : Opt) (P : Params) (ens : List (List TPart)) (v : V3) (t : ℝ) :
    (header version o).getLast? = some (.text (String.join ((groups o).map (·.1)))) ∧
    (t :: values v o P ens).length = ((groups o).map (·.2)).sum := by
  constructor
  · have : columnPieces o = (groups o).map (·.1) := by
      unfold columnPieces groups
      cases o.rhoEckart <;> cases o.tmn <;> cases o.tmnLandau <;> cases o.vLandau <;> cases o.jQBS <;>
        cases o.smearing <;> rfl
    unfold header
    rw [this, List.getLast?_append]
    rfl
  · unfold values groups
    cases o.rhoEckart <;> cases o.tmn <;> cases o.tmnLandau <;> cases o.vLandau <;> cases o.jQBS <;>
      simp [order]

/-- The lines before the columns: version, point or volume, density type. -/
theorem C154_header (version : String) (o : Opt) (h : o.onlyParticipants = false) :
    (header version o).take 3 =
      [.text ("# " ++ version ++ " thermodynamics output"),
       if o.smearing = true then .point o.position else .text "# averaged over the entire volume",
       .text ("# " ++ Td.dName o.densType)] ∧ (header version o).length = 4 := by
  unfold header
  rw [h]
  simp

/-! ### No exception for densities without sign -/

theorem causal_add {a b c t a' b' c' t' : ℝ} (ht : 0 ≤ t) (ht' : 0 ≤ t')
    (h : a ^ 2 + b ^ 2 + c ^ 2 ≤ t ^ 2) (h' : a' ^ 2 + b' ^ 2 + c' ^ 2 ≤ t' ^ 2) :
    (a + a') ^ 2 + (b + b') ^ 2 + (c + c') ^ 2 ≤ (t + t') ^ 2 := by
  have hcs : (a * a' + b * b' + c * c') ^ 2 ≤ (t * t') ^ 2 := by
    have h1 : (a * a' + b * b' + c * c') ^ 2
        ≤ (a ^ 2 + b ^ 2 + c ^ 2) * (a' ^ 2 + b' ^ 2 + c' ^ 2) := by
      nlinarith [sq_nonneg (a * b' - b * a'), sq_nonneg (a * c' - c * a'), sq_nonneg (b * c' - c * b')]
    have h2 : (a ^ 2 + b ^ 2 + c ^ 2) * (a' ^ 2 + b' ^ 2 + c' ^ 2) ≤ t ^ 2 * t' ^ 2 :=
      mul_le_mul h h' (by positivity) (by positivity)
    calc _ ≤ _ := h1
      _ ≤ t ^ 2 * t' ^ 2 := h2
      _ = (t * t') ^ 2 := by ring
  have := abs_le_of_sq_le_sq hcs (mul_nonneg ht ht')
  have := (abs_le.1 (abs_le_of_sq_le_sq hcs (mul_nonneg ht ht'))).2
  nlinarith

theorem velocity_lt {p : V4} (ht : 0 < p.t) (hm : 1 / 1000000 ≤ p.abs) :
    p.velocity.x ^ 2 + p.velocity.y ^ 2 + p.velocity.z ^ 2 ≤ 1 := by
  have hs : 0 < p.sqr := Real.sqrt_pos.1 (lt_of_lt_of_le (by norm_num) hm)
  simp only [V4.sqr, V4.dot, V4.vec, V3.dot] at hs
  simp only [V4.velocity, V3.div, V3.smul, V4.vec]
  have : (1 / p.t * p.x) ^ 2 + (1 / p.t * p.y) ^ 2 + (1 / p.t * p.z) ^ 2
      = (p.x ^ 2 + p.y ^ 2 + p.z ^ 2) / p.t ^ 2 := by field_simp
  first
  | rw [this, div_le_one (by positivity)]; nlinarith
  | (have h2 : (p.x * (1 / p.t)) ^ 2 + (p.y * (1 / p.t)) ^ 2 + (p.z * (1 / p.t)) ^ 2
        = (p.x ^ 2 + p.y ^ 2 + p.z ^ 2) / p.t ^ 2 := by field_simp
     rw [h2, div_le_one (by positivity)]; nlinarith)

theorem causal_sum (l : List TPart) (w : TPart → ℝ) (hw : ∀ p ∈ l, 0 ≤ w p)
    (hp : ∀ p ∈ l, 0 < p.mom.t ∧ 1 / 1000000 ≤ p.mom.abs) :
    0 ≤ (l.map fun p => w p).sum ∧
    (l.map fun p => w p * p.mom.velocity.x).sum ^ 2 + (l.map fun p => w p * p.mom.velocity.y).sum ^ 2
      + (l.map fun p => w p * p.mom.velocity.z).sum ^ 2 ≤ (l.map fun p => w p).sum ^ 2 := by
  induction l with
  | nil => simp
  | cons p l ih =>
    obtain ⟨i1, i2⟩ := ih (fun q hq => hw q (List.mem_cons_of_mem _ hq))
      (fun q hq => hp q (List.mem_cons_of_mem _ hq))
    have h0 := hw p (by simp)
    have hv := velocity_lt (hp p (by simp)).1 (hp p (by simp)).2
    simp only [List.map_cons, List.sum_cons]
    refine ⟨by linarith, causal_add h0 i1 ?_ i2⟩
    have : (w p * p.mom.velocity.x) ^ 2 + (w p * p.mom.velocity.y) ^ 2 + (w p * p.mom.velocity.z) ^ 2
        = w p ^ 2 * (p.mom.velocity.x ^ 2 + p.mom.velocity.y ^ 2 + p.mom.velocity.z ^ 2) := by ring
    rw [this]
    nlinarith [sq_nonneg (w p)]

theorem bell_nonneg (P : Params) (r : V3) (p : TPart) (ht : 0 < p.mom.t) : 0 ≤ bell P r p := by
  unfold bell
  split
  · have : 0 ≤ p.mom.abs := Real.sqrt_nonneg _
    positivity
  · exact le_refl _

/-- **C154 (no exception).** For a density type whose charges are never negative (hadrons, pions) every
output succeeds. -/
theorem C154_no_exception_partial (o : Opt) (P : Params) (ens : List (List TPart)) (hp : Physical ens)
    (hs : 0 < P.sigma) (hc : 0 < P.cutoff) (hn : 0 < P.ntest) (he : 0 < P.nens)
    (hw : ∀ p ∈ ens.flatten, 0 ≤ p.factor o.densType) : Fine o P ens := by
  intro _
  have hnorm : 0 < P.normFactor := norm_pos P hs hc hn he
  have hw' : ∀ p ∈ ens.flatten, 0 ≤ weightJ o P o.densType p := by
    intro p h
    unfold weightJ
    split
    · refine mul_nonneg (hw p h) ?_
      split
      · exact mul_nonneg (bell_nonneg P _ p (hp p h).1) hnorm.le
      · norm_num
    · exact le_refl _
  obtain ⟨h1, h2⟩ := causal_sum ens.flatten (weightJ o P o.densType) hw' hp
  have : 0 ≤ (J o P o.densType ens).sqr := by
    simp only [J, total, V4.sqr, V4.dot, V4.vec, V3.dot]
    nlinarith
  linarith [this]

/-! ### Runs -/

/-- **C154 (runs).** In a run without exception the file is the header followed by one line per event and
one line per output, in the order of the calls. -/
theorem C154_run (version : String) (eig : Tmn → (Fin 4 → ℝ) × (Fin 4 → V4)) (o : Opt) (P : Params)
    (cs : List Call) (hp : ∀ t ens, Call.time t ens ∈ cs → Physical ens ∧ Fine o P ens) :
    run version eig o P cs = (header version o ++ cs.flatMap (fun c => match c with
      | .start n => [.event n]
      | .time t ens => [(output eig o P t ens).1]
      | .stop _ => []), none) := by
  unfold run
  generalize header version o = f
  induction cs generalizing f with
  | nil => simp [runFrom]
  | cons c cs ih =>
    have ih' := ih (fun t ens h => hp t ens (List.mem_cons_of_mem _ h))
    cases c with
    | start n => simp only [runFrom, call]; rw [ih']; simp
    | stop n => simp only [runFrom, call]; rw [ih']; simp
    | time t ens =>
      obtain ⟨h1, h2⟩ := hp t ens (by simp)
      obtain ⟨v, _, hv, _⟩ := C154_row eig o P t ens h1 h2
      simp only [runFrom, call, hv]
      rw [ih']
      simp [hv]

/-- **C154 (exception).** The first output for which the current is space-like ends the run; the file
then ends with a line that has nothing but the time, and what was written before is kept. -/
theorem C154_exception (version : String) (eig : Tmn → (Fin 4 → ℝ) × (Fin 4 → V4)) (o : Opt) (P : Params)
    (a b : List Call) (t : ℝ) (ens : List (List TPart))
    (ha : ∀ t ens, Call.time t ens ∈ a → Physical ens ∧ Fine o P ens) (hp : Physical ens)
    (hf : ¬ Fine o P ens) :
    run version eig o P (a ++ .time t ens :: b)
      = ((run version eig o P a).1 ++ [.broken [t]], some .negativeSquare) := by
  have h := C154_run version eig o P a ha
  have hb : output eig o P t ens = (.broken [t], some .negativeSquare) := by
    unfold output
    rw [(fine_abs o P ens hp).2 hf]
  have split : ∀ (a : List Call) (f : List Line), (runFrom eig o P f a).2 = none →
      runFrom eig o P f (a ++ .time t ens :: b)
        = ((runFrom eig o P f a).1 ++ [.broken [t]], some .negativeSquare) := by
    intro a
    induction a with
    | nil => intro f _; simp [runFrom, call, hb]
    | cons c a ih =>
      intro f hn
      simp only [List.cons_append, runFrom] at hn ⊢
      rcases hc : call eig o P c with ⟨l, e⟩
      rw [hc] at hn
      cases e with
      | some e => simp at hn
      | none => exact ih _ hn
  exact split a _ (by unfold run at h; rw [h])

/-! ### What goes wrong -/

/-- A proton and an antiproton that fly in opposite directions, each seen with its baryon number. -/
noncomputable def baryonPair : List (List TPart) :=
  [[⟨⟨5, 0, 0, 3⟩, ⟨0, 0, 0⟩, fun d => if d = .baryon then 1 else 0, 1⟩,
    ⟨⟨5, 0, 0, -3⟩, ⟨0, 0, 0⟩, fun d => if d = .baryon then -1 else 0, 1⟩]]

theorem abs_five (s : ℝ) (h : s ^ 2 = 9) : (⟨5, 0, 0, s⟩ : V4).abs = 4 := by
  have : (⟨5, 0, 0, s⟩ : V4).sqr = 4 ^ 2 := by
    simp only [V4.sqr, V4.dot, V4.vec, V3.dot]; nlinarith
  rw [V4.abs, this, Real.sqrt_sq (by norm_num)]

theorem baryonPair_physical : Physical baryonPair := by
  intro p h
  simp [baryonPair] at h
  rcases h with rfl | rfl
  · exact ⟨by norm_num, by rw [abs_five 3 (by norm_num)]; norm_num⟩
  · exact ⟨by norm_num, by rw [abs_five (-3) (by norm_num)]; norm_num⟩

/-- The density of net baryons is asked for, without smearing. -/
def netBaryons : Opt := ⟨⟨0, 0, 0⟩, .baryon, true, false, false, false, false, false, false⟩

/-- The same with smearing. -/
def netBaryonsSmeared : Opt := ⟨⟨0, 0, 0⟩, .baryon, true, false, false, false, false, true, false⟩

/-- The full claim, that every output succeeds, is false: the net baryon current of a proton and an
antiproton flying apart is space-like, and the output of the density throws. -/
theorem C154_crash_false (P : Params) (h : P.onlyParticipants = false) :
    ¬ Fine netBaryons P baryonPair := by
  intro hf
  have h1 := hf rfl
  have c1 : ∀ m r x c, 1 / 1000000 ≤ |x| →
      weightJ netBaryons P .baryon ⟨m, r, fun d => if d = .baryon then x else 0, c⟩ = x := by
    intro m r x c hx
    unfold weightJ
    have hcnt : Counts P .baryon ⟨m, r, fun d => if d = .baryon then x else 0, c⟩ :=
      ⟨fun ho => absurd (h.symm.trans ho) (by simp), by simpa using hx⟩
    rw [if_pos hcnt]
    simp [netBaryons]
  have d : netBaryons.densType = .baryon := rfl
  rw [d] at h1
  simp only [J, total, baryonPair, List.flatten_cons, List.flatten_nil, List.append_nil, List.map_cons,
    List.map_nil, List.sum_cons, List.sum_nil, c1 _ _ 1 _ (by norm_num), c1 _ _ (-1) _ (by norm_num),
    V4.velocity, V3.div, V3.smul, V4.vec, V4.sqr, V4.dot, V3.dot] at h1
  norm_num at h1

/-- One charged particle far away from the point. -/
noncomputable def farAway : List (List TPart) :=
  [[⟨⟨4, 0, 0, 0⟩, ⟨100, 0, 0⟩, fun d => if d = .baryon then 1 else 0, 1⟩]]

/-- The user guide says that the Eckart density is not affected by switching the smearing off. It is:
a particle beyond the cut-off gives no density with smearing, but density one without. -/
theorem C154_smearing_eckart_false (P : Params) (h : P.onlyParticipants = false)
    (hc : P.rCut ^ 2 < 10000) :
    values ⟨0, 0, 0⟩ netBaryonsSmeared P farAway = [0] ∧
    values ⟨0, 0, 0⟩ netBaryons P farAway = [1] := by
  have hm : (⟨4, 0, 0, 0⟩ : V4).abs = 4 := by
    have : (⟨4, 0, 0, 0⟩ : V4).sqr = 4 ^ 2 := by
      simp only [V4.sqr, V4.dot, V4.vec, V3.dot]; norm_num
    rw [V4.abs, this, Real.sqrt_sq (by norm_num)]
  have hb : bell P ⟨0, 0, 0⟩
      ⟨⟨4, 0, 0, 0⟩, ⟨100, 0, 0⟩, fun d => if d = .baryon then 1 else 0, 1⟩ = 0 := by
    unfold bell
    rw [if_neg]
    rw [rest_eq (by simp only [V4.sqr, V4.dot, V4.vec, V3.dot]; norm_num) (by norm_num)]
    simp only [V3.sub, V3.sqr, V3.dot, smul4, V4.vec]
    norm_num
    linarith
  have cnt : Counts P .baryon
      ⟨⟨4, 0, 0, 0⟩, ⟨100, 0, 0⟩, fun d => if d = .baryon then 1 else 0, 1⟩ :=
    ⟨by simp, by norm_num⟩
  have w1 : weightJ netBaryonsSmeared P .baryon
      ⟨⟨4, 0, 0, 0⟩, ⟨100, 0, 0⟩, fun d => if d = .baryon then 1 else 0, 1⟩ = 0 := by
    unfold weightJ
    rw [if_pos cnt]
    have e : netBaryonsSmeared.position = ⟨0, 0, 0⟩ := rfl
    rw [e, hb]
    simp [netBaryonsSmeared]
  have w2 : weightJ netBaryons P .baryon
      ⟨⟨4, 0, 0, 0⟩, ⟨100, 0, 0⟩, fun d => if d = .baryon then 1 else 0, 1⟩ = 1 := by
    unfold weightJ
    rw [if_pos cnt]
    simp [netBaryons]
  have d1 : netBaryonsSmeared.densType = .baryon := rfl
  have d2 : netBaryons.densType = .baryon := rfl
  constructor
  · simp only [values, d1, J, total, farAway, List.flatten_cons, List.flatten_nil, List.append_nil,
      List.map_cons, List.map_nil, List.sum_cons, List.sum_nil, w1]
    simp [netBaryonsSmeared, V4.sqr, V4.dot, V4.vec, V3.dot]
  · simp only [values, d2, J, total, farAway, List.flatten_cons, List.flatten_nil, List.append_nil,
      List.map_cons, List.map_nil, List.sum_cons, List.sum_nil, w2]
    simp [netBaryons, V4.sqr, V4.dot, V4.vec, V3.dot, V4.velocity, V3.div, V3.smul]

/-! ### A concrete case -/

/-- The hypotheses are met: hadron density of two particles in two ensembles. -/
example : Physical [[⟨⟨5, 0, 0, 3⟩, ⟨0, 0, 0⟩, fun _ => 1, 1⟩], [⟨⟨5, 0, 0, -3⟩, ⟨1, 0, 0⟩, fun _ => 1, 0⟩]] ∧
    Fine ⟨⟨0, 0, 0⟩, .hadron, true, true, true, true, true, true, false⟩ ⟨1, 4, 1, 2, false⟩
      [[⟨⟨5, 0, 0, 3⟩, ⟨0, 0, 0⟩, fun _ => 1, 1⟩], [⟨⟨5, 0, 0, -3⟩, ⟨1, 0, 0⟩, fun _ => 1, 0⟩]] := by
  have hp : Physical [[⟨⟨5, 0, 0, 3⟩, ⟨0, 0, 0⟩, fun _ => 1, 1⟩],
      [⟨⟨5, 0, 0, -3⟩, ⟨1, 0, 0⟩, fun _ => 1, 0⟩]] := by
    intro p h
    simp at h
    rcases h with rfl | rfl
    · exact ⟨by norm_num, by rw [abs_five 3 (by norm_num)]; norm_num⟩
    · exact ⟨by norm_num, by rw [abs_five (-3) (by norm_num)]; norm_num⟩
  refine ⟨hp, C154_no_exception_partial _ _ _ hp (by norm_num) (by norm_num) (by norm_num) (by norm_num) ?_⟩
  intro p h
  simp at h
  rcases h with rfl | rfl <;> norm_num

end Verif.Tdo
