import Verif.Act.Model
import Verif.Kin.Props
import Mathlib.MeasureTheory.Measure.Lebesgue.Basic
import Mathlib.Algebra.BigOperators.Fin
/-! C32, C33, C35, C36, C69, C70. -/
namespace Verif.Act
open Verif.Kin

/-! ### C32 -/

section
variable {α : Type} [LinearOrder α] [Zero α]

theorem addProcesses_spec (add : α → α → α) (ps : List (Chan α)) (s : Chans α) :
    (addProcesses add s ps).list = s.list ++ ps.filter (fun p => decide (p.w > 0)) ∧
    (addProcesses add s ps).total =
      (ps.filter (fun p => decide (p.w > 0))).foldl (fun x p => add x p.w) s.total := by
  induction ps generalizing s with
  | nil => simp [addProcesses]
  | cons p ps ih =>
    have h : addProcesses add s (p :: ps) = addProcesses add (addProcess add s p) ps := rfl
    rw [h, (ih _).1, (ih _).2]
    unfold addProcess
    by_cases hp : p.w > 0
    · rw [if_pos hp]; simp [hp]
    · rw [if_neg hp]; simp [hp]

/-- The history of additions, as one list. -/
theorem addAll_spec (add : α → α → α) (batches : List (List (Chan α))) (s : Chans α)
    (hs : s.total = s.list.foldl (fun x p => add x p.w) 0) :
    let r := batches.foldl (addProcesses add) s
    r.list = s.list ++ (batches.flatten.filter fun p => decide (p.w > 0)) ∧
    r.total = r.list.foldl (fun x p => add x p.w) 0 := by
  induction batches generalizing s with
  | nil => simp [hs]
  | cons b bs ih =>
    obtain ⟨h1, h2⟩ := addProcesses_spec add b s
    have hs' : (addProcesses add s b).total =
        (addProcesses add s b).list.foldl (fun x p => add x p.w) 0 := by
      rw [h1, h2, List.foldl_append, hs]
    obtain ⟨g1, g2⟩ := ih _ hs'
    simp only [List.foldl_cons]
    refine ⟨?_, g2⟩
    rw [g1, h1]
    simp

theorem chooseLoop_mem (add : α → α → α) (r : α) (l : List (Chan α)) (s : α) (c : Chan α)
    (h : chooseLoop add r s l = some c) : c ∈ l := by
  induction l generalizing s with
  | nil => simp [chooseLoop] at h
  | cons p ps ih =>
    unfold chooseLoop at h
    simp only at h
    split_ifs at h with hr
    · simp only [Option.some.injEq] at h; simp [h]
    · exact List.mem_cons_of_mem _ (ih _ h)

theorem chooseLoop_some (add : α → α → α) (r : α) (l : List (Chan α)) (s : α) (hl : l ≠ [])
    (h : r ≤ l.foldl (fun x p => add x p.w) s) : (chooseLoop add r s l).isSome = true := by
  induction l generalizing s with
  | nil => exact absurd rfl hl
  | cons p ps ih =>
    unfold chooseLoop
    simp only
    split_ifs with hr
    · rfl
    · rw [List.foldl_cons] at h
      by_cases hp : ps = []
      · subst hp; exact absurd h hr
      · exact ih _ hp h

/-- **C32**, `choose_channel` never aborts and never returns a channel of zero weight: after
any sequence of `add_processes` calls of which at least one channel was kept, and for every
random number up to the accumulated total, it returns one of the added channels, and that has
positive weight. This holds for every rounding of the addition of doubles (`add` is
arbitrary), because the total was accumulated in the same order. -/
theorem C32_never_fails (add : α → α → α) (batches : List (List (Chan α))) (r : α)
    (h : (batches.foldl (addProcesses add) ⟨[], 0⟩).list ≠ [])
    (hr : r ≤ (batches.foldl (addProcesses add) ⟨[], 0⟩).total) :
    ∃ c, chooseChannel add (batches.foldl (addProcesses add) ⟨[], 0⟩).list r = some c ∧
      c ∈ batches.flatten ∧ 0 < c.w := by
  obtain ⟨h1, h2⟩ := addAll_spec add batches ⟨[], 0⟩ rfl
  generalize batches.foldl (addProcesses add) ⟨[], 0⟩ = s at *
  rw [h2] at hr
  obtain ⟨c, hc⟩ := Option.isSome_iff_exists.1 (chooseLoop_some add r s.list 0 h hr)
  refine ⟨c, hc, ?_⟩
  have := chooseLoop_mem add r s.list 0 c hc
  rw [h1] at this
  simp only [List.nil_append, List.mem_filter, decide_eq_true_eq] at this
  exact this

/-- Which channels are kept: exactly those of positive weight, in the order of addition. -/
theorem C32_kept (add : α → α → α) (batches : List (List (Chan α))) :
    (batches.foldl (addProcesses add) ⟨[], 0⟩).list =
      batches.flatten.filter (fun p => decide (0 < p.w)) := by
  simpa using (addAll_spec add batches ⟨[], 0⟩ rfl).1

end

theorem foldl_sum (l : List (Chan ℝ)) (s : ℝ) :
    l.foldl (fun x p => x + p.w) s = s + (l.map (·.w)).sum := by
  induction l generalizing s with
  | nil => simp
  | cons p ps ih => rw [List.foldl_cons, ih]; simp; ring

/-- Exactly which random numbers select channel number `k`: those in an interval of length
`w k`. -/
theorem choose_iff (l : List (Chan ℝ)) (s r : ℝ) (hpos : ∀ c ∈ l, 0 < c.w)
    (hid : (l.map (·.id)).Nodup) (hs : s < r) (k : ℕ) (hk : k < l.length) :
    chooseLoop (· + ·) r s l = some l[k] ↔
      s + ((l.take k).map (·.w)).sum < r ∧ r ≤ s + ((l.take k).map (·.w)).sum + l[k].w := by
  induction l generalizing s k with
  | nil => simp at hk
  | cons p ps ih =>
    have hp : 0 < p.w := hpos p (by simp)
    have hposs : ∀ c ∈ ps, 0 < c.w := fun c hc => hpos c (by simp [hc])
    have hid' : (ps.map (·.id)).Nodup := by simp at hid; simpa using hid.2
    unfold chooseLoop
    simp only
    cases k with
    | zero =>
      simp only [List.take_zero, List.map_nil, List.sum_nil, add_zero, List.getElem_cons_zero]
      by_cases hr : r ≤ s + p.w
      · rw [if_pos hr]; simp [hs, hr]
      · rw [if_neg hr]
        constructor
        · intro hc
          have := chooseLoop_mem _ _ _ _ _ hc
          simp only [List.map_cons, List.nodup_cons, List.mem_map, not_exists, not_and] at hid
          exact absurd rfl (hid.1 p this)
        · intro h; exact absurd h.2 hr
    | succ k =>
      have hk' : k < ps.length := by simpa using hk
      have hnn : 0 ≤ ((ps.take k).map (·.w)).sum := by
        apply List.sum_nonneg
        intro x hx
        obtain ⟨c, hc, rfl⟩ := List.mem_map.1 hx
        exact (hposs c (List.mem_of_mem_take hc)).le
      by_cases hr : r ≤ s + p.w
      · rw [if_pos hr]
        constructor
        · intro hc
          simp only [List.getElem_cons_succ, Option.some.injEq] at hc
          simp only [List.map_cons, List.nodup_cons, List.mem_map, not_exists, not_and] at hid
          exact absurd (congrArg (·.id) hc).symm (hid.1 _ (List.getElem_mem hk'))
        · intro h
          simp only [List.take_succ_cons, List.map_cons, List.sum_cons] at h
          linarith [h.1]
      · rw [if_neg hr]
        have := ih (s + p.w) hposs hid' (not_le.1 hr) k hk'
        simp only [List.getElem_cons_succ, List.take_succ_cons, List.map_cons, List.sum_cons]
        rw [this, add_assoc s p.w]

/-- **C32**, the selection follows the weights: for channels of positive weight and their sum as
total, the random numbers in [0, total) that select a channel form a set whose Lebesgue measure
is the channel's weight. -/
theorem C32_probability (l : List (Chan ℝ)) (hpos : ∀ c ∈ l, 0 < c.w)
    (hid : (l.map (·.id)).Nodup) (c : Chan ℝ) (hc : c ∈ l) :
    MeasureTheory.volume {r : ℝ | 0 ≤ r ∧ r < (l.map (·.w)).sum ∧
      chooseChannel (· + ·) l r = some c} = ENNReal.ofReal c.w := by
  obtain ⟨k, hk, rfl⟩ := List.getElem_of_mem hc
  set a := ((l.take k).map (·.w)).sum with ha
  have ha0 : 0 ≤ a := by
    apply List.sum_nonneg
    intro x hx
    obtain ⟨c, hc, rfl⟩ := List.mem_map.1 hx
    exact (hpos c (List.mem_of_mem_take hc)).le
  have hw : 0 < l[k].w := hpos _ (List.getElem_mem hk)
  have htot : a + l[k].w ≤ (l.map (·.w)).sum := by
    have e : (l.map (·.w)).sum = ((l.take (k + 1)).map (·.w)).sum + ((l.drop (k + 1)).map (·.w)).sum := by
      rw [← List.sum_append, ← List.map_append, List.take_append_drop]
    have e2 : ((l.take (k + 1)).map (·.w)).sum = a + l[k].w := by
      rw [List.take_succ_eq_append_getElem hk, List.map_append, List.sum_append]; simp [ha]
    have : 0 ≤ ((l.drop (k + 1)).map (·.w)).sum := by
      apply List.sum_nonneg
      intro x hx
      obtain ⟨c, hc, rfl⟩ := List.mem_map.1 hx
      exact (hpos c (List.mem_of_mem_drop hc)).le
    rw [e, e2]; linarith
  have hiff (r : ℝ) (hr : 0 < r) : chooseChannel (· + ·) l r = some l[k] ↔ a < r ∧ r ≤ a + l[k].w := by
    have := choose_iff l 0 r hpos hid hr k hk
    simpa [chooseChannel, ha] using this
  apply le_antisymm
  · have hsub : {r : ℝ | 0 ≤ r ∧ r < (l.map (·.w)).sum ∧ chooseChannel (· + ·) l r = some l[k]} ⊆
        {0} ∪ Set.Ioc a (a + l[k].w) := by
      rintro r ⟨h0, -, h2⟩
      rcases h0.eq_or_lt with h | h
      · left; exact h.symm
      · right; exact (hiff r h).1 h2
    refine (MeasureTheory.measure_mono hsub).trans ((MeasureTheory.measure_union_le _ _).trans ?_)
    rw [Real.volume_singleton, zero_add, Real.volume_Ioc]
    simp
  · have hsub : Set.Ioo a (a + l[k].w) ⊆
        {r : ℝ | 0 ≤ r ∧ r < (l.map (·.w)).sum ∧ chooseChannel (· + ·) l r = some l[k]} := by
      rintro r ⟨h1, h2⟩
      have hr : 0 < r := by linarith
      exact ⟨hr.le, by linarith, (hiff r hr).2 ⟨h1, h2.le⟩⟩
    refine le_trans ?_ (MeasureTheory.measure_mono hsub)
    rw [Real.volume_Ioo]
    simp

/-- **C32**, with a parametrised total: after rescaling, the weights add up to the
parametrised total (or exceed it, if a tiny sum is topped up by an elastic channel), so
drawing up to it never fails. -/
theorem C32_rescaled (s : Scatter) (e : ℕ) (tot r : ℝ) (hp : s.param = some tot) (h0 : 0 < tot)
    (hpos : ∀ c ∈ s.chans.list, 0 < c.w) (hsum : s.chans.total = (s.chans.list.map (·.w)).sum)
    (hr : r ≤ (rescale s e).drawTotal) :
    (chooseChannel (· + ·) (rescale s e).chans.list r).isSome = true ∧
    (1 / 1000000 ≤ s.chans.total → ((rescale s e).chans.list.map (·.w)).sum = tot) := by
  have hnn : 0 ≤ (s.chans.list.map (·.w)).sum := by
    apply List.sum_nonneg
    intro x hx
    obtain ⟨c, hc, rfl⟩ := List.mem_map.1 hx
    exact (hpos c hc).le
  have hd : (rescale s e).drawTotal = tot := by
    unfold rescale Scatter.drawTotal
    rw [hp]
    simp only
    split_ifs <;> simp [hp]
  rw [hd] at hr
  have key : (rescale s e).chans.list ≠ [] ∧ tot ≤ ((rescale s e).chans.list.map (·.w)).sum ∧
      (1 / 1000000 ≤ s.chans.total → ((rescale s e).chans.list.map (·.w)).sum = tot) := by
    unfold rescale
    rw [hp]
    simp only
    split_ifs with h
    · unfold addProcess
      simp only
      rw [if_pos h0]
      refine ⟨by simp, ?_, fun h' => absurd h (not_lt.2 h')⟩
      simp only [List.map_append, List.sum_append, List.map_cons, List.map_nil, List.sum_cons,
        List.sum_nil]
      linarith
    · have hne : s.chans.total ≠ 0 := by
        intro e; rw [e] at h; norm_num at h
      have hl : s.chans.list ≠ [] := by
        intro e; rw [e] at hsum; simp at hsum; exact hne hsum
      have hm : ((s.chans.list.map fun c => ({ c with w := c.w * (tot / s.chans.total) } : Chan ℝ)).map
          (·.w)).sum = tot := by
        rw [List.map_map]
        have : ((·.w) ∘ fun c : Chan ℝ => ({ c with w := c.w * (tot / s.chans.total) } : Chan ℝ)) =
            fun c => c.w * (tot / s.chans.total) := rfl
        rw [this, List.sum_map_mul_right, ← hsum]
        field_simp
      exact ⟨by simpa using hl, hm.ge, fun _ => hm⟩
  obtain ⟨k1, k2, k3⟩ := key
  refine ⟨?_, k3⟩
  apply chooseLoop_some _ _ _ _ k1
  rw [foldl_sum, zero_add]
  linarith

example : chooseChannel (· + ·) ((addProcesses (· + ·) ⟨[], (0 : ℚ)⟩
    [⟨1, 2⟩, ⟨2, 0⟩, ⟨3, 5⟩]).list) 3 = some ⟨3, 5⟩ := by
  have : (addProcesses (· + ·) ⟨[], (0 : ℚ)⟩ [⟨1, 2⟩, ⟨2, 0⟩, ⟨3, 5⟩]).list = [⟨1, 2⟩, ⟨3, 5⟩] := by
    simp [addProcesses, addProcess]
  rw [this]
  simp only [chooseChannel, chooseLoop]
  norm_num

/-! ### C70 -/

/-- **C70**, without parametrised total the weight of a chosen channel is at most the total
weight reported with it. Missing: parametrised totals (`C70_parametrized`). -/
theorem C70_partial_weight_partial (batches : List (List (Chan ℝ))) (r : ℝ) (c : Chan ℝ)
    (h : chooseChannel (· + ·) (batches.foldl (addProcesses (· + ·)) ⟨[], 0⟩).list r = some c) :
    c.w ≤ (Scatter.mk (batches.foldl (addProcesses (· + ·)) ⟨[], 0⟩) none).totalWeight := by
  obtain ⟨h1, h2⟩ := addAll_spec (· + ·) batches ⟨[], (0 : ℝ)⟩ rfl
  generalize batches.foldl (addProcesses (· + ·)) ⟨[], (0 : ℝ)⟩ = s at *
  have hm := chooseLoop_mem _ _ _ _ _ h
  unfold Scatter.totalWeight
  simp only
  rw [h2, foldl_sum, zero_add]
  have hpos : ∀ x ∈ s.list.map (·.w), (0 : ℝ) ≤ x := by
    intro x hx
    obtain ⟨d, hd, rfl⟩ := List.mem_map.1 hx
    rw [h1] at hd
    simp only [List.nil_append, List.mem_filter, decide_eq_true_eq] at hd
    exact hd.2.le
  exact List.single_le_sum hpos _ (List.mem_map.2 ⟨c, hm, rfl⟩)

/-- With a parametrised total the reported total weight stays the sum before rescaling, so the
reported partial weight (here 10) can exceed the reported total weight (here 1). -/
theorem C70_parametrized :
    let s : Scatter := rescale ⟨addProcesses (· + ·) ⟨[], 0⟩ [⟨1, 1⟩], some 10⟩ 7
    ∃ c, chooseChannel (· + ·) s.chans.list 5 = some c ∧ c.w = 10 ∧ s.totalWeight = 1 := by
  have h1 : addProcesses (· + ·) ⟨[], (0 : ℝ)⟩ [⟨1, 1⟩] = ⟨[⟨1, 1⟩], 1⟩ := by
    simp [addProcesses, addProcess]
  simp only
  rw [h1]
  have h2 : rescale ⟨⟨[⟨1, 1⟩], 1⟩, some 10⟩ 7 = ⟨⟨[⟨1, 1 * (10 / 1)⟩], 1⟩, some 10⟩ := by
    unfold rescale
    simp only
    rw [if_neg (by norm_num)]
    rfl
  rw [h2]
  refine ⟨⟨1, 1 * (10 / 1)⟩, ?_, by norm_num, rfl⟩
  simp only [chooseChannel, chooseLoop]
  rw [if_pos (by norm_num)]

/-! ### C33 -/

/-- The sum of one momentum component over a particle list; `none` if one is not finite. -/
def sumComp (f : Q4 → Dbl) : List Part → Dbl
  | [] => some 0
  | p :: ps => match f p.mom, sumComp f ps with
    | some a, some b => some (a + b)
    | _, _ => none

/-- Two sums agree up to the tolerance of `almost_equal_physics` (see `C59_eq_meaning`). -/
def Near (a b : Dbl) : Prop := ∃ x y : ℚ, a = some x ∧ b = some y ∧
  (|x - y| ≤ 1 / 10000 * max |x| |y| ∨ |x - y| ≤ 1 / 1000000 ∨
    ((x = 0 ∨ y = 0) ∧ |x - y| ≤ 1 / 10000))

/-- All quantities that must be conserved agree. -/
def Conserved (inc out : List Part) : Prop :=
  Near (sumComp (·.t) inc) (sumComp (·.t) out) ∧ Near (sumComp (·.x) inc) (sumComp (·.x) out) ∧
  Near (sumComp (·.y) inc) (sumComp (·.y) out) ∧ Near (sumComp (·.z) inc) (sumComp (·.z) out) ∧
  (inc.map fun p => Pdg.charge p.pdg).sum = (out.map fun p => Pdg.charge p.pdg).sum ∧
  (inc.map fun p => Pdg.isospin3 p.pdg).sum = (out.map fun p => Pdg.isospin3 p.pdg).sum ∧
  (inc.map fun p => Pdg.strangeness p.pdg).sum = (out.map fun p => Pdg.strangeness p.pdg).sum ∧
  (inc.map fun p => Pdg.charmness p.pdg).sum = (out.map fun p => Pdg.charmness p.pdg).sum ∧
  (inc.map fun p => Pdg.bottomness p.pdg).sum = (out.map fun p => Pdg.bottomness p.pdg).sum ∧
  (inc.map fun p => Pdg.baryonNumber p.pdg).sum = (out.map fun p => Pdg.baryonNumber p.pdg).sum

/-- The documented exceptions, by the numbers that appear in the output: string processes
(41-46), free-for-all (90), decay (5) of a stable particle. -/
def Excepted (t : PType) (inc : List Part) : Prop :=
  (41 ≤ t.code ∧ t.code ≤ 46) ∨ t.code = 90 ∨
  (t.code = 5 ∧ ∃ p ps, inc = p :: ps ∧ p.stable = true)

theorem dadd_assoc (a b c : Dbl) : Dbl.add (Dbl.add a b) c = Dbl.add a (Dbl.add b c) := by
  cases a <;> cases b <;> cases c <;> simp [Dbl.add, add_assoc]

theorem sumComp_cons (f : Q4 → Dbl) (p : Part) (l : List Part) :
    sumComp f (p :: l) = Dbl.add (f p.mom) (sumComp f l) := by
  cases h1 : f p.mom <;> cases h2 : sumComp f l <;> simp [sumComp, Dbl.add, h1, h2]

theorem dadd_zero (a : Dbl) : Dbl.add a (some 0) = a := by cases a <;> simp [Dbl.add]

theorem foldl_qn (l : List Part) (q : QN) : l.foldl QN.addValues q =
    ⟨⟨Dbl.add q.mom.t (sumComp (·.t) l), Dbl.add q.mom.x (sumComp (·.x) l),
      Dbl.add q.mom.y (sumComp (·.y) l), Dbl.add q.mom.z (sumComp (·.z) l)⟩,
      q.charge + (l.map fun p => Pdg.charge p.pdg).sum,
      q.isospin3 + (l.map fun p => Pdg.isospin3 p.pdg).sum,
      q.strangeness + (l.map fun p => Pdg.strangeness p.pdg).sum,
      q.charmness + (l.map fun p => Pdg.charmness p.pdg).sum,
      q.bottomness + (l.map fun p => Pdg.bottomness p.pdg).sum,
      q.baryon + (l.map fun p => Pdg.baryonNumber p.pdg).sum⟩ := by
  induction l generalizing q with
  | nil => simp [sumComp, dadd_zero]
  | cons p ps ih =>
    rw [List.foldl_cons, ih]
    simp only [QN.addValues, Q4.add, sumComp_cons, dadd_assoc, List.map_cons, List.sum_cons, add_assoc]

theorem near_iff (a b : Dbl) : almostEqualPhysics a b = true ↔ Near a b := by
  unfold Near
  cases a with
  | none => simp [almostEqualPhysics, almostEqual]
  | some x =>
    cases b with
    | none => simp [almostEqualPhysics, almostEqual]
    | some y => rw [C59_eq_meaning]; simp

theorem zero_dadd (a : Dbl) : Dbl.add (some 0) a = a := by cases a <;> simp [Dbl.add]

theorem qn_eq_iff (inc out : List Part) :
    QN.eq (QN.ofList inc) (QN.ofList out) = true ↔ Conserved inc out := by
  unfold QN.ofList
  rw [foldl_qn, foldl_qn]
  unfold QN.eq QN.zero Q4.eq Conserved
  simp only [zero_dadd, zero_add, Bool.and_eq_true, near_iff, beq_iff_eq, and_assoc]

/-- **C33**: the check lets an interaction pass exactly if everything is conserved or the
process is a documented exception; otherwise it throws. (A decay with an empty list of
incoming particles is undefined behaviour and does not occur.) -/
theorem C33_check (t : PType) (inc out : List Part) (hd : t.code = 5 → inc ≠ []) :
    ((∃ v, checkConservation t inc out = .returned v) ↔ Conserved inc out ∨ Excepted t inc) ∧
    (checkConservation t inc out = .threw ↔ ¬ (Conserved inc out ∨ Excepted t inc)) := by
  rw [← qn_eq_iff]
  unfold checkConservation Excepted
  simp only
  cases hq : QN.eq (QN.ofList inc) (QN.ofList out)
  · cases t <;> simp [isStringSoft, PType.code] at hd ⊢
    cases inc with
    | nil => exact absurd rfl hd
    | cons p ps => cases hs : p.stable <;> simp [hs]
  · simp

/-- **C33**, the reported energy violation: zero, or for string processes that violate
something, the energy gained. -/
theorem C33_violation (t : PType) (inc out : List Part) (v : Dbl)
    (h : checkConservation t inc out = .returned v) :
    v = some 0 ∨ (41 ≤ t.code ∧ t.code ≤ 46 ∧ ¬ Conserved inc out ∧
      v = Dbl.add (sumComp (·.t) out) ((sumComp (·.t) inc).map (-·))) := by
  rw [← qn_eq_iff]
  have e1 : (QN.ofList out).mom.t = sumComp (·.t) out := by
    unfold QN.ofList; rw [foldl_qn]; simp [QN.zero, zero_dadd]
  have e2 : (QN.ofList inc).mom.t = sumComp (·.t) inc := by
    unfold QN.ofList; rw [foldl_qn]; simp [QN.zero, zero_dadd]
  unfold checkConservation at h
  simp only [e1, e2] at h
  cases hq : QN.eq (QN.ofList inc) (QN.ofList out)
  · rw [hq] at h
    cases t <;> simp [isStringSoft, PType.code] at h ⊢
    case decay =>
      cases inc with
      | nil => simp at h
      | cons p ps =>
        cases hs : p.stable
        · simp [hs] at h
        · simp [hs] at h; exact h.symm
    all_goals first
      | exact .inr h.symm
      | exact h.symm
  · rw [hq] at h
    simp at h
    exact .inl h.symm

/-- A pion that "decays" into a kaon of the same momentum is stopped (strangeness); the same
pion unchanged passes. -/
example :
    let p : ℚ → Nat → Part := fun e d => ⟨⟨some e, some 0, some 0, some 1⟩, d, false⟩
    checkConservation .twoToOne [p 2 0x211] [p 2 0x321] = .threw ∧
    checkConservation .twoToOne [p 2 0x211] [p 2 0x211] = .returned (some 0) := by
  decide +kernel

/-! ### C35 -/

/-- **C35**: what performing an action does to the history of an outgoing particle. Wall
crossings (6) and fluidisation without removal (21) leave it alone; all others set process ID
and type and the time, and count one more collision. The parents are set to the single incoming
particle for decays, kept for elastic (1), failed string (47) and fluidisation (8), the two
incoming particles for two-particle reactions and strings, and cleared for the rest. -/
theorem C35_history (t : PType) (pid : Nat) (time : Option ℚ) (a b : Nat) (rest : List Nat) (h : Hist) :
    performHistory t pid time (a :: b :: rest) h = some (
      if t.code = 6 ∨ t.code = 21 then h
      else if t.code = 5 then ⟨h.ncoll + 1, pid, t, time, a, 0⟩
      else if t.code = 1 ∨ t.code = 47 ∨ t.code = 8 then ⟨h.ncoll + 1, pid, t, time, h.p1, h.p2⟩
      else if t.code ∈ [2, 3, 4, 15, 13, 9, 41, 42, 43, 44, 45, 46] then
        ⟨h.ncoll + 1, pid, t, time, a, b⟩
      else ⟨h.ncoll + 1, pid, t, time, 0, 0⟩) := by
  cases t <;> rfl

/-- **C35**, decays have one incoming particle. -/
theorem C35_decay (pid : Nat) (time : Option ℚ) (a : Nat) (rest : List Nat) (h : Hist) :
    performHistory .decay pid time (a :: rest) h = some ⟨h.ncoll + 1, pid, .decay, time, a, 0⟩ := rfl

/-- **C35**, no process type reads beyond the incoming list, if decays have at least one and
two-particle reactions at least two incoming particles. -/
theorem C35_defined (t : PType) (pid : Nat) (time : Option ℚ) (parents : List Nat) (h : Hist) :
    (performHistory t pid time parents h).isSome = true ↔
      (t.code = 5 → 1 ≤ parents.length) ∧
      (t.code ∈ [2, 3, 4, 15, 13, 9, 41, 42, 43, 44, 45, 46] → 2 ≤ parents.length) := by
  match parents with
  | [] => cases t <;> simp [performHistory, setHistory, PType.code]
  | [a] => cases t <;> simp [performHistory, setHistory, PType.code]
  | a :: b :: r => cases t <;> simp [performHistory, setHistory, PType.code]

/-- **C35**, the particles stay in place (keep their IDs) exactly for elastic collisions, wall
crossings and fluidisation without removal. -/
theorem C35_replace (t : PType) : performReplaces t = false ↔ t.code = 1 ∨ t.code = 6 ∨ t.code = 21 := by
  cases t <;> simp [performReplaces, PType.code]

/-! ### C36 -/

theorem ratio_mem {tb tf t : ℝ} (h1 : tb < t) (h2 : t < tf) :
    0 < (t - tb) / (tf - tb) ∧ (t - tb) / (tf - tb) ≤ 1 := by
  have : 0 < tf - tb := by linarith
  exact ⟨div_pos (by linarith) this, (div_le_one this).2 (by linarith)⟩

/-- **C36**, range. -/
theorem C36_range (init tb tf power t : ℝ) (h0 : 0 ≤ init) (h1 : init ≤ 1) :
    init ≤ xsecScaling init tb tf power t ∧ xsecScaling init tb tf power t ≤ 1 := by
  unfold xsecScaling
  split_ifs with a b c d
  · exact ⟨le_refl _, h1⟩
  · exact ⟨h1, le_refl _⟩
  · exact ⟨h1, le_refl _⟩
  · exact ⟨le_refl _, h1⟩
  · obtain ⟨r0, r1⟩ := ratio_mem (not_le.1 d) (not_le.1 c)
    have p0 := Real.rpow_nonneg r0.le power
    have p1 := Real.rpow_le_one r0.le r1 (not_le.1 a).le
    change init ≤ init + (1 - init) * ((t - tb) / (tf - tb)) ^ power ∧
      init + (1 - init) * ((t - tb) / (tf - tb)) ^ power ≤ 1
    constructor <;> nlinarith

/-- **C36**, non-decreasing in time. -/
theorem C36_monotone (init tb tf power t t' : ℝ) (h0 : 0 ≤ init) (h1 : init ≤ 1) (ht : t ≤ t') :
    xsecScaling init tb tf power t ≤ xsecScaling init tb tf power t' := by
  have r1 := C36_range init tb tf power t h0 h1
  have r2 := C36_range init tb tf power t' h0 h1
  unfold xsecScaling at *
  by_cases a : power ≤ 0
  · simp only [if_pos a] at *
    split_ifs at * <;> linarith
  · simp only [if_neg a] at *
    by_cases c : tf ≤ t'
    · simp only [if_pos c] at *; exact r1.2
    · have c' : ¬ tf ≤ t := by linarith
      simp only [if_neg c, if_neg c'] at *
      by_cases d : tb ≥ t
      · simp only [if_pos d] at *; exact r2.1
      · have d' : ¬ tb ≥ t' := by intro h; exact d (le_trans ht h)
        simp only [if_neg d, if_neg d']
        have q1 := ratio_mem (not_le.1 d) (not_le.1 c')
        have q2 : (t - tb) / (tf - tb) ≤ (t' - tb) / (tf - tb) := by
          apply div_le_div_of_nonneg_right _ (by linarith [not_le.1 d, not_le.1 c'])
          linarith
        have q3 := Real.rpow_le_rpow q1.1.le q2 (not_le.1 a).le
        change init + (1 - init) * ((t - tb) / (tf - tb)) ^ power ≤
          init + (1 - init) * ((t' - tb) / (tf - tb)) ^ power
        nlinarith

/-- **C36**, the ends: the initial factor until the formation begins (with a step function:
until the formation time), 1 from the formation time on. -/
theorem C36_ends (init tb tf power t : ℝ) :
    (tf ≤ t → xsecScaling init tb tf power t = 1) ∧
    (t < tf → (t ≤ tb ∨ power ≤ 0) → xsecScaling init tb tf power t = init) := by
  unfold xsecScaling
  constructor
  · intro h
    split_ifs <;> first | rfl | linarith
  · intro h h'
    by_cases a : power ≤ 0
    · rw [if_pos a, if_pos h]
    · rw [if_neg a, if_neg (not_le.2 h), if_pos]
      rcases h' with h' | h'
      · exact h'
      · exact absurd h' a

example : xsecScaling (1 / 2) 0 4 2 2 = 5 / 8 := by
  unfold xsecScaling
  rw [if_neg (by norm_num), if_neg (by norm_num), if_neg (by norm_num)]
  change 1 / 2 + (1 - 1 / 2) * (((2 : ℝ) - 0) / (4 - 0)) ^ (2 : ℝ) = 5 / 8
  rw [Real.rpow_ofNat]
  norm_num

/-! ### C69 -/

theorem velocity_eq (p : V4) : p.velocity = ⟨p.x / p.t, p.y / p.t, p.z / p.t⟩ := by
  unfold V4.velocity V3.div V3.smul V4.vec
  ext <;> simp only <;> ring

theorem velocity_sub {p : V4} (h0 : 0 < p.t) (hm : p.x ^ 2 + p.y ^ 2 + p.z ^ 2 < p.t ^ 2) :
    Subluminal p.velocity := (C29_rest p h0 hm).1

/-- The size of the spin vector is that of the sampled rest-frame vector: its Minkowski square
is minus the length squared. What is missing for **C69** is orthogonality to the momentum
(`C69_not_orthogonal`). -/
theorem C69_spin_norm_partial (p : V4) (s : V3) (h0 : 0 < p.t)
    (hm : p.x ^ 2 + p.y ^ 2 + p.z ^ 2 < p.t ^ 2) :
    minkowski (unpolarizedSpin p s) (unpolarizedSpin p s) = -(s.x ^ 2 + s.y ^ 2 + s.z ^ 2) := by
  unfold unpolarizedSpin
  rw [C29_isometry _ _ _ (velocity_sub h0 hm)]
  unfold minkowski V4.mk'
  ring

/-- The spin vector is boosted in the wrong direction: its product with the momentum vanishes
only if the rest-frame spin happens to be perpendicular to the momentum. -/
theorem C69_not_orthogonal (p : V4) (s : V3) (h0 : 0 < p.t)
    (hm : p.x ^ 2 + p.y ^ 2 + p.z ^ 2 < p.t ^ 2) :
    minkowski p (unpolarizedSpin p s) = 0 ↔ p.x * s.x + p.y * s.y + p.z * s.z = 0 := by
  have hv := velocity_sub h0 hm
  have key : minkowski p (unpolarizedSpin p s) =
      -2 * gamma p.velocity * (p.x * s.x + p.y * s.y + p.z * s.z) := by
    obtain ⟨hg, hvv⟩ := gamma_spec hv
    have hvel := velocity_eq p
    unfold unpolarizedSpin minkowski boost V4.mk' V3.sub V3.smul V4.vec V3.dot
    simp only
    generalize gamma p.velocity = g at *
    generalize hw : p.velocity = w at *
    have ex : p.x = w.x * p.t := by rw [hvel]; field_simp
    have ey : p.y = w.y * p.t := by rw [hvel]; field_simp
    have ez : p.z = w.z * p.t := by rw [hvel]; field_simp
    rw [ex, ey, ez]
    generalize hq : s.x * w.x + s.y * w.y + s.z * w.z = q
    have e1 : p.t * (g * (0 - q)) - (q * p.t - (1 - 1 / g ^ 2) * p.t *
        (g / (g + 1) * (g * (0 - q) + 0))) = -2 * g * (q * p.t) := by
      field_simp
      ring
    linear_combination e1 + (g / (g + 1) * (g * (0 - q) + 0)) * p.t * hvv +
      (2 * g * p.t - p.t) * hq
  have hg := (gamma_spec hv).1
  rw [key]
  constructor
  · intro h
    rcases mul_eq_zero.1 h with h | h
    · linarith
    · exact h
  · intro h; rw [h, mul_zero]

/-- Boosting by minus the velocity, as needed to go from the rest frame to the computational
frame, would make it orthogonal. -/
theorem C69_right_direction (p : V4) (s : V3) (h0 : 0 < p.t)
    (hm : p.x ^ 2 + p.y ^ 2 + p.z ^ 2 < p.t ^ 2) :
    minkowski p (boost (V4.mk' 0 s) p.velocity.neg) = 0 := by
  have hv := velocity_sub h0 hm
  have e := C29_isometry p (boost (V4.mk' 0 s) p.velocity.neg) p.velocity hv
  rw [← e, (C29_rest p h0 hm).2]
  have hn : Subluminal p.velocity.neg := by
    unfold Subluminal V3.neg at *; simpa using hv
  have hinv := C29_inverse (V4.mk' 0 s) p.velocity.neg hn
  have hnn : p.velocity.neg.neg = p.velocity := by unfold V3.neg; simp
  rw [hnn] at hinv
  rw [hinv]
  unfold minkowski V4.mk'
  ring

example : (0 : ℝ) < (V4.mk 5 0 0 4).t ∧ ¬ minkowski ⟨5, 0, 0, 4⟩ (unpolarizedSpin ⟨5, 0, 0, 4⟩ ⟨0, 0, 1⟩) = 0 := by
  refine ⟨by norm_num, ?_⟩
  rw [C69_not_orthogonal _ _ (by norm_num) (by norm_num)]
  norm_num

end Verif.Act
