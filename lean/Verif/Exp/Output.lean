import Verif.Exp.Model
import Verif.Clock.Props
import Mathlib.Tactic.SplitIfs
/-
Property C47: intermediate output at every output time, exactly once, in order,
whatever the timestep.
-/
namespace Verif.Exp
open Verif.Clock

/-! ## Clocks as schedules -/

/-- The states `os 0, os 1, …` of an output clock announce the times `f 0, f 1, …`;
`f N` is the first that is not before `S`. -/
structure Follows (os : Nat → OClock) (f : Nat → ℚ) (S : ℚ) (N : Nat) : Prop where
  tick : ∀ n ≤ N, (os n).tick = .ok (os (n + 1))
  next : ∀ n ≤ N, (os n).nextTime = .ok (f n)
  cur : ∀ n ≤ N, (os (n + 1)).currentTime = .ok (f n)
  mono : ∀ n < N, f n ≤ f (n + 1)
  small : ∀ n < N, f n < S
  big : S ≤ f N

/-- Events: evolve to a time, then possibly output with that time as label. -/
def flat (bs : List (ℚ × Bool)) : List Ev :=
  bs.flatMap fun p => if p.2 then [.evolveTo p.1, .output p.1] else [.evolveTo p.1]

/-- Labels of the outputs. -/
def labels (evs : List Ev) : List ℚ :=
  evs.filterMap fun e => match e with
    | .output t => some t
    | .evolveTo _ => none

/-- The blocks for `f n, …, f (m-1)`. -/
def outs (f : Nat → ℚ) (n m : Nat) : List (ℚ × Bool) :=
  (List.range' n (m - n)).map fun i => (f i, true)

theorem outs_self (f : Nat → ℚ) (n : Nat) : outs f n n = [] := by simp [outs]

theorem outs_cons (f : Nat → ℚ) {n m : Nat} (h : n < m) :
    outs f n m = (f n, true) :: outs f (n + 1) m := by
  have : m - n = (m - (n + 1)) + 1 := by omega
  simp [outs, this, List.range'_succ]

theorem outs_append (f : Nat → ℚ) {n m k : Nat} (h : n ≤ m) (h' : m ≤ k) :
    outs f n m ++ outs f m k = outs f n k := by
  unfold outs
  rw [← List.map_append]
  have : List.range' n (m - n) ++ List.range' m (k - m) = List.range' n (k - n) := by
    have e1 : k - n = (m - n) + (k - m) := by omega
    have e2 : m = n + (m - n) := by omega
    rw [e1, ← List.range'_append]
    congr 2; omega
  rw [this]

theorem flat_append (a b : List (ℚ × Bool)) : flat (a ++ b) = flat a ++ flat b := by
  simp [flat]

theorem follows_mono {os : Nat → OClock} {f : Nat → ℚ} {S : ℚ} {N : Nat} (h : Follows os f S N)
    {n m : Nat} (hnm : n ≤ m) (hm : m ≤ N) : f n ≤ f m := by
  induction m with
  | zero => simp at hnm; subst hnm; exact le_refl _
  | succ m ih =>
    rcases Nat.lt_or_ge n (m + 1) with h1 | h1
    · exact (ih (by omega) (by omega)).trans (h.mono m (by omega))
    · have : n = m + 1 := by omega
      subst this; exact le_refl _

theorem outputLoop_ok {os : Nat → OClock} {f : Nat → ℚ} {S : ℚ} {N : Nat} (h : Follows os f S N)
    {E : ℚ} (hE : E ≤ S) : ∀ (fuel n : Nat), n ≤ N → N - n < fuel →
      ∃ m, n ≤ m ∧ m ≤ N ∧ outputLoop E fuel (os n) = .ok (os m, flat (outs f n m)) ∧
        (∀ i, n ≤ i → i < m → f i < E) ∧ E ≤ f m := by
  intro fuel
  induction fuel with
  | zero => intro n _ h2; omega
  | succ fuel ih =>
    intro n hn hfuel
    rw [outputLoop]
    simp only [h.next n hn, lift, bind, Except.bind]
    by_cases hlt : f n < E
    · have hnN : n < N := by
        by_contra hc
        have : n = N := by omega
        subst this
        exact absurd (lt_of_lt_of_le hlt hE) (not_lt.2 h.big)
      rw [if_pos hlt]
      obtain ⟨m, h1, h2, h3, h4, h5⟩ := ih (n + 1) (by omega) (by omega)
      refine ⟨m, by omega, h2, ?_, ?_, h5⟩
      · simp only [h.tick n hn, h.cur n hn, h3, pure, Except.pure]
        rw [outs_cons f (by omega : n < m)]
        simp [flat]
      · intro i hi1 hi2
        rcases Nat.eq_or_lt_of_le hi1 with rfl | h6
        · exact hlt
        · exact h4 i h6 hi2
    · rw [if_neg hlt]
      exact ⟨n, le_refl _, hn, by simp [outs_self, flat, pure, Except.pure], by omega, not_lt.1 hlt⟩

/-! ## The loop over timesteps -/

theorem ofTicks_lt {a b : Int} : ofTicks a < ofTicks b ↔ a < b := by
  unfold ofTicks
  constructor
  · intro h
    have : (a : ℚ) < b := by linarith
    exact_mod_cast this
  · intro h
    have : (a : ℚ) < b := by exact_mod_cast h
    linarith

theorem ofTicks_le {a b : Int} : ofTicks a ≤ ofTicks b ↔ a ≤ b := by
  rw [← not_lt, ofTicks_lt, not_lt]

theorem labLoop_ok {os : Nat → OClock} {f : Nat → ℚ} {N ofuel : Nat} {stop : Int}
    (h : Follows os f (ofTicks stop) N) (hof : N < ofuel) {tEnd : ℚ}
    (hT1 : ∀ k : Int, ofTicks k < tEnd → k ≤ stop) (hT2 : ∀ k : Int, ¬ ofTicks k < tEnd → stop ≤ k) :
    ∀ (fuel : Nat) (lab : UClock) (n : Nat), Good lab → lab.stop = stop → n ≤ N →
      (stop + 1 - (lab.reset + lab.counter * lab.dt)).toNat < fuel →
      (stop ≤ lab.reset + lab.counter * lab.dt → n = N) →
      ∃ lab' bs, labLoop tEnd ofuel fuel lab (os n) = .ok (lab', os N, flat bs) ∧
        (bs.map Prod.fst).Pairwise (· ≤ ·) ∧
        (∀ y, y ≤ f n → y ≤ ofTicks (min (lab.reset + (lab.counter + 1) * lab.dt) stop) →
          ∀ b ∈ bs, y ≤ b.1) ∧
        (∀ b ∈ bs, b.1 ≤ ofTicks stop) ∧
        bs.filter Prod.snd = outs f n N ∧
        (lab.reset + lab.counter * lab.dt < stop → bs.getLast? = some (ofTicks stop, false)) := by
  intro fuel
  induction fuel with
  | zero => intro lab n _ _ _ h2; omega
  | succ fuel ih =>
    intro lab n hg hs hn hfuel hnN
    rw [labLoop]
    simp only [present_ok hg, lift, bind, Except.bind]
    by_cases hlt : ofTicks (lab.reset + lab.counter * lab.dt) < tEnd
    · have hle := hT1 _ hlt
      rw [if_pos hlt]
      simp only [duration_ok hg, next_ok hg]
      obtain ⟨m, m1, m2, m3, m4, m5⟩ := outputLoop_ok h
        (E := ofTicks (min (lab.reset + (lab.counter + 1) * lab.dt) lab.stop))
        (by rw [ofTicks_le, hs]; exact min_le_right _ _) ofuel n hn (by omega)
      simp only [m3]
      have e : (lab.counter + 1) * lab.dt = lab.counter * lab.dt + lab.dt := by ring
      have hcn : lab.counter ≤ lab.counter * lab.dt := le_mul_of_one_le_right hg.counter_nonneg hg.dt_pos
      have hd := hg.dt_pos
      have g1 := hg.reset_ge
      have g2 := hg.stop_le
      have g3 := hg.dt_le
      have hgood' : Good { lab with counter := lab.counter + 1 } := by
        refine ⟨hg.dt_pos, hg.dt_le, hg.reset_ge, hg.reset_le, hg.stop_ge, hg.stop_le, hg.order, ?_, ?_⟩
        · have := hg.counter_nonneg; simp only; omega
        · simp only; rw [e]; omega
      rw [utick_ok (by simp only [i64max]; omega)]
      simp only
      have hfuel' : (stop + 1 - (lab.reset + (lab.counter + 1) * lab.dt)).toNat < fuel := by
        rw [e]; omega
      rw [hs] at m5
      have b6 : stop ≤ lab.reset + (lab.counter + 1) * lab.dt → m = N := by
        intro hge
        rw [min_eq_right hge] at m5
        by_contra hc
        exact absurd (h.small m (by omega)) (not_lt.2 m5)
      obtain ⟨lab', bs, b1, b2, b3, b3', b4, b5⟩ := ih { lab with counter := lab.counter + 1 } m
        hgood' hs m2 hfuel' b6
      simp only at b3 b5
      simp only [b1, pure, Except.pure]
      have hE2 : ofTicks (min (lab.reset + (lab.counter + 1) * lab.dt) stop) ≤
          ofTicks (min (lab.reset + (lab.counter + 1 + 1) * lab.dt) stop) := by
        rw [ofTicks_le, e]
        have : (lab.counter + 1 + 1) * lab.dt = lab.counter * lab.dt + lab.dt + lab.dt := by ring
        omega
      have hrest := b3 _ m5 hE2
      have hstepS : ofTicks (min (lab.reset + (lab.counter + 1) * lab.dt) stop) ≤ ofTicks stop := by
        rw [ofTicks_le]; exact min_le_right _ _
      have houts : ∀ b ∈ outs f n m, f n ≤ b.1 ∧
          b.1 ≤ ofTicks (min (lab.reset + (lab.counter + 1) * lab.dt) stop) := by
        intro b hb
        simp only [outs, List.mem_map, List.mem_range'_1] at hb
        obtain ⟨i, ⟨i1, i2⟩, rfl⟩ := hb
        refine ⟨follows_mono h i1 (by omega), ?_⟩
        have := m4 i i1 (by omega)
        rw [hs] at this
        exact this.le
      refine ⟨lab', outs f n m ++ (ofTicks (min (lab.reset + (lab.counter + 1) * lab.dt) stop), false) :: bs,
        ?_, ?_, ?_, ?_, ?_, ?_⟩
      · rw [hs]
        simp only [flat_append]
        simp [flat]
      · rw [List.map_append, List.pairwise_append]
        refine ⟨?_, ?_, ?_⟩
        · rw [List.pairwise_map, outs, List.pairwise_map]
          refine List.Pairwise.imp_of_mem ?_ (List.pairwise_lt_range' (s := n) (n := m - n) (step := 1))
          intro a b ha hb hab
          rw [List.mem_range'_1] at ha hb
          exact follows_mono h hab.le (by omega)
        · rw [List.map_cons, List.pairwise_cons]
          refine ⟨?_, b2⟩
          intro x hx
          obtain ⟨b, hb, rfl⟩ := List.mem_map.1 hx
          exact hrest b hb
        · intro x hx y hy
          obtain ⟨a, ha, rfl⟩ := List.mem_map.1 hx
          rw [List.map_cons, List.mem_cons] at hy
          rcases hy with rfl | hy
          · exact (houts a ha).2
          · obtain ⟨b, hb, rfl⟩ := List.mem_map.1 hy
            exact (houts a ha).2.trans (hrest b hb)
      · intro y hy1 hy2 b hb
        rcases List.mem_append.1 hb with h1 | h1
        · exact hy1.trans (houts b h1).1
        · rcases List.mem_cons.1 h1 with rfl | h1
          · exact hy2
          · exact hy2.trans (hrest b h1)
      · intro b hb
        rcases List.mem_append.1 hb with h1 | h1
        · exact (houts b h1).2.trans hstepS
        · rcases List.mem_cons.1 h1 with rfl | h1
          · exact hstepS
          · exact b3' b h1
      · rw [List.filter_append, List.filter_cons]
        have : (outs f n m).filter Prod.snd = outs f n m := by
          rw [List.filter_eq_self]
          intro a ha
          simp only [outs, List.mem_map] at ha
          obtain ⟨i, _, rfl⟩ := ha
          rfl
        rw [this, b4]
        simp only [Bool.false_eq_true, if_false]
        exact outs_append f m1 m2
      · intro hlt'
        rw [List.getLast?_append]
        cases bs with
        | nil =>
          have : stop ≤ lab.reset + (lab.counter + 1) * lab.dt := by
            by_contra hc
            have := b5 (by omega)
            simp at this
          rw [min_eq_right this]
          simp
        | cons b bs' =>
          by_cases hc : lab.reset + (lab.counter + 1) * lab.dt < stop
          · have := b5 hc
            rw [List.getLast?_cons_cons, this]; simp
          · -- only a timestep of length zero can follow
            have hlast : (b :: bs').getLast? = some (ofTicks stop, false) := by
              have hx : m = N := b6 (by omega)
              have hb4 : (b :: bs').filter Prod.snd = [] := by rw [b4, hx, outs_self]
              obtain ⟨y, hy⟩ : ∃ y, (b :: bs').getLast? = some y := by
                rw [List.getLast?_cons]; exact ⟨_, rfl⟩
              have hmem : y ∈ b :: bs' := List.mem_of_getLast? hy
              have h1 := hrest y hmem
              rw [min_eq_right (by omega)] at h1
              have h2 : y.2 = false := by
                rw [List.filter_eq_nil_iff] at hb4
                simpa using hb4 y hmem
              rw [hy]
              have h3 : y.1 = ofTicks stop := le_antisymm (b3' y hmem) h1
              rw [← h3, ← h2]
            rw [List.getLast?_cons_cons, hlast]; simp
    · have hge := hT2 _ hlt
      rw [if_neg hlt]
      have := hnN hge
      subst this
      exact ⟨lab, [], by simp [flat, pure, Except.pure], by simp, by simp, by simp,
        by simp [outs_self], by intro h1; omega⟩

/-! ## Uniform output interval -/

/-- A sensible run: times within 10¹¹ fm, timestep and output interval between half a
clock tick and 10¹¹ fm, and an end after the start and after zero. -/
structure Setup (start dt endTime : ℚ) : Prop where
  first : |start| ≤ 10 ^ 11
  stop : |endTime| ≤ 10 ^ 11
  step_le : dt ≤ 10 ^ 11
  step_ge : 1 / 2000000 ≤ dt
  order : micro start < micro endTime

theorem Setup.sane {a b c : ℚ} (h : Setup a b c) : Sane a b c :=
  ⟨h.first.trans (by norm_num), h.stop.trans (by norm_num), h.step_le.trans (by norm_num),
    h.step_ge, h.order⟩

theorem stdRound_floor (x : ℚ) : ⌊x⌋ ≤ stdRound x ∧ stdRound x ≤ ⌊x⌋ + 1 := by
  unfold stdRound
  have h1 := Int.floor_le x
  have h2 := Int.lt_floor_add_one x
  split_ifs with h
  · constructor
    · exact Int.floor_le_floor (by linarith)
    · have : ⌊x + 1 / 2⌋ < ⌊x⌋ + 2 := Int.floor_lt.2 (by push_cast; linarith)
      omega
  · have h3 : -⌊x⌋ - 1 ≤ ⌊-x + 1 / 2⌋ := Int.le_floor.2 (by push_cast; linarith)
    have h4 : ⌊-x + 1 / 2⌋ < -⌊x⌋ + 1 := Int.floor_lt.2 (by push_cast; linarith)
    omega

theorem tEnd_ticks (t : ℚ) (k : Int) :
    (ofTicks k < t → k ≤ stdRound (t * 1000000)) ∧ (¬ ofTicks k < t → stdRound (t * 1000000) ≤ k) := by
  have hr : |(stdRound (t * 1000000) : ℚ) - t * 1000000| ≤ 1 / 2 := by
    have := micro_close t
    unfold micro at this
    rw [abs_le] at this ⊢
    constructor <;> linarith [this.1, this.2]
  rw [abs_le] at hr
  unfold ofTicks
  constructor
  · intro h
    have h1 : (k : ℚ) < t * 1000000 := by linarith
    have : (k : ℚ) < stdRound (t * 1000000) + 1 := by linarith [hr.1]
    have : k < stdRound (t * 1000000) + 1 := by exact_mod_cast this
    omega
  · intro h
    have h1 : t * 1000000 ≤ (k : ℚ) := by linarith
    have : (stdRound (t * 1000000) : ℚ) < k + 1 := by linarith [hr.2]
    have : stdRound (t * 1000000) < k + 1 := by exact_mod_cast this
    omega

theorem labels_flat (bs : List (ℚ × Bool)) :
    labels (flat bs) = (bs.filter Prod.snd).map Prod.fst := by
  induction bs with
  | nil => rfl
  | cons b bs ih =>
    obtain ⟨t, o⟩ := b
    have : flat ((t, o) :: bs) = flat [(t, o)] ++ flat bs := flat_append [(t, o)] bs
    rw [this]
    have h2 : labels (flat [(t, o)] ++ flat bs) = labels (flat [(t, o)]) ++ labels (flat bs) := by
      simp [labels]
    rw [h2, ih]
    cases o <;> simp [flat, labels]

/-- What a run up to the end looks like: the events are blocks "evolve to `t`" or
"evolve to `t`, then output labelled `t`", with times that never decrease and never
leave the range from start to end; the last one evolves to the end. -/
structure RunSpec (start endTime : ℚ) (evs : List Ev) (bs : List (ℚ × Bool)) : Prop where
  blocks : evs = flat bs
  sorted : (bs.map Prod.fst).Pairwise (· ≤ ·)
  range : ∀ b ∈ bs, start < b.1 ∧ b.1 ≤ micro endTime
  last : bs.getLast? = some (micro endTime, false)

theorem run_ok {start dt endTime : ℚ} (h : Setup start dt endTime) {os : Nat → OClock}
    {f : Nat → ℚ} {N : Nat} (hf : Follows os f (micro endTime) N)
    (hcur : start < f 0) {lab : UClock} (hlab : UClock.mk' start dt endTime = .ok lab) :
    ∃ F, ∀ fuel ≥ F, ∃ lab' bs,
      runTimeEvolution fuel endTime endTime lab (os 0) = .ok (lab', os (N + 1), flat bs) ∧
        RunSpec start endTime (flat bs) bs ∧
        labels (flat bs) = (List.range N).map f := by
  obtain ⟨c, c1, c2, c3, c4, c5, c6⟩ := mk_ok h.sane
  rw [hlab] at c1
  injection c1 with c1
  subst c1
  have hstop : lab.stop = stdRound (endTime * 1000000) := by
    have h0 : ofTicks lab.stop = ofTicks (stdRound (endTime * 1000000)) := by rw [c6]; rfl
    exact le_antisymm (ofTicks_le.1 h0.le) (ofTicks_le.1 h0.ge)
  refine ⟨max (N + 1) ((lab.stop + 1 - (lab.reset + lab.counter * lab.dt)).toNat + 1), ?_⟩
  intro fuel hfuel
  have hfuel1 : N < fuel := by omega
  have hfuel2 : (lab.stop + 1 - (lab.reset + lab.counter * lab.dt)).toNat < fuel := by omega
  have hord := c2.order
  have hcz : lab.reset + lab.counter * lab.dt = lab.reset := by rw [c3]; ring
  rw [← c6] at hf
  obtain ⟨lab', bs, b1, b2, b3, b3', b4, b5⟩ := labLoop_ok hf hfuel1 (tEnd := endTime)
    (fun k hk => by rw [hstop]; exact (tEnd_ticks endTime k).1 hk)
    (fun k hk => by rw [hstop]; exact (tEnd_ticks endTime k).2 hk)
    fuel lab 0 c2 rfl (Nat.zero_le _) hfuel2 (by intro h1; omega)
  refine ⟨lab', bs, ?_, ⟨rfl, b2, ?_, ?_⟩, ?_⟩
  · unfold runTimeEvolution
    rw [if_neg (lt_irrefl _)]
    simp only [bind, Except.bind, b1, hf.tick N (le_refl _), lift, pure, Except.pure]
  · intro b hb
    refine ⟨?_, c6 ▸ b3' b hb⟩
    have hfirst : start < ofTicks (min (lab.reset + (lab.counter + 1) * lab.dt) lab.stop) := by
      have hd := c2.dt_pos
      have h1 : lab.reset + 1 ≤ min (lab.reset + (lab.counter + 1) * lab.dt) lab.stop := by
        rw [c3]; simp only [zero_add, one_mul]; omega
      have h2 : start < ofTicks (lab.reset + 1) := by
        have := micro_close start
        rw [abs_le] at this
        have e : ofTicks (lab.reset + 1) = micro start + 1 / 1000000 := by
          rw [← c5]; unfold ofTicks; push_cast; ring
        rw [e]; linarith [this.1]
      exact lt_of_lt_of_le h2 (ofTicks_le.2 h1)
    exact lt_of_lt_of_le (lt_min hcur hfirst)
      (b3 _ (min_le_left _ _) (min_le_right _ _) b hb)
  · rw [← c6]; exact b5 (by rw [hcz]; exact hord)
  · rw [labels_flat, b4]
    simp [outs, List.range_eq_range', Function.comp_def]

/-- Reset of a uniform output clock. -/
theorem uniform_reset {start dto endTime : ℚ} (h0 : Setup 0 dto endTime)
    (hs : |start| ≤ 10 ^ 11) (hlt : micro start < micro endTime) :
    ∃ c c', UClock.mk' 0 dto endTime = .ok c ∧ c.resetTo start true = .ok c' ∧ Good c' ∧
      c'.counter = 0 ∧ ofTicks c'.dt = micro dto ∧ ofTicks c'.stop = micro endTime ∧
      c'.reset = ⌊start / micro dto⌋ * c'.dt ∧ -(3 * 10 ^ 17) ≤ c'.reset ∧
      c'.dt ≤ 10 ^ 17 + 1 ∧ c'.stop ≤ 10 ^ 17 + 1 := by
  obtain ⟨c, c1, c2, c3, c4, c5, c6⟩ := mk_ok h0.sane
  have hd := c2.dt_pos
  have hdq : (1 : ℚ) ≤ c.dt := by exact_mod_cast hd
  have hδ : micro dto = (c.dt : ℚ) / 1000000 := by rw [← c4]; rfl
  have hδpos : 0 < micro dto := by rw [hδ]; linarith
  have hm1 := micro_close dto
  have hm2 := micro_close endTime
  have hm3 := micro_close start
  have hb := h0.step_le
  have hst := h0.stop
  rw [abs_le] at hm1 hm2 hm3 hst hs
  have hdt17 : c.dt ≤ 10 ^ 17 + 1 := by
    have : (c.dt : ℚ) ≤ 10 ^ 17 + 1 := by
      have : (c.dt : ℚ) = micro dto * 1000000 := by rw [hδ]; ring
      rw [this]; linarith [hm1.2]
    exact_mod_cast this
  have hstop17 : c.stop ≤ 10 ^ 17 + 1 := by
    have : (c.stop : ℚ) ≤ 10 ^ 17 + 1 := by
      have : (c.stop : ℚ) = micro endTime * 1000000 := by rw [← c6]; unfold ofTicks; ring
      rw [this]; linarith [hm2.2]
    exact_mod_cast this
  set k := ⌊start / micro dto⌋ with hk
  have hk1 : (k : ℚ) * micro dto ≤ start := by
    have := Int.floor_le (start / micro dto)
    rwa [le_div_iff₀ hδpos] at this
  have hk2 : start < ((k : ℚ) + 1) * micro dto := by
    have := Int.lt_floor_add_one (start / micro dto)
    rwa [div_lt_iff₀ hδpos] at this
  have hkq : ((k * c.dt : Int) : ℚ) = k * micro dto * 1000000 := by rw [hδ]; push_cast; ring
  have hr1 : -(3 * 10 ^ 17) ≤ k * c.dt := by
    have : (-(3 * 10 ^ 17) : ℚ) ≤ ((k * c.dt : Int) : ℚ) := by
      rw [hkq]
      have : ((k : ℚ) + 1) * micro dto = k * micro dto + micro dto := by ring
      linarith [hm1.2]
    exact_mod_cast this
  have hr2 : k * c.dt ≤ 10 ^ 17 := by
    have : ((k * c.dt : Int) : ℚ) ≤ 10 ^ 17 := by
      rw [hkq]; linarith
    exact_mod_cast this
  have hrs : k * c.dt < c.stop := by
    have h1 : k * c.dt ≤ ⌊start * 1000000⌋ := by
      rw [Int.le_floor, hkq]; linarith
    have h2 := (stdRound_floor (start * 1000000)).1
    have h3 : stdRound (start * 1000000) < c.stop := by
      rw [← ofTicks_lt, c6]
      exact hlt
    omega
  refine ⟨c, { c with reset := k * c.dt, counter := 0 }, c1, ?_, ?_, rfl, c4, c6, rfl, hr1,
    hdt17, hstop17⟩
  · unfold UClock.resetTo
    simp only [bind, Except.bind, if_true, c4, ← hk, current_ok c2]
    have : (k : ℚ) * micro dto = ofTicks (k * c.dt) := by
      unfold ofTicks; rw [hkq]; ring
    rw [this, toTicks_ofTicks _ ⟨by omega, by omega⟩]
    rfl
  · refine ⟨hd, c2.dt_le, ?_, ?_, c2.stop_ge, c2.stop_le, hrs, le_refl _, ?_⟩
    · simp only; omega
    · simp only; omega
    · simp

theorem uniform_follows {c : UClock} (hg : Good c) (h0 : c.counter = 0)
    (hr : -(3 * 10 ^ 17) ≤ c.reset) (hd : c.dt ≤ 10 ^ 17 + 1) (hs : c.stop ≤ 10 ^ 17 + 1) :
    Follows (fun n => .uniform { c with counter := n })
      (fun n => ofTicks (min (c.reset + (n + 1) * c.dt) c.stop)) (ofTicks c.stop)
      ((c.stop - c.reset - 1) / c.dt).toNat := by
  have hpos := hg.dt_pos
  have hord := hg.order
  have hdiv0 : 0 ≤ (c.stop - c.reset - 1) / c.dt := Int.ediv_nonneg (by omega) (by omega)
  have hN : ((((c.stop - c.reset - 1) / c.dt).toNat : Nat) : Int) = (c.stop - c.reset - 1) / c.dt :=
    Int.toNat_of_nonneg hdiv0
  have hmul : (c.stop - c.reset - 1) / c.dt * c.dt ≤ c.stop - c.reset - 1 :=
    Int.ediv_mul_le _ (by omega)
  have hlt : c.stop - c.reset - 1 < ((c.stop - c.reset - 1) / c.dt + 1) * c.dt :=
    Int.lt_ediv_add_one_mul_self _ (by omega)
  set N := ((c.stop - c.reset - 1) / c.dt).toNat
  rw [← hN] at hmul hlt
  have hmulle : ∀ n : Nat, n ≤ N → (n : Int) * c.dt ≤ c.stop - c.reset - 1 := by
    intro n hn
    have : (n : Int) * c.dt ≤ N * c.dt := mul_le_mul_of_nonneg_right (by omega) (by omega)
    omega
  have hgood : ∀ n : Nat, n ≤ N + 1 → Good { c with counter := n } := by
    intro n hn
    refine ⟨hg.dt_pos, hg.dt_le, hg.reset_ge, hg.reset_le, hg.stop_ge, hg.stop_le, hg.order, ?_, ?_⟩
    · simp
    · simp only
      have h1 : (n : Int) * c.dt ≤ (N + 1) * c.dt :=
        mul_le_mul_of_nonneg_right (by omega) (by omega)
      have h2 : ((N : Int) + 1) * c.dt = N * c.dt + c.dt := by ring
      omega
  constructor
  · intro n hn
    have h1 := hmulle n hn
    have h2 : (n : Int) ≤ n * c.dt := le_mul_of_one_le_right (by omega) hpos
    simp only [OClock.tick]
    rw [utick_ok (by simp only [i64max]; omega)]
    simp
  · intro n hn
    simp only [OClock.nextTime]
    rw [next_ok (hgood n (by omega))]
  · intro n hn
    simp only [OClock.currentTime]
    rw [current_ok (hgood (n + 1) (by omega))]
    simp
  · intro n hn
    rw [ofTicks_le]
    have : ((n : Int) + 1) * c.dt ≤ ((n + 1 : Nat) + 1) * c.dt :=
      mul_le_mul_of_nonneg_right (by push_cast; omega) (by omega)
    omega
  · intro n hn
    rw [ofTicks_lt]
    have := hmulle (n + 1) (by omega)
    push_cast at this
    omega
  · rw [ofTicks_le]
    omega

/-- C47, uniform output interval: the evolution to the end finishes without an error;
every intermediate output is written right after all particles were evolved to the
time on its label; and the labels, in increasing order and without repetition, are
exactly the multiples of the output interval strictly between start and end. The
output interval and the end time are rounded to the clock resolution of 10⁻⁶ fm
(`micro`). Afterwards the output clock shows the end time. -/
theorem C47_uniform {start dt dto endTime : ℚ} (h : Setup start dt endTime)
    (ho : Setup 0 dto endTime) :
    ∃ F, ∀ fuel ≥ F, ∃ lab o evs bs,
      eventClocks fuel start dt endTime (.inr dto) = .ok (lab, o, evs) ∧
      RunSpec start endTime evs bs ∧
      (labels evs).Pairwise (· < ·) ∧
      (∀ t, t ∈ labels evs ↔ (∃ k : Int, t = k * micro dto) ∧ start < t ∧ t < micro endTime) ∧
      o.currentTime = .ok (micro endTime) := by
  obtain ⟨c, c', a1, a2, a3, a4, a5, a6, a7, a8, a9, a10⟩ := uniform_reset ho h.first h.order
  have hf := uniform_follows a3 a4 a8 a9 a10
  obtain ⟨lab, l1, l2, l3, l4, l5, l6⟩ := mk_ok h.sane
  have hpos := a3.dt_pos
  have hdq : (1 : ℚ) ≤ c'.dt := by exact_mod_cast hpos
  have hδ : micro dto = (c'.dt : ℚ) / 1000000 := by rw [← a5]; rfl
  have hδpos : 0 < micro dto := by rw [hδ]; linarith
  have hord := a3.order
  have hk1 : (⌊start / micro dto⌋ : ℚ) * micro dto ≤ start := by
    have := Int.floor_le (start / micro dto)
    rwa [le_div_iff₀ hδpos] at this
  have hk2 : start < ((⌊start / micro dto⌋ : ℚ) + 1) * micro dto := by
    have := Int.lt_floor_add_one (start / micro dto)
    rwa [div_lt_iff₀ hδpos] at this
  have hval : ∀ j : Int, ofTicks (c'.reset + j * c'.dt) = (⌊start / micro dto⌋ + j : Int) * micro dto := by
    intro j
    unfold ofTicks
    rw [a7, hδ]
    push_cast
    ring
  have hcur : start < ofTicks (min (c'.reset + (((0 : Nat) : Int) + 1) * c'.dt) c'.stop) := by
    rw [ofTicks_min, a6]
    refine lt_min ?_ ?_
    · rw [hval]; push_cast; simpa using hk2
    · have h1 := micro_close start
      have h2 := h.order
      have h3 : stdRound (start * 1000000) < stdRound (endTime * 1000000) := by
        unfold micro at h2
        have : (stdRound (start * 1000000) : ℚ) < stdRound (endTime * 1000000) := by linarith
        exact_mod_cast this
      have h4 : (stdRound (start * 1000000) : ℚ) + 1 ≤ stdRound (endTime * 1000000) := by
        exact_mod_cast h3
      rw [abs_le] at h1
      have h5 := h1.1
      unfold micro at h5 ⊢
      linarith
  rw [a6] at hf
  obtain ⟨F, hF⟩ := run_ok h hf hcur l1
  refine ⟨F, fun fuel hfuel => ?_⟩
  obtain ⟨lab', bs, r1, r2, r3⟩ := hF fuel hfuel
  have hc0 : ({ c' with counter := ((0 : Nat) : Int) } : UClock) = c' := by
    cases c'; simp only at a4; subst a4; rfl
  simp only [hc0] at r1
  refine ⟨lab', OClock.uniform { c' with counter :=
    ((((c'.stop - c'.reset - 1) / c'.dt).toNat + 1 : Nat) : Int) }, flat bs, bs, ?_, r2, ?_, ?_, ?_⟩
  · unfold eventClocks
    simp only [outputClock, startClocks, bind, Except.bind, a1, lift, l1, a2, pure, Except.pure, r1]
  · rw [r3, List.pairwise_map]
    refine List.Pairwise.imp_of_mem ?_ List.pairwise_lt_range
    intro i j hi hj hij
    rw [List.mem_range] at hi hj
    have s1 := hf.small i hi
    have s2 := hf.small j hj
    rw [← a6, ofTicks_lt] at s1 s2
    rw [ofTicks_lt]
    have : ((i : Int) + 1) * c'.dt < (j + 1) * c'.dt :=
      mul_lt_mul_of_pos_right (by omega) (by omega)
    omega
  · intro t
    rw [r3, List.mem_map]
    constructor
    · rintro ⟨n, hn, rfl⟩
      rw [List.mem_range] at hn
      have s1 := hf.small n hn
      have s2 := s1
      rw [← a6, ofTicks_lt] at s2
      have hmin : min (c'.reset + ((n : Int) + 1) * c'.dt) c'.stop =
          c'.reset + ((n : Int) + 1) * c'.dt := min_eq_left (by omega)
      refine ⟨⟨_, by rw [hmin, hval]⟩, ?_, s1⟩
      rw [hmin, hval]
      push_cast
      have : (0 : ℚ) ≤ n * micro dto := mul_nonneg (by positivity) hδpos.le
      have e : ((⌊start / micro dto⌋ : ℚ) + (n + 1)) * micro dto =
        ((⌊start / micro dto⌋ : ℚ) + 1) * micro dto + n * micro dto := by ring
      rw [e]; linarith
    · rintro ⟨⟨k, rfl⟩, h1, h2⟩
      have hk : ⌊start / micro dto⌋ < k := by
        rw [Int.floor_lt, div_lt_iff₀ hδpos]; exact h1
      have hn : k = ⌊start / micro dto⌋ + (((k - ⌊start / micro dto⌋ - 1).toNat : Int) + 1) := by
        omega
      have hv : (k : ℚ) * micro dto =
          ofTicks (c'.reset + (((k - ⌊start / micro dto⌋ - 1).toNat : Int) + 1) * c'.dt) := by
        rw [hval, ← hn]
      have hlt : c'.reset + (((k - ⌊start / micro dto⌋ - 1).toNat : Int) + 1) * c'.dt < c'.stop := by
        rw [← ofTicks_lt, a6, ← hv]; exact h2
      refine ⟨(k - ⌊start / micro dto⌋ - 1).toNat, ?_, ?_⟩
      · rw [List.mem_range]
        by_contra hc
        have hbig := hf.big
        rw [← a6, ofTicks_le] at hbig
        have hmono : ((((c'.stop - c'.reset - 1) / c'.dt).toNat : Int) + 1) * c'.dt ≤
            (((k - ⌊start / micro dto⌋ - 1).toNat : Int) + 1) * c'.dt :=
          mul_le_mul_of_nonneg_right (by omega) (by omega)
        omega
      · rw [min_eq_left hlt.le, ← hv]
  · rw [hf.cur _ (le_refl _)]
    have hbig := hf.big
    have : ofTicks (min (c'.reset + ((((c'.stop - c'.reset - 1) / c'.dt).toNat : Int) + 1) * c'.dt)
        c'.stop) ≤ micro endTime := by
      rw [← a6, ofTicks_le]; exact min_le_right _ _
    rw [le_antisymm this hbig]

/-- C47, independence of the timestep: with the same start, end and output interval,
any two timesteps give the same output labels. -/
theorem C47_timestep_independent {start dt₁ dt₂ dto endTime : ℚ} (h₁ : Setup start dt₁ endTime)
    (h₂ : Setup start dt₂ endTime) (ho : Setup 0 dto endTime) :
    ∃ F, ∀ fuel ≥ F, ∃ r₁ r₂, eventClocks fuel start dt₁ endTime (.inr dto) = .ok r₁ ∧
      eventClocks fuel start dt₂ endTime (.inr dto) = .ok r₂ ∧ labels r₁.2.2 = labels r₂.2.2 := by
  obtain ⟨F₁, H₁⟩ := C47_uniform h₁ ho
  obtain ⟨F₂, H₂⟩ := C47_uniform h₂ ho
  refine ⟨max F₁ F₂, fun fuel hf => ?_⟩
  obtain ⟨l₁, o₁, e₁, b₁, p1, _, p2, p3, _⟩ := H₁ fuel (by omega)
  obtain ⟨l₂, o₂, e₂, b₂, q1, _, q2, q3, _⟩ := H₂ fuel (by omega)
  refine ⟨_, _, p1, q1, ?_⟩
  have hperm : (labels e₁).Perm (labels e₂) := by
    rw [List.perm_ext_iff_of_nodup (p2.imp fun h => ne_of_lt h) (q2.imp fun h => ne_of_lt h)]
    intro a
    rw [p3, q3]
  exact hperm.eq_of_pairwise (le := (· < ·)) (fun a b _ _ h1 h2 => absurd h1 (lt_asymm h2)) p2 q2

/-! ## A list of output times -/

theorem takeWhile_eq_filter {l : List ℚ} (h : l.Pairwise (· ≤ ·)) (x : ℚ) :
    l.takeWhile (fun t => decide (t < x)) = l.filter (fun t => decide (t < x)) := by
  induction l with
  | nil => rfl
  | cons a l ih =>
    rw [List.pairwise_cons] at h
    by_cases hc : a < x
    · simp [hc, ih h.2]
    · have : l.filter (fun t => decide (t < x)) = [] := by
        rw [List.filter_eq_nil_iff]
        intro b hb
        have := h.1 b hb
        simp only [decide_eq_true_eq, not_lt]
        linarith
      simp [hc, this]

theorem at_ok {l : List ℚ} {n : Nat} (h : n < l.length) : at' l (n : Int) = .ok l[n] := by
  unfold at'
  rw [if_pos (by omega)]
  simp [h]

theorem custom_follows {T : List ℚ} {start S : ℚ} (hs : T.Pairwise (· ≤ ·))
    (hbig : ∃ t ∈ T, S ≤ t) (hlen : T.length < 2 ^ 62) :
    Follows (fun n => .custom ⟨T, start, (n : Int) - 1⟩) (fun n => T.getD n 0) S
        (T.takeWhile (fun t => decide (t < S))).length ∧
      (List.range (T.takeWhile (fun t => decide (t < S))).length).map (fun n => T.getD n 0) =
        T.filter (fun t => decide (t < S)) := by
  set N := (T.takeWhile (fun t => decide (t < S))).length with hN
  have hpre : T.takeWhile (fun t => decide (t < S)) <+: T := List.takeWhile_prefix _
  have htake : T.take N = T.takeWhile (fun t => decide (t < S)) := by
    rw [hN]; exact (List.prefix_iff_eq_take.1 hpre).symm
  have hle : N ≤ T.length := hpre.length_le
  have hNlt : N < T.length := by
    rcases Nat.lt_or_ge N T.length with h | h
    · exact h
    · exfalso
      obtain ⟨t, ht, hSt⟩ := hbig
      have hT : T.takeWhile (fun t => decide (t < S)) = T := by
        rw [← htake, List.take_of_length_le h]
      rw [← hT, takeWhile_eq_filter hs, List.mem_filter] at ht
      have := ht.2
      simp only [decide_eq_true_eq] at this
      linarith
  have hget : ∀ n (hn : n < T.length), T.getD n 0 = T[n] := by
    intro n hn; simp [hn]
  have hsmall : ∀ n, n < N → T.getD n 0 < S := by
    intro n hn
    have hn' : n < T.length := by omega
    rw [hget n hn']
    have hmem : T[n] ∈ T.takeWhile (fun t => decide (t < S)) := by
      rw [← htake]
      rw [List.mem_take_iff_getElem]
      exact ⟨n, by omega, rfl⟩
    rw [takeWhile_eq_filter hs, List.mem_filter] at hmem
    simpa using hmem.2
  refine ⟨⟨?_, ?_, ?_, ?_, hsmall, ?_⟩, ?_⟩
  · intro n hn
    simp only [OClock.tick, CClock.tick]
    rw [if_neg (by simp only [i64max]; omega)]
    simp only [Except.ok.injEq, OClock.custom.injEq, CClock.mk.injEq, true_and]
    push_cast; ring
  · intro n hn
    simp only [OClock.nextTime, CClock.nextTime]
    rw [Int.sub_add_cancel, at_ok (by omega), hget n (by omega)]
  · intro n hn
    simp only [OClock.currentTime, CClock.currentTime]
    have : ((n + 1 : Nat) : Int) - 1 = n := by push_cast; ring
    rw [this, if_neg (by omega), if_neg (by omega), at_ok (by omega), hget n (by omega)]
  · intro n hn
    rw [hget n (by omega), hget (n + 1) (by omega)]
    exact List.pairwise_iff_getElem.1 hs n (n + 1) (by omega) (by omega) (by omega)
  · rw [hget N hNlt]
    by_contra hc
    have hlt : T[N] < S := not_le.1 hc
    have h1 : T[N] ∈ T.takeWhile (fun t => decide (t < S)) := by
      rw [takeWhile_eq_filter hs, List.mem_filter]
      exact ⟨List.getElem_mem _, by simpa using hlt⟩
    have h2 : T.take (N + 1) = T.take N ++ [T[N]] := by
      rw [List.take_succ_eq_append_getElem hNlt]
    have h3 : T = T.takeWhile (fun t => decide (t < S)) ++ T.dropWhile (fun t => decide (t < S)) :=
      (List.takeWhile_append_dropWhile).symm
    have h4 : T.dropWhile (fun t => decide (t < S)) = T.drop N := by
      have : (T.takeWhile (fun t => decide (t < S)) ++ T.dropWhile (fun t => decide (t < S))).drop N
          = T.dropWhile (fun t => decide (t < S)) := by rw [hN, List.drop_left]
      rw [← h3] at this
      exact this.symm
    have h5 : T.drop N = T[N] :: T.drop (N + 1) := List.drop_eq_getElem_cons hNlt
    rw [h5] at h4
    have h6 := List.head_dropWhile_not (l := T) (fun t => decide (t < S))
      (by rw [h4]; exact List.cons_ne_nil _ _)
    simp only [h4, List.head_cons, decide_eq_false_iff_not] at h6
    exact h6 hlt
  · rw [← takeWhile_eq_filter hs, ← htake]
    apply List.ext_getElem
    · simp; omega
    · intro i h1 h2
      simp only [List.length_map, List.length_range] at h1
      have hi : i < T.length := by omega
      simp [hi]

/-- C47, list of output times: the labels of the intermediate outputs, in
non-decreasing order, are exactly the configured times strictly between start and
end, each as often as it is listed; every output is written right after all particles
were evolved to the time on its label. -/
theorem C47_custom {start dt endTime : ℚ} (h : Setup start dt endTime) (times : List ℚ)
    (hlen : times.length < 2 ^ 61) :
    ∃ F, ∀ fuel ≥ F, ∃ lab o evs bs,
      eventClocks fuel start dt endTime (.inl times) = .ok (lab, o, evs) ∧
      RunSpec start endTime evs bs ∧
      (labels evs).Pairwise (· ≤ ·) ∧
      (labels evs).Perm (times.filter fun t => decide (start < t ∧ t < micro endTime)) := by
  have hm := micro_close endTime
  have hm' := micro_close start
  rw [abs_le] at hm hm'
  have hord := h.order
  have hend : micro endTime ≤ endTime + 1 := by linarith [hm.2]
  have hstart : start < endTime + 1 := by linarith [hm.2, hm'.1]
  set T := ((times ++ [endTime + 1]).mergeSort (fun a b => decide (a ≤ b))).filter
    (fun t => !(decide (t < start) || decide (t = start))) with hT
  have hsort : ((times ++ [endTime + 1]).mergeSort (fun a b => decide (a ≤ b))).Pairwise (· ≤ ·) := by
    have := List.pairwise_mergeSort (le := fun a b : ℚ => decide (a ≤ b))
      (fun a b c => by simp only [decide_eq_true_eq]; exact le_trans)
      (fun a b => by simp only [Bool.or_eq_true, decide_eq_true_eq]; exact le_total _ _)
      (times ++ [endTime + 1])
    simpa using this
  have hTs : T.Pairwise (· ≤ ·) := hsort.filter _
  have hTgt : ∀ t ∈ T, start < t := by
    intro t ht
    rw [hT, List.mem_filter] at ht
    have := ht.2
    simp only [Bool.not_eq_true', Bool.or_eq_false_iff, decide_eq_false_iff_not, not_lt] at this
    exact lt_of_le_of_ne this.1 (Ne.symm this.2)
  have hmem : endTime + 1 ∈ T := by
    rw [hT, List.mem_filter, List.mem_mergeSort]
    refine ⟨by simp, ?_⟩
    simp only [Bool.not_eq_true', Bool.or_eq_false_iff, decide_eq_false_iff_not, not_lt]
    exact ⟨hstart.le, ne_of_gt hstart⟩
  have hTlen : T.length < 2 ^ 62 := by
    have h1 : T.length ≤ ((times ++ [endTime + 1]).mergeSort (fun a b => decide (a ≤ b))).length :=
      List.length_filter_le _ _
    rw [List.length_mergeSort] at h1
    simp at h1
    omega
  obtain ⟨hf, hlab⟩ := custom_follows (start := start) (S := micro endTime) hTs
    ⟨_, hmem, hend⟩ hTlen
  have hne : 0 < T.length := List.length_pos_of_mem hmem
  have hcur : start < T.getD 0 0 := by
    have : T.getD 0 0 = T[0] := by simp [hne]
    rw [this]; exact hTgt _ (List.getElem_mem _)
  obtain ⟨lab, l1, -⟩ := mk_ok h.sane
  obtain ⟨F, hF⟩ := run_ok h hf hcur l1
  refine ⟨F, fun fuel hfuel => ?_⟩
  obtain ⟨lab', bs, r1, r2, r3⟩ := hF fuel hfuel
  refine ⟨lab', OClock.custom ⟨T, start,
    (((T.takeWhile (fun t => decide (t < micro endTime))).length + 1 : Nat) : Int) - 1⟩,
    flat bs, bs, ?_, r2, ?_, ?_⟩
  · unfold eventClocks
    simp only [outputClock, startClocks, bind, Except.bind, lift, l1, pure, Except.pure,
      CClock.mk', CClock.resetTo, CClock.removePast, ← hT]
    simp only [Nat.cast_zero, zero_sub] at r1
    rw [r1]
  · rw [r3, hlab]; exact hTs.filter _
  · rw [r3, hlab, hT, List.filter_filter]
    have hp : ((times ++ [endTime + 1]).mergeSort (fun a b => decide (a ≤ b))).Perm
        (times ++ [endTime + 1]) := List.mergeSort_perm _ _
    refine (hp.filter _).trans ?_
    have hfun : (fun t : ℚ => decide (t < micro endTime) && !(decide (t < start) || decide (t = start)))
        = fun t => decide (start < t ∧ t < micro endTime) := by
      funext t
      rw [Bool.eq_iff_iff]
      simp only [Bool.and_eq_true, decide_eq_true_eq, Bool.not_eq_true', Bool.or_eq_false_iff,
        decide_eq_false_iff_not, not_lt]
      constructor
      · rintro ⟨h1, h2, h3⟩; exact ⟨lt_of_le_of_ne h2 (Ne.symm h3), h1⟩
      · rintro ⟨h1, h2⟩; exact ⟨h2, h1.le, ne_of_gt h1⟩
    rw [hfun, List.filter_append]
    have : [endTime + 1].filter (fun t => decide (start < t ∧ t < micro endTime)) = [] := by
      simp only [List.filter_cons, List.filter_nil]
      rw [if_neg]
      simp only [decide_eq_true_eq, not_and, not_lt]
      intro _; exact hend
    rw [this, List.append_nil]

/-! ## Concrete cases and limits -/

deriving instance DecidableEq for Clock.CClock
deriving instance DecidableEq for OClock

instance {α β : Type} [DecidableEq α] [DecidableEq β] : DecidableEq (Except α β)
  | .ok a, .ok b => if h : a = b then isTrue (by rw [h]) else isFalse (by simpa using h)
  | .error a, .error b => if h : a = b then isTrue (by rw [h]) else isFalse (by simpa using h)
  | .ok _, .error _ => isFalse (by simp)
  | .error _, .ok _ => isFalse (by simp)

/-- The hypotheses of the theorems are met, e.g. from −1.5 fm to 10 fm in steps of
0.1 fm with output every 3 fm. -/
example : Setup (-3 / 2) (1 / 10) 10 ∧ Setup 0 3 10 := by
  have hr : ∀ n : Int, stdRound (n : ℚ) = n := stdRound_int
  have e1 : micro (-3 / 2) = -3 / 2 := by
    have := hr (-1500000); unfold micro
    rw [show (-3 / 2 : ℚ) * 1000000 = ((-1500000 : Int) : ℚ) by norm_num, this]; norm_num
  have e2 : micro 10 = 10 := by
    have := hr 10000000; unfold micro
    rw [show (10 : ℚ) * 1000000 = ((10000000 : Int) : ℚ) by norm_num, this]; norm_num
  have e3 : micro 0 = 0 := by
    have := hr 0; unfold micro
    rw [show (0 : ℚ) * 1000000 = ((0 : Int) : ℚ) by norm_num, this]; norm_num
  constructor
  · exact ⟨by rw [abs_le]; norm_num, by rw [abs_le]; norm_num, by norm_num, by norm_num,
      by rw [e1, e2]; norm_num⟩
  · exact ⟨by rw [abs_le]; norm_num, by rw [abs_le]; norm_num, by norm_num, by norm_num,
      by rw [e2, e3]; norm_num⟩

/-- C47 across two calls of `run_time_evolution` is false: an event from 0 to 4 fm
with output every fm, run first to 2 fm and then to 4 fm (as a library user may do),
never writes the output for 2 fm, because the output clock is advanced once more at
the end of each call. -/
theorem C47_two_calls_false :
    ∃ lab o lab₁ o₁ evs₁ lab₂ o₂ evs₂,
      startClocks 0 1 4 (.uniform ⟨1000000, 0, 4000000, 0⟩) = .ok (lab, o) ∧
      runTimeEvolution 10 4 2 lab o = .ok (lab₁, o₁, evs₁) ∧
      runTimeEvolution 10 4 4 lab₁ o₁ = .ok (lab₂, o₂, evs₂) ∧
      labels (evs₁ ++ evs₂) = [1, 3] :=
  ⟨⟨1000000, 0, 4000000, 0⟩, .uniform ⟨1000000, 0, 4000000, 0⟩, ⟨1000000, 0, 4000000, 2⟩,
    .uniform ⟨1000000, 0, 4000000, 2⟩, [.evolveTo 1, .evolveTo 1, .output 1, .evolveTo 2], 
    ⟨1000000, 0, 4000000, 4⟩, .uniform ⟨1000000, 0, 4000000, 4⟩,
    [.evolveTo 3, .evolveTo 3, .output 3, .evolveTo 4],
    by decide +kernel, by decide +kernel, by decide +kernel, by decide +kernel⟩

/-- C47 with a list of output times, second event: output times removed because they
were before the start of one event (list input, where each event has its own start
time) are missing in a later event that starts earlier. -/
theorem C47_second_event_false :
    ∃ lab₁ o₁ lab₂ o₂ r,
      startClocks 3 1 4 (.custom (Clock.CClock.mk' [2, 5])) = .ok (lab₁, o₁) ∧
      startClocks 0 1 4 o₁ = .ok (lab₂, o₂) ∧
      runTimeEvolution 10 4 4 lab₂ o₂ = .ok r ∧ labels r.2.2 = [] := by
  have hsort : Clock.CClock.mk' [2, 5] = ⟨[2, 5], 0, -1⟩ := by
    simp [Clock.CClock.mk', List.mergeSort, List.MergeSort.Internal.splitInTwo, List.splitAt,
      List.splitAt.go, List.merge]
    norm_num
  rw [hsort]
  exact ⟨⟨1000000, 3000000, 4000000, 0⟩, .custom ⟨[5], 3, -1⟩, ⟨1000000, 0, 4000000, 0⟩,
    .custom ⟨[5], 0, -1⟩, (⟨1000000, 0, 4000000, 4⟩, .custom ⟨[5], 0, 0⟩,
      [.evolveTo 1, .evolveTo 2, .evolveTo 3, .evolveTo 4]), by decide +kernel, by decide +kernel, by decide +kernel, by decide +kernel⟩

/-- With a list of output times the output clock does not show the end time after the
evolution: the time written with the final output is one of the list after the end, or
the end plus 1 fm. -/
theorem C47_final_label_false :
    ∃ lab o evs, eventClocks 10 0 1 4 (.inl [2]) = .ok (lab, o, evs) ∧
      labels evs = [2] ∧ o.currentTime = .ok 5 := by
  have hsort : Clock.CClock.mk' [2, 4 + 1] = ⟨[2, 5], 0, -1⟩ := by
    simp [Clock.CClock.mk', List.mergeSort, List.MergeSort.Internal.splitInTwo, List.splitAt,
      List.splitAt.go, List.merge]
    norm_num
  unfold eventClocks outputClock
  simp only [List.cons_append, List.nil_append, hsort]
  exact ⟨⟨1000000, 0, 4000000, 4⟩, .custom ⟨[2, 5], 0, 1⟩, 
    [.evolveTo 1, .evolveTo 2, .evolveTo 2, .output 2, .evolveTo 3, .evolveTo 4], by decide +kernel, by decide +kernel, by decide +kernel⟩

end Verif.Exp
