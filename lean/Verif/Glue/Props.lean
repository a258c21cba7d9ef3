import Verif.Glue.Model
import Verif.Resc.Props
/-
C176: splitting of gluons into quarks and antiquarks.
-/
namespace Verif.Glue
open Verif.Resc
open scoped List

/-- The contract of `nQuarksInCode`: quarks of the five flavours, and gluons. -/
structure Contract (E : Env) : Prop where
  quark : ∀ f g : Nat, 1 ≤ f → f ≤ 5 → E.nq f g = if f = g then 1 else 0
  gluon : ∀ g : Nat, E.nq 21 g = 0

/-- Specification: a flavour d, u, s, c or b. -/
def Flavour (f : Nat) : Prop := 1 ≤ f ∧ f ≤ 5

theorem splitOne_some {E : Env} {fwd : Bool} {f : Nat} {l l' : List Parton} (h : splitOne E fwd f l = .ok (some l')) :
    ∃ g rest, g ∈ l ∧ g.id = 21 ∧ g :: rest ~ l ∧ l' = rest ++ [⟨f, g.col, 0, half E f (E.draw l.length) g.kin 1⟩,
      ⟨-f, 0, g.acol, half E f (E.draw l.length) g.kin (-1)⟩] := by
  unfold splitOne at h
  simp only at h
  rcases hg : l[choose E fwd l]? with _ | g <;> rw [hg] at h <;> simp only at h
  · cases h
  · by_cases hi : g.id ≠ 21
    · rw [if_pos hi] at h; cases h
    rw [if_neg hi] at h
    obtain ⟨hlt, hge⟩ := List.getElem?_eq_some_iff.1 hg
    have := Option.some.inj (Except.ok.inj h)
    refine ⟨g, l.eraseIdx (choose E fwd l), List.mem_of_getElem? hg, not_not.1 hi, ?_, this.symm⟩
    rw [← hge]
    exact List.getElem_cons_eraseIdx_perm hlt

/-- What every splitting keeps, the whole process keeps. -/
theorem times_rel {E : Env} {R : List Parton → List Parton → Prop} (refl : ∀ l, R l l) (trans : ∀ a b c, R a b → R b c → R a c)
    {fwd : Bool} {f : Nat} (one : ∀ l l', splitOne E fwd f l = .ok (some l') → R l l') : ∀ {n : Nat} {s s' : State} {b : Bool},
    splitTimes E fwd f n s = .ok (b, s') → R s.l s'.l := by
  intro n
  induction n with
  | zero => intro s s' b h; cases h; exact refl _
  | succ n ih =>
    intro s s' b h
    rw [splitTimes] at h
    rcases ho : splitOne E fwd f s.l with e | (_ | l) <;> rw [ho] at h <;> simp only at h
    · cases h
    · cases h; exact refl _
    · exact trans _ _ _ (one _ _ ho) (ih h)

theorem flavours_rel {E : Env} {R : List Parton → List Parton → Prop} (refl : ∀ l, R l l) (trans : ∀ a b c, R a b → R b c → R a c)
    {sign : Bool} {ex0 ex1 : Nat → Int} : ∀ {fs : List Nat} (_ : ∀ fwd, ∀ f ∈ fs, ∀ l l', splitOne E fwd f l = .ok (some l') → R l l')
    {s s' : State} {b : Bool}, splitFlavours E sign ex0 ex1 fs s = .ok (b, s') → R s.l s'.l := by
  intro fs
  induction fs with
  | nil => intro _ s s' b h; cases h; exact refl _
  | cons f fs ih =>
    intro one s s' b h
    have one' := fun fwd g hg => one fwd g (List.mem_cons_of_mem _ hg)
    rw [splitFlavours] at h
    by_cases hc : (ex0 f + ex1 f + if sign then s.nq f else s.na f) ≥ 0
    · rw [if_pos hc] at h
      exact ih one' h
    · rw [if_neg hc] at h
      rcases ht : splitTimes E (decide (ex0 f < 0)) f (ex0 f + ex1 f + if sign then s.nq f else s.na f).natAbs s with e | ⟨_ | _, t⟩ <;>
        rw [ht] at h <;> simp only at h
      · cases h
      · cases h; exact times_rel refl trans (one _ f (by simp)) ht
      · exact trans _ _ _ (times_rel refl trans (one _ f (by simp)) ht) (ih one' h)

theorem flavours_list {f : Nat} : f ∈ [1, 2, 3, 4, 5] ↔ Flavour f := by
  unfold Flavour
  simp only [List.mem_cons, List.not_mem_nil, or_false]
  omega

theorem split_rel {E : Env} {R : List Parton → List Parton → Prop} (refl : ∀ l, R l l) (trans : ∀ a b c, R a b → R b c → R a c)
    {sign : Bool} {ex0 ex1 : Nat → Int} (one : ∀ fwd f, Flavour f → ∀ l l', splitOne E fwd f l = .ok (some l') → R l l')
    {l : List Parton} {s : State} {b : Bool} (h : split E sign ex0 ex1 l = .ok (b, s)) : R l s.l :=
  flavours_rel refl trans (fun fwd f hf => one fwd f (flavours_list.1 hf)) h

/-- A sum over the partons. -/
theorem sum_split {M : Type} [AddCommMonoid M] (φ : Parton → M) {g a b : Parton} {rest l : List Parton} (hp : g :: rest ~ l) (h : φ a + φ b = φ g) :
    ((rest ++ [a, b]).map φ).sum = (l.map φ).sum := by
  rw [← (hp.map φ).sum_eq]
  simp only [List.map_append, List.map_cons, List.map_nil, List.sum_append, List.sum_cons, List.sum_nil, add_zero, h]
  rw [add_comm]

/-- Specification: the net number of quarks of a flavour. -/
def net (E : Env) (l : List Parton) (f : Nat) : Int := (l.map fun q => if q.id > 0 then E.nq q.id f else -E.nq |q.id| f).sum

/-- **C176** Whatever the outcome, the splitting keeps the total momentum. -/
theorem C176_momentum {E : Env} {sign : Bool} {ex0 ex1 : Nat → Int} {l : List Parton} {s : State} {b : Bool}
    (h : split E sign ex0 ex1 l = .ok (b, s)) :
    (s.l.map fun q => q.kin.px).sum = (l.map fun q => q.kin.px).sum ∧ (s.l.map fun q => q.kin.py).sum = (l.map fun q => q.kin.py).sum ∧
    (s.l.map fun q => q.kin.pz).sum = (l.map fun q => q.kin.pz).sum := by
  refine split_rel (R := fun l l' => (l'.map fun q => q.kin.px).sum = (l.map fun q => q.kin.px).sum ∧
    (l'.map fun q => q.kin.py).sum = (l.map fun q => q.kin.py).sum ∧ (l'.map fun q => q.kin.pz).sum = (l.map fun q => q.kin.pz).sum)
    (fun l => ⟨rfl, rfl, rfl⟩) (fun a b c h1 h2 => ⟨h2.1.trans h1.1, h2.2.1.trans h1.2.1, h2.2.2.trans h1.2.2⟩) ?_ h
  intro fwd f _ l l' ho
  obtain ⟨g, rest, -, -, hp, rfl⟩ := splitOne_some ho
  refine ⟨sum_split _ hp ?_, sum_split _ hp ?_, sum_split _ hp ?_⟩ <;> simp only [half] <;> ring

/-- **C176** Whatever the outcome, the splitting keeps the number of times each colour and each anticolour occurs, and the net
number of quarks of each flavour. -/
theorem C176_charges {E : Env} (hE : Contract E) {sign : Bool} {ex0 ex1 : Nat → Int} {l : List Parton} {s : State} {b : Bool}
    (h : split E sign ex0 ex1 l = .ok (b, s)) :
    (∀ x ≠ 0, (s.l.map Parton.col).count x = (l.map Parton.col).count x ∧ (s.l.map Parton.acol).count x = (l.map Parton.acol).count x) ∧
    ∀ f, net E s.l f = net E l f := by
  refine split_rel (R := fun l l' => (∀ x ≠ 0, (l'.map Parton.col).count x = (l.map Parton.col).count x ∧
    (l'.map Parton.acol).count x = (l.map Parton.acol).count x) ∧ ∀ f, net E l' f = net E l f)
    (fun l => ⟨fun _ _ => ⟨rfl, rfl⟩, fun _ => rfl⟩)
    (fun a b c h1 h2 => ⟨fun x hx => ⟨(h2.1 x hx).1.trans (h1.1 x hx).1, (h2.1 x hx).2.trans (h1.1 x hx).2⟩,
      fun f => (h2.2 f).trans (h1.2 f)⟩) ?_ h
  intro fwd f hf l l' ho
  obtain ⟨g, rest, -, hg, hp, rfl⟩ := splitOne_some ho
  refine ⟨fun x hx => ?_, fun k => ?_⟩
  · have e1 := (hp.map Parton.col).count_eq x
    have e2 := (hp.map Parton.acol).count_eq x
    have h0 : 0 ≠ x := Ne.symm hx
    simp only [List.map_append, List.map_cons, List.map_nil, List.count_append, List.count_cons, List.count_nil, beq_iff_eq, h0, if_false] at *
    omega
  · refine sum_split _ hp ?_
    have h1 := hf.1
    simp only [hg]
    rw [if_pos (by omega), if_neg (by omega), if_pos (by omega), hE.gluon, abs_neg, abs_of_nonneg (by omega)]
    omega

/-- The counts of the state are those of the event. -/
def Counts (E : Env) (s : State) : Prop := ∀ g, s.nq g = quarks E s.l g ∧ s.na g = antiquarks E s.l g

theorem counts_one {E : Env} (hE : Contract E) {fwd : Bool} {f : Nat} (hf : Flavour f) {s : State} {l : List Parton} (hc : Counts E s)
    (h : splitOne E fwd f s.l = .ok (some l)) :
    Counts E ⟨l, Function.update s.nq f (s.nq f + 1), Function.update s.na f (s.na f + 1)⟩ := by
  obtain ⟨g, rest, -, hg, hp, rfl⟩ := splitOne_some h
  have h1 := hf.1
  intro k
  have e1 := (hp.map (fun q => if q.id > 0 then E.nq q.id k else 0)).sum_eq
  have e2 := (hp.map (fun q => if q.id > 0 then 0 else E.nq |q.id| k)).sum_eq
  have hq := hE.quark f k hf.1 hf.2
  have hk := hc k
  simp only [quarks, antiquarks, List.map_cons, List.sum_cons, hg, hE.gluon, List.map_append, List.sum_append, List.map_nil, List.sum_nil] at *
  rw [if_pos (by omega), if_neg (by omega), if_pos (by omega), if_neg (by omega), abs_neg, abs_of_nonneg (by omega), hq]
  rw [if_pos (by omega)] at e1 e2
  by_cases hfk : f = k
  · subst hfk
    simp only [Function.update_self, if_true]
    omega
  · rw [Function.update_of_ne (Ne.symm hfk), Function.update_of_ne (Ne.symm hfk), if_neg hfk]
    omega

theorem counts_times {E : Env} (hE : Contract E) {fwd : Bool} {f : Nat} (hf : Flavour f) : ∀ {n : Nat} {s s' : State} {b : Bool},
    Counts E s → splitTimes E fwd f n s = .ok (b, s') →
    Counts E s' ∧ (∀ g, s.nq g ≤ s'.nq g ∧ s.na g ≤ s'.na g) ∧ (b = true → s'.nq f = s.nq f + n ∧ s'.na f = s.na f + n) := by
  intro n
  induction n with
  | zero => intro s s' b hc h; cases h; exact ⟨hc, fun g => ⟨le_refl _, le_refl _⟩, fun _ => by simp⟩
  | succ n ih =>
    intro s s' b hc h
    rw [splitTimes] at h
    rcases ho : splitOne E fwd f s.l with e | (_ | l) <;> rw [ho] at h <;> simp only at h
    · cases h
    · cases h; exact ⟨hc, fun g => ⟨le_refl _, le_refl _⟩, fun h => by cases h⟩
    · obtain ⟨h1, h2, h3⟩ := ih (counts_one hE hf hc ho) h
      refine ⟨h1, fun g => ?_, fun hb => ?_⟩
      · have := h2 g
        by_cases hg : g = f
        · subst hg; simp only [Function.update_self] at this; omega
        · simp only [Function.update_of_ne hg] at this; exact this
      · have := h3 hb
        simp only [Function.update_self] at this
        push_cast
        omega

theorem flavours_enough {E : Env} (hE : Contract E) {sign : Bool} {ex0 ex1 : Nat → Int} : ∀ {fs : List Nat} (_ : ∀ f ∈ fs, Flavour f)
    {s s' : State} {b : Bool}, Counts E s → splitFlavours E sign ex0 ex1 fs s = .ok (b, s') →
    Counts E s' ∧ (∀ g, s.nq g ≤ s'.nq g ∧ s.na g ≤ s'.na g) ∧
    (b = true → ∀ f ∈ fs, 0 ≤ ex0 f + ex1 f + if sign then s'.nq f else s'.na f) := by
  intro fs
  induction fs with
  | nil => intro _ s s' b hc h; cases h; exact ⟨hc, fun g => ⟨le_refl _, le_refl _⟩, fun _ f hf => (List.not_mem_nil hf).elim⟩
  | cons f fs ih =>
    intro hfs s s' b hc h
    have hfs' := fun g hg => hfs g (List.mem_cons_of_mem _ hg)
    rw [splitFlavours] at h
    by_cases hge : (ex0 f + ex1 f + if sign then s.nq f else s.na f) ≥ 0
    · rw [if_pos hge] at h
      obtain ⟨h1, h2, h3⟩ := ih hfs' hc h
      refine ⟨h1, h2, fun hb g hg => ?_⟩
      rcases List.mem_cons.1 hg with rfl | hg
      · have := h2 g
        cases sign <;> simp at * <;> omega
      · exact h3 hb g hg
    · rw [if_neg hge] at h
      rcases ht : splitTimes E (decide (ex0 f < 0)) f (ex0 f + ex1 f + if sign then s.nq f else s.na f).natAbs s with e | ⟨_ | _, t⟩ <;>
        rw [ht] at h <;> simp only at h
      · cases h
      · cases h
        obtain ⟨h1, h2, -⟩ := counts_times hE (hfs f (by simp)) hc ht
        exact ⟨h1, h2, fun h => by cases h⟩
      · obtain ⟨g1, g2, g3⟩ := counts_times hE (hfs f (by simp)) hc ht
        obtain ⟨h1, h2, h3⟩ := ih hfs' g1 h
        refine ⟨h1, fun g => ⟨(g2 g).1.trans (h2 g).1, (g2 g).2.trans (h2 g).2⟩, fun hb g hg => ?_⟩
        rcases List.mem_cons.1 hg with rfl | hg
        · have k1 := h2 g
          have k2 := g3 rfl
          cases sign <;> simp only [Bool.false_eq_true, if_false, if_true] at * <;> omega
        · exact h3 hb g hg

/-- **C176** The numbers of quarks and antiquarks given back are those of the event; with the outcome `true` there are enough quarks (or
antiquarks) of every flavour to be replaced. -/
theorem C176_enough {E : Env} (hE : Contract E) {sign : Bool} {ex0 ex1 : Nat → Int} {l : List Parton} {s : State} {b : Bool}
    (h : split E sign ex0 ex1 l = .ok (b, s)) :
    (∀ f, s.nq f = quarks E s.l f ∧ s.na f = antiquarks E s.l f) ∧
    (b = true → ∀ f, Flavour f → 0 ≤ ex0 f + ex1 f + if sign then quarks E s.l f else antiquarks E s.l f) := by
  obtain ⟨h1, -, h3⟩ := flavours_enough hE (fun f hf => flavours_list.1 hf) (fun g => ⟨rfl, rfl⟩) h
  refine ⟨h1, fun hb f hf => ?_⟩
  have := h3 hb f (flavours_list.2 hf)
  rwa [(h1 f).1, (h1 f).2] at this

/-- **C176** The partons of the event afterwards are partons of PYTHIA or quarks and antiquarks on their mass shell. -/
theorem C176_shell {E : Env} (hm : ∀ i, 0 ≤ E.m0 i) {sign : Bool} {ex0 ex1 : Nat → Int} {l : List Parton} {s : State} {b : Bool}
    (h : split E sign ex0 ex1 l = .ok (b, s)) :
    ∀ q ∈ s.l, q ∈ l ∨ (∃ f : Nat, Flavour f ∧ (q.id = f ∨ q.id = -f) ∧ q.kin.m = E.m0 f) ∧ OnShell q.kin := by
  refine split_rel (R := fun l l' => ∀ q ∈ l', q ∈ l ∨ (∃ f : Nat, Flavour f ∧ (q.id = f ∨ q.id = -f) ∧ q.kin.m = E.m0 f) ∧ OnShell q.kin)
    (fun l q hq => .inl hq) (fun a b c h1 h2 q hq => (h2 q hq).elim (h1 q) .inr) ?_ h
  intro fwd f hf l l' ho q hq
  obtain ⟨g, rest, -, hg, hp, rfl⟩ := splitOne_some ho
  have key : ∀ d k t, OnShell (half E f d k t) := by
    intro d k t
    refine ⟨hm _, Real.sqrt_nonneg _, ?_⟩
    show (Real.sqrt _) ^ 2 = _
    rw [Real.sq_sqrt]
    · simp only [half]; ring
    · nlinarith [mul_self_nonneg (E.m0 f), mul_self_nonneg (1 / 2 * k.px + t * d.1), mul_self_nonneg (1 / 2 * k.py + t * d.2),
        mul_self_nonneg (1 / 2 * k.pz)]
  rcases List.mem_append.1 hq with hq | hq
  · exact .inl (hp.subset (List.mem_cons_of_mem _ hq))
  · rcases List.mem_cons.1 hq with rfl | hq
    · exact .inr ⟨⟨f, hf, .inl rfl, rfl⟩, key _ _ _⟩
    · rw [List.mem_singleton] at hq
      subst hq
      exact .inr ⟨⟨f, hf, .inr rfl, rfl⟩, key _ _ _⟩

theorem loop_succ_neg {n : Nat} {e0 e : ℝ} {l l' : List Part} (hc : ¬ |e - e0| ≤ |reallySmall * e0|) (h : loop n e0 e l = some l') :
    |energy l' - e0| ≤ 1 / 10 ^ 6 * |e0| := by
  cases n with
  | zero => cases h
  | succ n =>
    rw [loop, if_neg hc] at h
    by_cases hz : slope l = 0 ∨ ∃ q ∈ l, q.e = 0
    · rw [if_pos hz] at h; cases h
    · rw [if_neg hz] at h
      exact (C175_result h).2.2

/-- **C176** in part: if the replacement of constituents changes the energy by more than the tolerance, or the splitting does not change it,
the energy at the end is that of PYTHIA. -/
theorem C176_energy_partial {fuel : Nat} {l l1 l2 : List Parton} {r : List Part} (h : rescaleAll fuel l l1 l2 = some r)
    (hc : energyOf l1 = energyOf l ∨ 1 / 10 ^ 6 * |energyOf l| < |energyOf l2 - energyOf l1|) :
    |energy r - energyOf l| ≤ 1 / 10 ^ 6 * |energyOf l| := by
  unfold rescaleAll at h
  rcases hc with hc | hc
  · rw [hc, add_sub_cancel] at h
    exact (C175_result h).2.2
  · refine loop_succ_neg ?_ h
    rw [add_sub_cancel_left, abs_mul, abs_of_pos (show (0 : ℝ) < reallySmall by unfold reallySmall; norm_num)]
    exact not_le.2 hc

section Witness

/-- Quarks of mass 3, rapidity ordered like the longitudinal momentum, no transverse momentum. -/
noncomputable def exEnv : Env := ⟨fun i f => if i = f then 1 else 0, fun _ => 3, fun q => q.kin.pz, fun _ => (0, 0)⟩

example : Contract { exEnv with nq := fun i f => if i = f ∧ i ≠ 21 then 1 else 0 } :=
  ⟨fun f g _ _ => by
    by_cases h : f = g
    · subst h; simp; omega
    · have : ¬ ((f : Int) = g) := by omega
      simp [h, this], fun g => by simp⟩

/-- A gluon of energy 8. -/
noncomputable def exGluon : Parton := ⟨21, 1, 2, ⟨0, 0, 0, 8, 8⟩⟩

/-- One s quark less than there is. -/
def exExcess (f : Nat) : Int := if f = 3 then -1 else 0

theorem ex_half (q : ℝ) : half exEnv 3 (0, 0) exGluon.kin q = ⟨3, 0, 0, 4, 5⟩ := by
  have : Real.sqrt 25 = 5 := by rw [show (25 : ℝ) = 5 ^ 2 by norm_num]; exact Real.sqrt_sq (by norm_num)
  simp [half, exEnv, exGluon]
  norm_num
  exact this

theorem ex_split : ∃ nq na, split exEnv true exExcess (fun _ => 0) [exGluon] =
    .ok (true, ⟨[⟨3, 1, 0, ⟨3, 0, 0, 4, 5⟩⟩, ⟨-3, 0, 2, ⟨3, 0, 0, 4, 5⟩⟩], nq, na⟩) := by
  have one : splitOne exEnv true 3 [exGluon] = .ok (some [⟨3, 1, 0, ⟨3, 0, 0, 4, 5⟩⟩, ⟨-3, 0, 2, ⟨3, 0, 0, 4, 5⟩⟩]) := by
    have e1 := ex_half 1
    have e2 := ex_half (-1)
    simp only [splitOne, choose, chooseLoop, List.length_singleton, List.getElem?_cons_zero]
    rw [if_neg (by simp [exGluon]), show exEnv.draw 1 = (0, 0) from rfl, e1, e2]
    simp [exGluon]
  have hq : ∀ f, Flavour f → quarks exEnv [exGluon] f = 0 := by
    intro f hf
    have := hf.2
    have h21 : ¬ ((21 : Int) = f) := by omega
    simp [quarks, exEnv, exGluon, h21]
  have q1 := hq 1 (by unfold Flavour; omega)
  have q2 := hq 2 (by unfold Flavour; omega)
  have q3 := hq 3 (by unfold Flavour; omega)
  have q4 := hq 4 (by unfold Flavour; omega)
  have q5 := hq 5 (by unfold Flavour; omega)
  refine ⟨Function.update (quarks exEnv [exGluon]) 3 1, Function.update (antiquarks exEnv [exGluon]) 3 (antiquarks exEnv [exGluon] 3 + 1), ?_⟩
  simp [split, splitFlavours, exExcess, q1, q2, q3, q4, q5, splitTimes, one]

/-- **C176** fails in one respect: `pSum` is read before the splitting, so that the energy of a split gluon is not restored if the
replacement (here of s by another flavour of the same mass, as u and d have) does not change the energy. -/
theorem C176_energy_false : ∃ (E : Env) (ex0 : Nat → Int) (l : List Parton) (s : State),
    split E true ex0 (fun _ => 0) l = .ok (true, s) ∧
    ∀ l2, l2.map Parton.kin = s.l.map Parton.kin → rescaleAll 1 l s.l l2 = some (s.l.map Parton.kin) ∧
      energy (s.l.map Parton.kin) = energyOf l + 2 := by
  obtain ⟨nq, na, h⟩ := ex_split
  refine ⟨exEnv, exExcess, _, _, h, fun l2 hl2 => ⟨?_, ?_⟩⟩
  · unfold rescaleAll
    simp only at hl2
    rw [loop, if_pos (by
      unfold energyOf
      rw [hl2, sub_self, add_zero, sub_self, abs_zero]
      exact abs_nonneg _)]
    rw [hl2]
  · simp [energy, energyOf, exGluon]; norm_num

/-- **C176** fails in another respect: the search starts with the first parton even if it is no gluon, so that "no gluon" is found if that
parton is more forward than all gluons. -/
theorem C176_gluon_false : ∃ (E : Env) (l : List Parton), (∃ g ∈ l, g.id = 21) ∧ splitOne E true 3 l = .ok none ∧
    ∃ l', splitOne E true 3 l.reverse = .ok (some l') := by
  refine ⟨exEnv, [⟨1, 2, 0, ⟨0, 0, 0, 9, 9⟩⟩, exGluon], ⟨exGluon, by simp, rfl⟩, ?_, ?_⟩
  · have : ¬ ((9 : ℝ) < 8) := by norm_num
    simp [splitOne, choose, chooseLoop, exGluon, exEnv, this]
  · simp [splitOne, choose, chooseLoop, exGluon, exEnv]

end Witness

end Verif.Glue
