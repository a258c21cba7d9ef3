import Verif.Hard.Model
import Mathlib.Data.List.Perm.Basic
import Mathlib.Algebra.BigOperators.Group.List.Basic
import Mathlib.Tactic.Linarith
import Mathlib.Tactic.NormNum
/-
C174: the strings in the partons of a hard scattering.
-/
namespace Verif.Hard
open scoped List

/-- Specification: every colour occurs as often as the anticolour. -/
def Neutral (l : List Parton) : Prop := ∀ x ≠ 0, (l.map Parton.col).count x = (l.map Parton.acol).count x

/-- Specification: the total momentum. -/
def total (l : List Parton) : P4 := (l.map Parton.p).sum

/-- Specification: no parton with a colour and the same anticolour. -/
def NoSinglet (l : List Parton) : Prop := ∀ q ∈ l, q.col = q.acol → q.col = 0

theorem search_some {ctf atf k c a : Nat} : ∀ {l : List Parton} {i : Nat}, search ctf atf i l = some (k, c, a) →
    ∃ n, ∃ h : n < l.length, k = i + n ∧
      ((ctf ≠ 0 ∧ ctf = l[n].col ∧ ¬(atf ≠ 0 ∧ atf = l[n].acol) ∧ c = l[n].acol ∧ a = atf) ∨
       (atf ≠ 0 ∧ atf = l[n].acol ∧ ¬(ctf ≠ 0 ∧ ctf = l[n].col) ∧ c = ctf ∧ a = l[n].col) ∨
       (ctf ≠ 0 ∧ ctf = l[n].col ∧ atf ≠ 0 ∧ atf = l[n].acol ∧ c = 0 ∧ a = 0)) := by
  intro l
  induction l with
  | nil => intro i h; simp [search] at h
  | cons q qs ih =>
    intro i h
    rw [search] at h
    split_ifs at h with h1 h2 h3
    · refine ⟨0, by simp, ?_⟩; simp at h h1 ⊢; grind
    · refine ⟨0, by simp, ?_⟩; simp at h h2 ⊢; grind
    · refine ⟨0, by simp, ?_⟩; simp at h h3 ⊢; grind
    · obtain ⟨n, hn, hk, hh⟩ := ih h
      refine ⟨n + 1, by simpa using hn, by omega, ?_⟩
      simpa using hh

theorem search_none {ctf atf : Nat} : ∀ {l : List Parton} {i : Nat}, search ctf atf i l = none →
    ∀ q ∈ l, ¬(ctf ≠ 0 ∧ ctf = q.col) ∧ ¬(atf ≠ 0 ∧ atf = q.acol) := by
  intro l
  induction l with
  | nil => intro i h q hq; cases hq
  | cons q qs ih =>
    intro i h
    rw [search] at h
    split_ifs at h with h1 h2 h3
    intro r hr
    rcases List.mem_cons.1 hr with rfl | hr
    · simp at h1 h2 h3; grind
    · exact ih h r hr

theorem perm_erase {l : List Parton} {i : Nat} (h : i < l.length) (m : List Parton) : (m ++ [l[i]]) ++ l.eraseIdx i ~ m ++ l := by
  rw [List.append_assoc]
  exact List.Perm.append_left m (List.getElem_cons_eraseIdx_perm h)

/-- Colours to find of a string and its rest balance. -/
def Bal (c a : Nat) (l : List Parton) : Prop :=
  ∀ x ≠ 0, (l.map Parton.col).count x + (if c = x then 1 else 0) = (l.map Parton.acol).count x + (if a = x then 1 else 0)

theorem trace_spec {c a : Nat} {rest : List Parton} {s : Str} : ∀ {s' rest'}, trace c a rest s = .ok (s', rest') →
    s'.parts ++ rest' ~ s.parts ++ rest ∧ s'.juncs = s.juncs ∧ (s.sys = total s.parts → s'.sys = total s'.parts) ∧
    s.parts <+: s'.parts ∧ (Bal c a s.parts → Neutral s'.parts) := by
  fun_induction trace c a rest s with
  | case1 => intro s' rest' h; cases h
  | case2 c a rest s hc i c' a' hs hi ih =>
    intro s' rest' h
    obtain ⟨h1, h2, h3, h4, h5⟩ := ih h
    refine ⟨h1.trans (perm_erase hi s.parts), h2, fun h => h3 ?_, ?_, fun hb => h5 ?_⟩
    · simp [Str.add, total] at h ⊢; rw [h]
    · exact (List.prefix_append _ _).trans h4
    · obtain ⟨n, hn, hk, hh⟩ := search_some hs
      have hk : i = n := by omega
      subst hk
      intro x hx
      have hbx := hb x hx
      simp only [Str.add, List.map_append, List.count_append, List.map_cons, List.map_nil, List.count_singleton, beq_iff_eq]
      grind
  | case3 => intro s' rest' h; cases h
  | case4 c a rest s hc =>
    intro s' rest' h
    cases h
    refine ⟨.refl _, rfl, id, List.prefix_refl _, fun hb x hx => ?_⟩
    have := hb x hx
    grind

/-- A balanced search ends. -/
theorem trace_ok {c a : Nat} {rest : List Parton} {s : Str} : (c = a → c = 0) → Bal a c rest → ∃ r, trace c a rest s = .ok r := by
  fun_induction trace c a rest s with
  | case1 c a rest s hc hs =>
    intro h0 hb
    exfalso
    have hn := search_none hs
    have hcol : c ≠ 0 → (rest.map Parton.col).count c = 0 := by
      intro h
      rw [List.count_eq_zero]
      intro hm
      obtain ⟨q, hq, he⟩ := List.mem_map.1 hm
      exact (hn q hq).1 ⟨h, he.symm⟩
    have hacol : a ≠ 0 → (rest.map Parton.acol).count a = 0 := by
      intro h
      rw [List.count_eq_zero]
      intro hm
      obtain ⟨q, hq, he⟩ := List.mem_map.1 hm
      exact (hn q hq).2 ⟨h, he.symm⟩
    have b1 := hb c
    have b2 := hb a
    grind
  | case2 c a rest s hc i c' a' hs hi ih =>
    intro h0 hb
    obtain ⟨n, hn, hk, hh⟩ := search_some hs
    have hk : i = n := by omega
    subst hk
    refine ih ?_ ?_
    · grind
    · intro x hx
      have hbx := hb x hx
      have hp := List.getElem_cons_eraseIdx_perm hi
      have e1 := (hp.map Parton.col).count_eq x
      have e2 := (hp.map Parton.acol).count_eq x
      simp only [List.map_cons, List.count_cons, beq_iff_eq] at e1 e2
      grind
  | case3 c a rest s hc i c' a' hs hi =>
    obtain ⟨n, hn, hk, hh⟩ := search_some hs
    omega
  | case4 => exact fun _ _ => ⟨_, rfl⟩

theorem forwardLoop_lt {y : Parton → ℚ} {fwd : Bool} : ∀ {l : List Parton} {b i : Nat} {yb : ℚ}, b < i →
    forwardLoop y fwd b yb i l < i + l.length := by
  intro l
  induction l with
  | nil => intro b i yb h; simpa [forwardLoop] using h
  | cons q qs ih =>
    intro b i yb h
    rw [forwardLoop]
    split_ifs
    · have := @ih i (i + 1) (y q) (by omega); simp; omega
    · have := @ih b (i + 1) yb (by omega); simp; omega

theorem forwardIdx_lt {y : Parton → ℚ} {fwd : Bool} {l : List Parton} (h : l ≠ []) : forwardIdx y fwd l < l.length := by
  cases l with
  | nil => exact absurd rfl h
  | cons q qs =>
    have := @forwardLoop_lt y fwd qs 0 1 (y q) (by omega)
    simp only [forwardIdx, List.length_cons]
    omega

theorem forwardLoop_best {y : Parton → ℚ} {fwd : Bool} : ∀ {l pre : List Parton} {b : Nat} (hb : b < pre.length),
    (∀ q ∈ pre, if fwd then y q ≤ y pre[b] else y pre[b] ≤ y q) →
    ∃ h : forwardLoop y fwd b (y pre[b]) pre.length l < (pre ++ l).length,
      ∀ q ∈ pre ++ l, if fwd then y q ≤ y (pre ++ l)[forwardLoop y fwd b (y pre[b]) pre.length l]
        else y (pre ++ l)[forwardLoop y fwd b (y pre[b]) pre.length l] ≤ y q := by
  intro l
  induction l with
  | nil =>
    intro pre b hb h
    simp only [forwardLoop, List.append_nil]
    exact ⟨hb, h⟩
  | cons q qs ih =>
    intro pre b hb h
    have key : ∀ (c : Nat) (hc : c < (pre ++ [q]).length),
        (∀ r ∈ pre ++ [q], if fwd then y r ≤ y (pre ++ [q])[c] else y (pre ++ [q])[c] ≤ y r) → _ :=
      fun c hc hh => @ih (pre ++ [q]) c hc hh
    by_cases hc : (fwd = true ∧ y q > y pre[b]) ∨ (fwd = false ∧ y q < y pre[b])
    · have k := key pre.length (by simp) (by
        intro r hr
        rcases List.mem_append.1 hr with hr | hr
        · have := h r hr
          simp
          cases fwd <;> simp at * <;> linarith
        · simp at hr; subst hr; simp)
      simpa [forwardLoop, if_pos hc] using k
    · have k := key b (by simp; omega) (by
        intro r hr
        rcases List.mem_append.1 hr with hr | hr
        · have := h r hr
          simpa [List.getElem_append_left hb] using this
        · simp at hr; subst hr
          rw [List.getElem_append_left hb]
          cases fwd <;> simp at * <;> linarith)
      rw [List.getElem_append_left hb] at k
      simpa [forwardLoop, if_neg hc] using k

theorem forwardIdx_best {y : Parton → ℚ} {fwd : Bool} {l : List Parton} (h : l ≠ []) : 
    ∀ q ∈ l, if fwd then y q ≤ y (l[forwardIdx y fwd l]'(forwardIdx_lt h)) else y (l[forwardIdx y fwd l]'(forwardIdx_lt h)) ≤ y q := by
  cases l with
  | nil => exact absurd rfl h
  | cons q qs =>
    obtain ⟨_, h2⟩ := @forwardLoop_best y fwd qs [q] 0 (by simp) (by intro r hr; simp at hr; subst hr; simp)
    simpa [forwardIdx] using h2

theorem composeParton_spec {y : Parton → ℚ} {fwd : Bool} {parts rest : List Parton} {s : Str} (h : composeParton y fwd parts = .ok (s, rest)) :
    s.parts ++ rest ~ parts ∧ s.juncs = [] ∧ s.sys = total s.parts ∧ Neutral s.parts ∧
    ∃ q t, s.parts = q :: t ∧ ∀ r ∈ parts, if fwd then y r ≤ y q else y q ≤ y r := by
  unfold composeParton at h
  simp only at h
  split_ifs at h with hi
  obtain ⟨h1, h2, h3, h4, h5⟩ := trace_spec h
  refine ⟨h1.trans (perm_erase hi []), h2, h3 ?_, h5 ?_, ?_⟩
  · simp [Str.add, Str.empty, total]
  · intro x hx
    simp only [Str.add, Str.empty, List.nil_append, List.map_cons, List.map_nil, List.count_singleton, beq_iff_eq]
    omega
  · have hne : parts ≠ [] := by rintro rfl; simp at hi
    obtain ⟨t, ht⟩ := h4
    exact ⟨_, t, ht.symm.trans (by simp [Str.add, Str.empty]), forwardIdx_best hne⟩

theorem neutral_perm {l m : List Parton} (h : l ~ m) (hl : Neutral l) : Neutral m := by
  intro x hx
  rw [← (h.map Parton.col).count_eq x, ← (h.map Parton.acol).count_eq x]
  exact hl x hx

theorem neutral_append {l m : List Parton} (hl : Neutral l) : Neutral (l ++ m) ↔ Neutral m := by
  constructor <;> intro h x hx <;> have := h x hx <;> have := hl x hx <;> simp only [List.map_append, List.count_append] at * <;> omega

theorem composeParton_ok {y : Parton → ℚ} {fwd : Bool} {parts : List Parton} (hne : parts ≠ []) (hs : NoSinglet parts)
    (hn : Neutral parts) : ∃ r, composeParton y fwd parts = .ok r := by
  unfold composeParton
  simp only
  rw [dif_pos (forwardIdx_lt hne)]
  have hi := @forwardIdx_lt y fwd parts hne
  refine trace_ok (fun h => ?_) fun x hx => ?_
  · rw [h]; exact hs _ (List.getElem_mem hi) h.symm
  · have hp := List.getElem_cons_eraseIdx_perm hi
    have e1 := (hp.map Parton.col).count_eq x
    have e2 := (hp.map Parton.acol).count_eq x
    have := hn x hx
    simp only [List.map_cons, List.count_cons, beq_iff_eq] at e1 e2
    omega

/-- Colour (of a quark) and anticolour (of an antiquark). -/
def side (sign : Bool) (q : Parton) : Nat := if sign then q.col else q.acol

theorem legSearch_some {sign : Bool} {c k c' : Nat} : ∀ {l : List Parton} {i : Nat}, legSearch sign c i l = some (k, c') →
    ∃ n, ∃ h : n < l.length, k = i + n ∧ c = side sign l[n] ∧ c' = side (!sign) l[n] := by
  intro l
  induction l with
  | nil => intro i h; simp [legSearch] at h
  | cons q qs ih =>
    intro i h
    rw [legSearch] at h
    split_ifs at h with h1 h2
    · refine ⟨0, by simp, ?_⟩; simp [side] at h ⊢; grind
    · refine ⟨0, by simp, ?_⟩; simp [side] at h ⊢; grind
    · obtain ⟨n, hn, hk, hh⟩ := ih h
      refine ⟨n + 1, by simpa using hn, by omega, ?_⟩
      simpa using hh

theorem legSearch_none {sign : Bool} {c : Nat} : ∀ {l : List Parton} {i : Nat}, legSearch sign c i l = none → ∀ q ∈ l, c ≠ side sign q := by
  intro l
  induction l with
  | nil => intro i h q hq; cases hq
  | cons q qs ih =>
    intro i h
    rw [legSearch] at h
    split_ifs at h with h1 h2
    intro r hr
    rcases List.mem_cons.1 hr with rfl | hr
    · cases sign <;> simp_all [side]
    · exact ih h r hr

theorem leg_spec {sign : Bool} {nj c : Nat} {rest : List Parton} {s : Str} : ∀ {c' r t}, leg sign nj c rest s = .ok (c', r, t) →
    t.parts ++ r ~ s.parts ++ rest ∧ t.juncs = s.juncs ∧ (s.sys = total s.parts → t.sys = total t.parts) ∧ (nj = 0 → c' = 0) ∧
    ∀ x ≠ 0, (t.parts.map (side sign)).count x + (s.parts.map (side !sign)).count x + (if c' = x then 1 else 0) =
      (s.parts.map (side sign)).count x + (t.parts.map (side !sign)).count x + (if c = x then 1 else 0) := by
  fun_induction leg sign nj c rest s with
  | case1 => intro c' r t h; cases h
  | case2 c rest s hs hn =>
    intro c' r t h
    cases h
    exact ⟨.refl _, rfl, id, fun h => absurd h hn, fun x hx => by omega⟩
  | case3 c rest s i hi hs =>
    intro c'' r t h
    cases h
    obtain ⟨n, hn, hk, h1, h2⟩ := legSearch_some hs
    have hk : i = n := by omega
    subst hk
    refine ⟨perm_erase hi s.parts, rfl, fun h => ?_, fun _ => rfl, fun x hx => ?_⟩
    · simp [Str.add, total] at h ⊢; rw [h]
    · simp only [Str.add, List.map_append, List.count_append, List.map_cons, List.map_nil, List.count_singleton, beq_iff_eq]
      grind
  | case4 c rest s i c1 hs hi hc ih =>
    intro c'' r t h
    obtain ⟨h1, h2, h3, h4, h5⟩ := ih h
    obtain ⟨n, hn, hk, e1, e2⟩ := legSearch_some hs
    have hk : i = n := by omega
    subst hk
    refine ⟨h1.trans (perm_erase hi s.parts), h2, fun h => h3 ?_, h4, fun x hx => ?_⟩
    · simp [Str.add, total] at h ⊢; rw [h]
    · have := h5 x hx
      simp only [Str.add, List.map_append, List.count_append, List.map_cons, List.map_nil, List.count_singleton, beq_iff_eq] at this
      grind
  | case5 => intro c' r t h; cases h

theorem findLegs_spec {sign : Bool} {nj : Nat} : ∀ {col : List Nat} {rest : List Parton} {s : Str} {col' r t},
    findLegs sign nj col rest s = .ok (col', r, t) →
    t.parts ++ r ~ s.parts ++ rest ∧ t.juncs = s.juncs ∧ (s.sys = total s.parts → t.sys = total t.parts) ∧ (nj = 0 → ∀ c ∈ col', c = 0) ∧
    ∀ x ≠ 0, (t.parts.map (side sign)).count x + (s.parts.map (side !sign)).count x + col'.count x =
      (s.parts.map (side sign)).count x + (t.parts.map (side !sign)).count x + col.count x := by
  intro col
  induction col with
  | nil =>
    intro rest s col' r t h
    simp only [findLegs] at h
    cases h
    exact ⟨.refl _, rfl, id, fun _ c hc => (List.not_mem_nil hc).elim, fun x hx => by omega⟩
  | cons c cs ih =>
    intro rest s col' r t h
    rw [findLegs] at h
    by_cases hc : c = 0
    · rw [if_pos hc] at h
      rcases hf : findLegs sign nj cs rest s with e | ⟨l, r', t'⟩ <;> rw [hf] at h
      · cases h
      · cases h
        obtain ⟨h1, h2, h3, h4, h5⟩ := ih hf
        refine ⟨h1, h2, h3, fun h0 c hc => ?_, fun x hx => ?_⟩
        · rcases List.mem_cons.1 hc with h | h
          · exact h
          · exact h4 h0 c h
        · have := h5 x hx
          simp only [List.count_cons, beq_iff_eq]
          grind
    · rw [if_neg hc] at h
      rcases hl : leg sign nj c rest s with e | ⟨c1, r1, t1⟩ <;> rw [hl] at h
      · cases h
      · simp only at h
        rcases hf : findLegs sign nj cs r1 t1 with e | ⟨l, r', t'⟩ <;> rw [hf] at h
        · cases h
        · cases h
          obtain ⟨g1, g2, g3, g4, g5⟩ := leg_spec hl
          obtain ⟨h1, h2, h3, h4, h5⟩ := ih hf
          refine ⟨h1.trans g1, h2.trans g2, fun h => h3 (g3 h), fun h0 c hc => ?_, fun x hx => ?_⟩
          · rcases List.mem_cons.1 hc with h | h
            · exact h.trans (g4 h0)
            · exact h4 h0 c h
          · have := h5 x hx
            have := g5 x hx
            simp only [List.count_cons, beq_iff_eq]
            grind

theorem connect_perm {sign : Bool} : ∀ {js : List Junction} {col : List Nat}, (connect sign col js).2.1 ++ (connect sign col js).2.2 ~ js := by
  intro js
  induction js with
  | nil => intro col; simp [connect]
  | cons j js ih =>
    intro col
    rw [connect]
    dsimp only
    split_ifs
    · exact List.perm_middle.trans (List.Perm.cons j ih)
    · exact List.Perm.cons j ih
    · exact List.perm_middle.trans (List.Perm.cons j ih)

theorem junctionLoop_spec : ∀ {fuel : Nat} {sign : Bool} {col : List Nat} {ev : Event} {s t : Str} {ev' : Event},
    junctionLoop fuel sign col ev s = some (.ok (t, ev')) →
    t.parts ++ ev'.parts ~ s.parts ++ ev.parts ∧ t.juncs ++ ev'.juncs ~ s.juncs ++ ev.juncs ∧ (s.sys = total s.parts → t.sys = total t.parts) := by
  intro fuel
  induction fuel with
  | zero => intro sign col ev s t ev' h; cases h
  | succ n ih =>
    intro sign col ev s t ev' h
    rw [junctionLoop] at h
    rcases hf : findLegs sign ev.juncs.length col ev.parts s with e | ⟨l, r, t'⟩ <;> rw [hf] at h
    · cases h
    · obtain ⟨h1, h2, h3, -, -⟩ := findLegs_spec hf
      simp only at h
      split_ifs at h with hz
      · cases h
        exact ⟨h1, by rw [h2], h3⟩
      · obtain ⟨g1, g2, g3⟩ := ih h
        refine ⟨g1.trans h1, g2.trans ?_, fun h => g3 (h3 h)⟩
        simp only [List.append_assoc, h2]
        exact List.Perm.append_left _ connect_perm

theorem hardLoop_spec {y : Parton → ℚ} : ∀ {fuel : Nat} {fwd : Bool} {ev : Event} {strs : List Str} {left : List Junction},
    hardLoop y fuel fwd ev = some (.ok (strs, left)) →
    strs.flatMap Str.parts ~ ev.parts ∧ strs.flatMap Str.juncs ++ left ~ ev.juncs ∧ ∀ s ∈ strs, s.sys = total s.parts := by
  intro fuel
  induction fuel with
  | zero => intro fwd ev strs left h; cases h
  | succ n ih =>
    intro fwd ev strs left h
    rw [hardLoop] at h
    split_ifs at h with he
    · cases h
      exact ⟨by rw [he]; exact .refl _, .refl _, fun s hs => (List.not_mem_nil hs).elim⟩
    · rcases hj : ev.juncs with _ | ⟨j, js⟩ <;> rw [hj] at h <;> simp only at h
      · rcases hc : composeParton y fwd ev.parts with e | ⟨s, rest⟩ <;> rw [hc] at h <;> simp only at h
        · cases h
        · rcases hr : hardLoop y n (!fwd) ⟨rest, []⟩ with _ | (e | ⟨l, r⟩) <;> rw [hr] at h
          · cases h
          · cases h
          · cases h
            obtain ⟨h1, h2, h3⟩ := ih hr
            obtain ⟨g1, g2, g3, -, -⟩ := composeParton_spec hc
            refine ⟨(List.Perm.append_left _ h1).trans g1, by simpa [g2] using h2, fun t ht => ?_⟩
            rcases List.mem_cons.1 ht with rfl | ht
            · exact g3
            · exact h3 t ht
      · rcases hc : composeJunction n j ⟨ev.parts, js⟩ with _ | (e | ⟨s, ev'⟩) <;> rw [hc] at h <;> simp only at h
        · cases h
        · cases h
        · rcases hr : hardLoop y n (!decide (s.sys.2.2.1 > 0)) ev' with _ | (e | ⟨l, r⟩) <;> rw [hr] at h
          · cases h
          · cases h
          · cases h
            obtain ⟨h1, h2, h3⟩ := ih hr
            obtain ⟨g1, g2, g3⟩ := junctionLoop_spec hc
            refine ⟨(List.Perm.append_left _ h1).trans g1, ?_, fun t ht => ?_⟩
            · rw [List.flatMap_cons, List.append_assoc]
              exact (List.Perm.append_left _ h2).trans g2
            · rcases List.mem_cons.1 ht with rfl | ht
              · exact g3 rfl
              · exact h3 t ht

/-- **C174** Every parton and every junction of the event ends in exactly one string (or is a junction that is left when there are
no partons), and the momentum recorded for a string is the sum of its partons. -/
theorem C174_split {y : Parton → ℚ} {fuel : Nat} {fwd : Bool} {ev : Event} {strs : List Str} {left : List Junction}
    (h : hardLoop y fuel fwd ev = some (.ok (strs, left))) :
    (∀ q, (strs.flatMap Str.parts).count q = ev.parts.count q) ∧ (∀ j, (strs.flatMap Str.juncs ++ left).count j = ev.juncs.count j) ∧
    ∀ s ∈ strs, s.sys = total s.parts :=
  ⟨fun q => (hardLoop_spec h).1.count_eq q, fun j => (hardLoop_spec h).2.1.count_eq j, (hardLoop_spec h).2.2⟩

/-- Specification: the first parton of each string is the most forward or most backward one of all that are left, in turn. -/
def InTurn (y : Parton → ℚ) : Bool → List Str → Prop
  | _, [] => True
  | fwd, s :: l => (∃ q t, s.parts = q :: t ∧ ∀ r ∈ (s :: l).flatMap Str.parts, if fwd then y r ≤ y q else y q ≤ y r) ∧ InTurn y (!fwd) l

/-- **C174** Without junctions every string is neutral, and the strings start at the most forward and the most backward parton in
turn. -/
theorem C174_neutral {y : Parton → ℚ} : ∀ {fuel : Nat} {fwd : Bool} {parts : List Parton} {strs : List Str} {left : List Junction},
    hardLoop y fuel fwd ⟨parts, []⟩ = some (.ok (strs, left)) → (∀ s ∈ strs, Neutral s.parts ∧ s.juncs = []) ∧ InTurn y fwd strs := by
  intro fuel
  induction fuel with
  | zero => intro fwd parts strs left h; cases h
  | succ n ih =>
    intro fwd parts strs left h
    have hsplit := (hardLoop_spec h).1
    rw [hardLoop] at h
    split_ifs at h with he
    · cases h
      exact ⟨fun s hs => (List.not_mem_nil hs).elim, trivial⟩
    · simp only at h
      rcases hc : composeParton y fwd parts with e | ⟨s, rest⟩ <;> rw [hc] at h <;> simp only at h
      · cases h
      · rcases hr : hardLoop y n (!fwd) ⟨rest, []⟩ with _ | (e | ⟨l, r⟩) <;> rw [hr] at h
        · cases h
        · cases h
        · cases h
          obtain ⟨h1, h2⟩ := ih hr
          obtain ⟨g1, g2, g3, g4, q, t, hq, hb⟩ := composeParton_spec hc
          refine ⟨fun u hu => ?_, ⟨q, t, hq, fun r hr => hb r (hsplit.subset hr)⟩, h2⟩
          rcases List.mem_cons.1 hu with rfl | hu
          · exact ⟨g4, g2⟩
          · exact h1 u hu

theorem neutral_flatMap {l : List Str} (h : ∀ s ∈ l, Neutral s.parts) : Neutral (l.flatMap Str.parts) := by
  induction l with
  | nil => intro x _; rfl
  | cons s l ih =>
    rw [List.flatMap_cons, neutral_append (h s (by simp))]
    exact ih fun t ht => h t (List.mem_cons_of_mem _ ht)

theorem hardLoop_ok {y : Parton → ℚ} : ∀ {fuel : Nat} {fwd : Bool} {parts : List Parton}, parts.length < fuel → NoSinglet parts →
    Neutral parts → ∃ strs, hardLoop y fuel fwd ⟨parts, []⟩ = some (.ok (strs, [])) := by
  intro fuel
  induction fuel with
  | zero => intro fwd parts h; omega
  | succ n ih =>
    intro fwd parts hl hs hn
    rw [hardLoop]
    by_cases he : parts = []
    · exact ⟨[], by simp [he]⟩
    · obtain ⟨⟨s, rest⟩, hr⟩ := @composeParton_ok y fwd parts he hs hn
      obtain ⟨g1, g2, g3, g4, q, t, hq, hb⟩ := composeParton_spec hr
      have hlen := g1.length_eq
      rw [hq] at hlen
      simp at hlen
      obtain ⟨l, hl'⟩ := @ih (!fwd) rest (by omega) (fun q hq => hs q (g1.subset (List.mem_append_right _ hq)))
        ((neutral_append g4).1 (neutral_perm g1.symm hn))
      exact ⟨s :: l, by simp [he, hr, hl']⟩

/-- **C174** Without junctions and without partons of one colour and the same anticolour the strings are identified exactly if the
event is neutral. -/
theorem C174_identified {y : Parton → ℚ} {fuel : Nat} {fwd : Bool} {parts : List Parton} (hf : parts.length < fuel) (hs : NoSinglet parts) :
    (∃ strs, hardLoop y fuel fwd ⟨parts, []⟩ = some (.ok (strs, []))) ↔ Neutral parts := by
  refine ⟨fun ⟨strs, h⟩ => ?_, hardLoop_ok hf hs⟩
  exact neutral_perm (hardLoop_spec h).1 (neutral_flatMap fun s hs => ((C174_neutral h).1 s hs).1)

theorem leg_ok {sign : Bool} {nj c : Nat} {rest : List Parton} {s : Str} : ∀ {cs : List Nat}, c ≠ 0 →
    (∀ x ≠ 0, (rest.map (side sign)).count x = (rest.map (side !sign)).count x + (c :: cs).count x) →
    ∃ r t, leg sign nj c rest s = .ok (0, r, t) ∧
      ∀ x ≠ 0, (r.map (side sign)).count x = (r.map (side !sign)).count x + cs.count x := by
  fun_induction leg sign nj c rest s with
  | case1 c rest s hs hn =>
    intro cs hc hb
    exfalso
    have h := hb c hc
    rw [List.count_cons_self, List.count_eq_zero.2] at h
    · omega
    · intro hm
      obtain ⟨q, hq, he⟩ := List.mem_map.1 hm
      exact legSearch_none hs q hq he.symm
  | case2 c rest s hs hn =>
    intro cs hc hb
    exfalso
    have h := hb c hc
    rw [List.count_cons_self, List.count_eq_zero.2] at h
    · omega
    · intro hm
      obtain ⟨q, hq, he⟩ := List.mem_map.1 hm
      exact legSearch_none hs q hq he.symm
  | case3 c rest s i hi hs =>
    intro cs hc hb
    obtain ⟨n, hn, hk, e1, e2⟩ := legSearch_some hs
    have hk : i = n := by omega
    subst hk
    refine ⟨_, _, rfl, fun x hx => ?_⟩
    have hp := List.getElem_cons_eraseIdx_perm hi
    have f1 := (hp.map (side sign)).count_eq x
    have f2 := (hp.map (side !sign)).count_eq x
    have := hb x hx
    simp only [List.map_cons, List.count_cons, beq_iff_eq] at f1 f2 this
    grind
  | case4 c rest s i c1 hs hi hc1 ih =>
    intro cs hc hb
    obtain ⟨n, hn, hk, e1, e2⟩ := legSearch_some hs
    have hk : i = n := by omega
    subst hk
    refine ih hc1 fun x hx => ?_
    have hp := List.getElem_cons_eraseIdx_perm hi
    have f1 := (hp.map (side sign)).count_eq x
    have f2 := (hp.map (side !sign)).count_eq x
    have := hb x hx
    simp only [List.map_cons, List.count_cons, beq_iff_eq] at f1 f2 this ⊢
    grind
  | case5 c rest s i c1 hs hi =>
    obtain ⟨n, hn, hk, e1, e2⟩ := legSearch_some hs
    omega

theorem findLegs_ok {sign : Bool} {nj : Nat} : ∀ {col : List Nat} {rest : List Parton} {s : Str},
    (∀ x ≠ 0, (rest.map (side sign)).count x = (rest.map (side !sign)).count x + col.count x) →
    ∃ l r t, findLegs sign nj col rest s = .ok (l, r, t) ∧ (∀ c ∈ l, c = 0) ∧
      ∀ x ≠ 0, (r.map (side sign)).count x = (r.map (side !sign)).count x := by
  intro col
  induction col with
  | nil => intro rest s h; exact ⟨[], rest, s, rfl, by simp, fun x hx => by simpa using h x hx⟩
  | cons c cs ih =>
    intro rest s h
    rw [findLegs]
    by_cases hc : c = 0
    · obtain ⟨l, r, t, h1, h2, h3⟩ := @ih rest s (fun x hx => by
        have := h x hx
        rw [List.count_cons_of_ne (by grind)] at this
        exact this)
      exact ⟨0 :: l, r, t, by rw [if_pos hc, h1], by simpa using h2, h3⟩
    · obtain ⟨r1, t1, g1, g2⟩ := @leg_ok sign nj c rest s cs hc h
      obtain ⟨l, r, t, h1, h2, h3⟩ := @ih r1 t1 g2
      exact ⟨0 :: l, r, t, by rw [if_neg hc, g1]; simp only [h1], by simpa using h2, h3⟩

/-- Specification: partons that are neutral together with a junction: each leg of a junction of odd kind takes the place of an
anticolour, of a junction of even kind the place of a colour. -/
def NeutralWith (j : Junction) (l : List Parton) : Prop :=
  ∀ x ≠ 0, if j.kind % 2 = 1 then (l.map Parton.col).count x = (l.map Parton.acol).count x + j.legs.count x
    else (l.map Parton.acol).count x = (l.map Parton.col).count x + j.legs.count x

/-- **C174** The last junction: the search ends after one round; a string found holds the junction and is neutral with it; it is found if
the event is neutral with the junction. -/
theorem C174_junction (n : Nat) (j : Junction) (parts : List Parton) :
    (∃ r, composeJunction (n + 1) j ⟨parts, []⟩ = some r) ∧
    (∀ s ev', composeJunction (n + 1) j ⟨parts, []⟩ = some (.ok (s, ev')) → s.juncs = [j] ∧ ev'.juncs = [] ∧ NeutralWith j s.parts) ∧
    (NeutralWith j parts → ∃ s ev', composeJunction (n + 1) j ⟨parts, []⟩ = some (.ok (s, ev')) ∧ Neutral ev'.parts) := by
  have hside : ∀ b, (side b) = if b then Parton.col else Parton.acol := by intro b; cases b <;> rfl
  unfold composeJunction
  rw [junctionLoop]
  simp only [List.length_nil]
  rcases hf : findLegs (decide (j.kind % 2 = 1)) 0 j.legs parts { Str.empty with juncs := [j] } with e | ⟨l, r, t⟩
  · refine ⟨⟨_, rfl⟩, fun s ev' h => (by cases h), fun h => ?_⟩
    obtain ⟨l, r, t, h1, -, -⟩ := @findLegs_ok (decide (j.kind % 2 = 1)) 0 j.legs parts { Str.empty with juncs := [j] } (fun x hx => by
      have := h x hx
      by_cases hk : j.kind % 2 = 1 <;> simp [hk, hside] at this ⊢ <;> exact this)
    rw [hf] at h1
    cases h1
  · obtain ⟨h1, h2, h3, h4, h5⟩ := findLegs_spec hf
    have hz : l.all (· = 0) = true := by simpa using h4 rfl
    simp only [hz, if_true]
    refine ⟨⟨_, rfl⟩, fun s ev' h => ?_, fun h => ?_⟩
    · cases h
      refine ⟨h2, rfl, fun x hx => ?_⟩
      have h0 : l.count x = 0 := by
        rw [List.count_eq_zero]
        intro hm
        exact hx (h4 rfl x hm)
      have := h5 x hx
      by_cases hk : j.kind % 2 = 1 <;> simp [hk, hside, Str.empty, h0] at this ⊢ <;> omega
    · refine ⟨t, ⟨r, []⟩, rfl, ?_⟩
      obtain ⟨l', r', t', g1, -, g3⟩ := @findLegs_ok (decide (j.kind % 2 = 1)) 0 j.legs parts { Str.empty with juncs := [j] } (fun x hx => by
        have := h x hx
        by_cases hk : j.kind % 2 = 1 <;> simp [hk, hside] at this ⊢ <;> exact this)
      rw [hf] at g1
      cases g1
      intro x hx
      have := g3 x hx
      by_cases hk : j.kind % 2 = 1 <;> simp [hk, hside] at this ⊢ <;> omega

/-- **C174** fails in one respect: with two junctions that are not connected, and a leg without parton, the search for the legs goes on for
ever instead of giving the error that one junction gives. -/
theorem C174_ends_false (y : Parton → ℚ) (fwd : Bool) :
    ∃ ev : Event, (∀ fuel, hardLoop y fuel fwd ev = none) ∧
      ∃ j, hardLoop y 2 fwd ⟨ev.parts, [j]⟩ = some (.error .notIdentified) ∧ j ∈ ev.juncs := by
  refine ⟨⟨[⟨1, 9, 0, 0⟩], [⟨1, [1, 2, 3]⟩, ⟨1, [4, 5, 6]⟩]⟩, fun fuel => ?_, ⟨1, [1, 2, 3]⟩, ?_, by simp⟩
  · have key : ∀ n sign s, junctionLoop n sign [1, 2, 3] ⟨[⟨1, 9, 0, 0⟩], [⟨1, [4, 5, 6]⟩]⟩ s = none := by
      intro n
      induction n with
      | zero => intro sign s; rfl
      | succ n ih =>
        intro sign s
        have hf : findLegs sign 1 [1, 2, 3] [⟨1, 9, 0, 0⟩] s = .ok ([1, 2, 3], [⟨1, 9, 0, 0⟩], s) := by
          cases sign <;> simp [findLegs, leg, legSearch]
        rw [junctionLoop]
        simp only [List.length_cons, List.length_nil, Nat.zero_add, hf]
        cases sign <;> simp [connect, matchLegs, matchLeg] <;> exact ih _ _
    cases fuel with
    | zero => rfl
    | succ n => simp [hardLoop, composeJunction, key]
  · simp [hardLoop, composeJunction, junctionLoop, findLegs, leg, legSearch]

section Examples

/-- A quark, a gluon and an antiquark, and a ring of two gluons. -/
def exParts : List Parton := [⟨1, 1, 0, (0, 0, 3, 4)⟩, ⟨21, 3, 4, (1, 0, 1, 2)⟩, ⟨21, 2, 1, (0, 0, 0, 1)⟩, ⟨-1, 0, 2, (0, 0, -3, 4)⟩,
  ⟨21, 4, 3, (-1, 0, -1, 2)⟩]

example : NoSinglet exParts ∧ Neutral exParts := by
  refine ⟨by simp [NoSinglet, exParts], fun x hx => ?_⟩
  simp only [exParts, List.map_cons, List.map_nil, List.count_cons, List.count_nil, beq_iff_eq]
  omega

example : ∃ strs, hardLoop (fun q => q.p.2.2.1) 6 true ⟨exParts, []⟩ = some (.ok (strs, [])) :=
  (C174_identified (by simp [exParts]) (by simp [NoSinglet, exParts])).2 fun x hx => by
    simp only [exParts, List.map_cons, List.map_nil, List.count_cons, List.count_nil, beq_iff_eq]
    omega

/-- Three quarks at a junction. -/
example : NeutralWith ⟨1, [1, 2, 3]⟩ [⟨1, 2, 0, 0⟩, ⟨2, 3, 0, 0⟩, ⟨2, 1, 0, 0⟩] := by
  intro x hx
  simp only [List.map_cons, List.map_nil, List.count_cons, List.count_nil, beq_iff_eq]
  have h0 : 0 ≠ x := Ne.symm hx
  simp [h0]
  omega

end Examples

end Verif.Hard
