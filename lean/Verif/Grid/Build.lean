import Verif.Grid.Periodic
import Mathlib.Tactic.FieldSimp
import Mathlib.Tactic.Positivity
/-
Lemmas about the construction of the grid.
-/
namespace Verif.Grid

/-- `nextafter(f, 0.)` of a positive normal number: slightly smaller, positive. -/
def GoodPrev (prev : ℚ → ℚ) : Prop := ∀ f, 0 < f → 0 < prev f ∧ prev f < f

/-- What the rest of the code needs to know about one axis. -/
structure AxisOk (o : Options) (l len : ℚ) (n : Int) (f : ℚ) : Prop where
  n_pos : 1 ≤ n
  n_lt : n < 2 ^ 31
  n_two : o = .periodic → 2 ≤ n
  f_pos : 0 < f
  inside : ∀ t, 0 ≤ t → t ≤ len → t * f < n

theorem axis_ok {o : Options} {st : Strategy} {lim : Limit} {prev : ℚ → ℚ} {maxC : Int}
    {l len : ℚ} {n : Int} {f : ℚ} (hl : 0 < l) (hlen : 0 ≤ len) (hprev : GoodPrev prev)
    (hm : 1 ≤ maxC) (hm2 : o = .periodic → 2 ≤ maxC)
    (hst : ¬ (o = .normal ∧ st = .largest))
    (h : axis o st lim prev maxC l len = .ok (n, f)) :
    AxisOk o l len n f ∧ (st = .optimal → f ≤ 1 / l ∧ (l ≤ len → n * l ≤ len)) ∧
      (l ≤ len → f = prev (n / len)) ∧ (st = .largest → n = 2) := by
  have hf0 : (0 : ℚ) < 1 / l := by positivity
  unfold axis at h
  simp only [bind, Except.bind] at h
  -- the number of cells before limiting
  cases hraw : rawCells st l len with
  | error e => rw [hraw] at h; cases h
  | ok n₀ =>
  rw [hraw] at h
  simp only at h
  have hn0 : (st = .largest → n₀ = 2) ∧ (st = .optimal → n₀ = ⌊len * (1 / l)⌋) ∧
      0 ≤ n₀ ∧ n₀ < 2 ^ 31 := by
    unfold rawCells at hraw
    cases st with
    | largest =>
      simp only [if_true, Except.ok.injEq] at hraw
      subst hraw
      exact ⟨fun _ => rfl, (fun h => by cases h), by norm_num, by norm_num⟩
    | optimal =>
      simp only [reduceCtorEq, if_false] at hraw
      split at hraw
      · cases hraw
      · rename_i hov
        simp only [Except.ok.injEq] at hraw
        subst hraw
        refine ⟨(fun h => by cases h), fun _ => rfl, Int.floor_nonneg.2 (by positivity), ?_⟩
        rw [Int.floor_lt]
        rw [gt_iff_lt, not_lt, le_div_iff₀ hf0] at hov
        push_cast
        linarith
  obtain ⟨hL, hO, hn0, hn0'⟩ := hn0
  -- after limiting
  cases hlim : limitCells o lim maxC n₀ with
  | error e => rw [hlim] at h; cases h
  | ok n₁ =>
  rw [hlim] at h
  have hn1 : 1 ≤ n₁ ∧ n₁ < 2 ^ 31 ∧ (o = .periodic → 2 ≤ n₁) ∧
      (n₁ ≤ n₀ ∨ (n₀ = 0 ∧ n₁ = 1)) ∧ (st = .largest → n₁ = 2) := by
    unfold limitCells at hlim
    split at hlim
    · rename_i c1
      simp only [Except.ok.injEq] at hlim
      subst hlim
      refine ⟨le_refl _, by norm_num, fun h => absurd h c1.2, .inr ⟨c1.1, rfl⟩, ?_⟩
      intro hs; have := hL hs; omega
    split at hlim
    · cases hlim
    split at hlim
    · rename_i c1 c2 c3
      simp only [Except.ok.injEq] at hlim
      subst hlim
      refine ⟨hm, by omega, hm2, .inl (by omega), ?_⟩
      intro hs
      have := hL hs
      have hp : o = .periodic := by
        cases o with
        | periodic => rfl
        | normal => exact absurd ⟨rfl, hs⟩ hst
      have := hm2 hp
      omega
    · rename_i c1 c2 c3
      simp only [Except.ok.injEq] at hlim
      subst hlim
      refine ⟨?_, hn0', ?_, .inl (le_refl _), hL⟩
      · cases o with
        | normal => simp only [ne_eq, reduceCtorEq, not_false_eq_true, and_true] at c1; omega
        | periodic => simp only [and_true, not_lt] at c2; omega
      · intro hp; simp only [hp, and_true, not_lt] at c2; omega
  obtain ⟨h1, h2, h3, h4, h5⟩ := hn1
  simp only [pure, Except.pure, Except.ok.injEq, Prod.mk.injEq] at h
  obtain ⟨rfl, hf⟩ := h
  unfold indexFactor at hf
  have hnq : (1 : ℚ) ≤ n₁ := by exact_mod_cast h1
  by_cases hle : l ≤ len
  · have hlp : 0 < len := lt_of_lt_of_le hl hle
    have hmul : (n₁ : ℚ) / len * len = n₁ := div_mul_cancel₀ _ (ne_of_gt hlp)
    rw [if_pos hle, if_pos (by rw [hmul])] at hf
    have hq : (0 : ℚ) < n₁ / len := by positivity
    obtain ⟨p1, p2⟩ := hprev _ hq
    rw [hf] at p1 p2
    refine ⟨⟨h1, h2, h3, p1, ?_⟩, ?_, fun _ => hf.symm, h5⟩
    · intro t ht0 ht
      calc t * f ≤ len * f := mul_le_mul_of_nonneg_right ht p1.le
        _ < len * (n₁ / len) := mul_lt_mul_of_pos_left p2 hlp
        _ = n₁ := by rw [mul_comm]; exact hmul
    · intro hs
      have hle1 : (n₁ : ℚ) * l ≤ len := by
        have hn₀ := hO hs
        have hfl := Int.floor_le (len * (1 / l))
        rw [← hn₀] at hfl
        have hcase : n₁ ≤ n₀ := by
          rcases h4 with h4 | h4
          · exact h4
          · exfalso
            have : (1 : Int) ≤ ⌊len * (1 / l)⌋ := by
              rw [Int.le_floor]; push_cast
              rw [mul_one_div, le_div_iff₀ hl]; linarith
            omega
        have : (n₁ : ℚ) ≤ len * (1 / l) := le_trans (by exact_mod_cast hcase) hfl
        rw [mul_one_div, le_div_iff₀ hl] at this
        exact this
      refine ⟨?_, fun _ => hle1⟩
      refine le_trans p2.le ?_
      rw [div_le_div_iff₀ hlp hl]
      linarith
  · rw [if_neg hle] at hf
    refine ⟨⟨h1, h2, h3, hf ▸ hf0, ?_⟩, fun _ => ⟨hf ▸ le_refl _, fun h => absurd h hle⟩,
      fun h => absurd h hle, h5⟩
    intro t ht0 ht
    rw [← hf, mul_one_div]
    have : t / l < 1 := by rw [div_lt_one hl]; linarith [not_le.1 hle]
    linarith

/-- The only ways in which one axis fails. -/
theorem axis_err {o : Options} {st : Strategy} {lim : Limit} {prev : ℚ → ℚ} {maxC : Int}
    {l len : ℚ} {e : Err} (h : axis o st lim prev maxC l len = .error e) :
    (e = .overflowError ∧ st = .optimal ∧ len > (2 ^ 31 - 1) / (1 / l)) ∨
      (e = .boxTooSmall ∧ o = .periodic ∧ st = .optimal ∧ ⌊len * (1 / l)⌋ < 2) := by
  unfold axis at h
  simp only [bind, Except.bind] at h
  cases hraw : rawCells st l len with
  | error e' =>
    rw [hraw] at h
    simp only [Except.error.injEq] at h
    subst h
    left
    unfold rawCells at hraw
    cases st with
    | largest => simp at hraw
    | optimal =>
      simp only [reduceCtorEq, if_false] at hraw
      split at hraw
      · rename_i hov
        simp only [Except.error.injEq] at hraw
        exact ⟨hraw.symm, rfl, hov⟩
      · cases hraw
  | ok n₀ =>
    rw [hraw] at h
    simp only at h
    cases hlim : limitCells o lim maxC n₀ with
    | ok n₁ => rw [hlim] at h; cases h
    | error e' =>
      rw [hlim] at h
      simp only [Except.error.injEq] at h
      subst h
      right
      unfold limitCells at hlim
      split at hlim
      · cases hlim
      split at hlim
      · rename_i c2
        simp only [Except.error.injEq] at hlim
        unfold rawCells at hraw
        cases st with
        | largest =>
          simp only [if_true, Except.ok.injEq] at hraw
          omega
        | optimal =>
          simp only [reduceCtorEq, if_false] at hraw
          split at hraw
          · cases hraw
          · simp only [Except.ok.injEq] at hraw
            subst hraw
            exact ⟨hlim.symm, c2.2, rfl, c2.1⟩
      · split at hlim <;> cases hlim

/-! ### Coordinates of a particle -/

/-- Cell coordinates of a position. -/
def coordOf (f lo : V3 ℚ) (p : Part) : V3 Int :=
  ⟨⌊(p.pos.x - lo.x) * f.x⌋, ⌊(p.pos.y - lo.y) * f.y⌋, ⌊(p.pos.z - lo.z) * f.z⌋⟩

/-- The particle lies in the box. -/
def InBox (lo len : V3 ℚ) (p : Part) : Prop :=
  (lo.x ≤ p.pos.x ∧ p.pos.x ≤ lo.x + len.x) ∧ (lo.y ≤ p.pos.y ∧ p.pos.y ≤ lo.y + len.y) ∧
    (lo.z ≤ p.pos.z ∧ p.pos.z ≤ lo.z + len.z)

theorem coord_inRange {o : Options} {l : ℚ} {n : V3 Int} {f lo len : V3 ℚ} {p : Part}
    (hx : AxisOk o l len.x n.x f.x) (hy : AxisOk o l len.y n.y f.y)
    (hz : AxisOk o l len.z n.z f.z) (hp : InBox lo len p) : InRange n (coordOf f lo p) := by
  have one : ∀ {a b c g : ℚ} {m : Int}, AxisOk o l b m g → a ≤ c → c ≤ a + b →
      0 ≤ ⌊(c - a) * g⌋ ∧ ⌊(c - a) * g⌋ < m := by
    intro a b c g m h h1 h2
    refine ⟨Int.floor_nonneg.2 (mul_nonneg (by linarith) h.f_pos.le), ?_⟩
    rw [Int.floor_lt]
    exact h.inside _ (by linarith) (by linarith)
  exact ⟨one hx hp.1.1 hp.1.2, one hy hp.2.1.1 hp.2.1.2, one hz hp.2.2.1 hp.2.2.2⟩

theorem cellIndexFor_ok {n : V3 Int} {f lo : V3 ℚ} {p : Part} (h : InRange n (coordOf f lo p))
    (hx : n.x < 2 ^ 31) (hy : n.y < 2 ^ 31) (hz : n.z < 2 ^ 31) :
    cellIndexFor n f lo p = .ok (makeIndex n (coordOf f lo p)) := by
  obtain ⟨h1, h2, h3⟩ := h
  unfold cellIndexFor toI32
  have a1 : -2 ^ 31 ≤ ⌊(p.pos.x - lo.x) * f.x⌋ ∧ ⌊(p.pos.x - lo.x) * f.x⌋ < 2 ^ 31 := by
    simp only [coordOf] at h1; omega
  have a2 : -2 ^ 31 ≤ ⌊(p.pos.y - lo.y) * f.y⌋ ∧ ⌊(p.pos.y - lo.y) * f.y⌋ < 2 ^ 31 := by
    simp only [coordOf] at h2; omega
  have a3 : -2 ^ 31 ≤ ⌊(p.pos.z - lo.z) * f.z⌋ ∧ ⌊(p.pos.z - lo.z) * f.z⌋ < 2 ^ 31 := by
    simp only [coordOf] at h3; omega
  rw [if_pos a1, if_pos a2, if_pos a3]
  rfl

/-- Is the particle put on the grid? -/
def included (incl : Bool) (p : Part) : Bool := incl || p.active

theorem place_ok {n : V3 Int} {f lo : V3 ℚ} {incl : Bool} (hx : n.x < 2 ^ 31)
    (hy : n.y < 2 ^ 31) (hz : n.z < 2 ^ 31) (ps : List Part)
    (hps : ∀ p ∈ ps, included incl p = true → InRange n (coordOf f lo p)) :
    ∀ cells : List (List Part), (cells.length : Int) = n.x * n.y * n.z →
    ∃ cells', place n f lo incl ps cells = .ok cells' ∧ cells'.length = cells.length ∧
      ∀ i : Nat, i < cells.length → cells'.getD i [] = cells.getD i [] ++ ps.filter (fun p =>
        included incl p && (makeIndex n (coordOf f lo p) == (i : Int))) := by
  induction ps with
  | nil => intro cells _; exact ⟨cells, rfl, rfl, by simp⟩
  | cons p ps ih =>
    intro cells hlen
    have hps' : ∀ q ∈ ps, included incl q = true → InRange n (coordOf f lo q) :=
      fun q hq => hps q (List.mem_cons_of_mem _ hq)
    unfold place
    by_cases hinc : included incl p = true
    · have hne : (!incl && !p.active) = false := by
        unfold included at hinc; revert hinc; cases incl <;> cases p.active <;> simp
      have hr := hps p List.mem_cons_self hinc
      have hb := makeIndex_range hr
      simp only [hne, Bool.false_eq_true, if_false, cellIndexFor_ok hr hx hy hz, bind, Except.bind]
      rw [if_pos ⟨hb.1, by rw [hlen]; exact hb.2⟩]
      obtain ⟨c', e, l', hc⟩ := ih hps'
        (cells.modify (makeIndex n (coordOf f lo p)).toNat (· ++ [p]))
        (by rw [List.length_modify]; exact hlen)
      refine ⟨c', e, by rw [l', List.length_modify], ?_⟩
      intro i hi
      rw [hc i (by rw [List.length_modify]; exact hi)]
      simp only [List.getD_eq_getElem?_getD, List.getElem?_modify, List.getElem?_eq_getElem hi,
        Option.map_some, Option.getD_some, List.filter_cons, hinc, Bool.true_and]
      by_cases hidx : makeIndex n (coordOf f lo p) = i
      · simp [hidx]
      · have : ¬ ((makeIndex n (coordOf f lo p)).toNat = i) := by omega
        simp [hidx, this]
    · have hinc' : included incl p = false := by simpa using hinc
      have hne : (!incl && !p.active) = true := by
        unfold included at hinc'; revert hinc'; cases incl <;> cases p.active <;> simp
      simp only [hne, if_true]
      obtain ⟨c', e, l', hc⟩ := ih hps' cells hlen
      refine ⟨c', e, l', ?_⟩
      intro i hi
      rw [hc i hi]
      simp [hinc']

/-! ### find_min_and_length -/

theorem foldl_min_le (get : Part → ℚ) (sel : V3 ℚ → ℚ) (g : V3 ℚ → Part → V3 ℚ)
    (hg : ∀ m p, sel (g m p) = min (sel m) (get p)) (ps : List Part) (m : V3 ℚ) :
    sel (ps.foldl g m) ≤ sel m ∧ ∀ p ∈ ps, sel (ps.foldl g m) ≤ get p := by
  induction ps generalizing m with
  | nil => exact ⟨le_refl _, by simp⟩
  | cons a ps ih =>
    obtain ⟨h1, h2⟩ := ih (g m a)
    rw [hg] at h1
    refine ⟨le_trans h1 (min_le_left _ _), ?_⟩
    intro p hp
    rcases List.mem_cons.1 hp with rfl | hp
    · exact le_trans h1 (min_le_right _ _)
    · exact h2 p hp

theorem le_foldl_max (get : Part → ℚ) (sel : V3 ℚ → ℚ) (g : V3 ℚ → Part → V3 ℚ)
    (hg : ∀ m p, sel (g m p) = max (sel m) (get p)) (ps : List Part) (m : V3 ℚ) :
    sel m ≤ sel (ps.foldl g m) ∧ ∀ p ∈ ps, get p ≤ sel (ps.foldl g m) := by
  induction ps generalizing m with
  | nil => exact ⟨le_refl _, by simp⟩
  | cons a ps ih =>
    obtain ⟨h1, h2⟩ := ih (g m a)
    rw [hg] at h1
    refine ⟨le_trans (le_max_left _ _) h1, ?_⟩
    intro p hp
    rcases List.mem_cons.1 hp with rfl | hp
    · exact le_trans (le_max_right _ _) h1
    · exact h2 p hp

theorem findMinAndLength_ok {ps : List Part} (h : ps ≠ []) :
    ∃ lo len, findMinAndLength ps = .ok (lo, len) ∧ (∀ p ∈ ps, InBox lo len p) ∧
      0 ≤ len.x ∧ 0 ≤ len.y ∧ 0 ≤ len.z := by
  cases ps with
  | nil => exact absurd rfl h
  | cons first rest =>
    refine ⟨_, _, rfl, ?_, ?_, ?_, ?_⟩
    · intro p hp
      have l1 := (foldl_min_le (·.pos.x) (·.x) (fun m p =>
        ⟨min m.x p.pos.x, min m.y p.pos.y, min m.z p.pos.z⟩) (fun _ _ => rfl)
        (first :: rest) first.pos).2 p hp
      have l2 := (foldl_min_le (·.pos.y) (·.y) (fun m p =>
        ⟨min m.x p.pos.x, min m.y p.pos.y, min m.z p.pos.z⟩) (fun _ _ => rfl)
        (first :: rest) first.pos).2 p hp
      have l3 := (foldl_min_le (·.pos.z) (·.z) (fun m p =>
        ⟨min m.x p.pos.x, min m.y p.pos.y, min m.z p.pos.z⟩) (fun _ _ => rfl)
        (first :: rest) first.pos).2 p hp
      have u1 := (le_foldl_max (·.pos.x) (·.x) (fun m p =>
        ⟨max m.x p.pos.x, max m.y p.pos.y, max m.z p.pos.z⟩) (fun _ _ => rfl)
        (first :: rest) first.pos).2 p hp
      have u2 := (le_foldl_max (·.pos.y) (·.y) (fun m p =>
        ⟨max m.x p.pos.x, max m.y p.pos.y, max m.z p.pos.z⟩) (fun _ _ => rfl)
        (first :: rest) first.pos).2 p hp
      have u3 := (le_foldl_max (·.pos.z) (·.z) (fun m p =>
        ⟨max m.x p.pos.x, max m.y p.pos.y, max m.z p.pos.z⟩) (fun _ _ => rfl)
        (first :: rest) first.pos).2 p hp
      exact ⟨⟨l1, by linarith⟩, ⟨l2, by linarith⟩, l3, by linarith⟩
    · have l := (foldl_min_le (·.pos.x) (·.x) (fun m p =>
        ⟨min m.x p.pos.x, min m.y p.pos.y, min m.z p.pos.z⟩) (fun _ _ => rfl)
        (first :: rest) first.pos).1
      have u := (le_foldl_max (·.pos.x) (·.x) (fun m p =>
        ⟨max m.x p.pos.x, max m.y p.pos.y, max m.z p.pos.z⟩) (fun _ _ => rfl)
        (first :: rest) first.pos).1
      linarith
    · have l := (foldl_min_le (·.pos.y) (·.y) (fun m p =>
        ⟨min m.x p.pos.x, min m.y p.pos.y, min m.z p.pos.z⟩) (fun _ _ => rfl)
        (first :: rest) first.pos).1
      have u := (le_foldl_max (·.pos.y) (·.y) (fun m p =>
        ⟨max m.x p.pos.x, max m.y p.pos.y, max m.z p.pos.z⟩) (fun _ _ => rfl)
        (first :: rest) first.pos).1
      linarith
    · have l := (foldl_min_le (·.pos.z) (·.z) (fun m p =>
        ⟨min m.x p.pos.x, min m.y p.pos.y, min m.z p.pos.z⟩) (fun _ _ => rfl)
        (first :: rest) first.pos).1
      have u := (le_foldl_max (·.pos.z) (·.z) (fun m p =>
        ⟨max m.x p.pos.x, max m.y p.pos.y, max m.z p.pos.z⟩) (fun _ _ => rfl)
        (first :: rest) first.pos).1
      linarith

theorem maxCells_pos {o : Options} {ps : List Part} (h : ps ≠ []) :
    1 ≤ maxCells o ps.length ∧ (o = .periodic → 2 ≤ maxCells o ps.length) := by
  have hlen : 1 ≤ ps.length := by
    cases ps with
    | nil => exact absurd rfl h
    | cons => simp
  have : 1 ≤ cbrtFloor ps.length := Nat.le_findGreatest hlen (by simpa using hlen)
  cases o <;> simp only [maxCells, reduceCtorEq, false_implies, and_true, true_implies] <;> omega

/-! ### Distances -/

theorem floor_close {l f t t' : ℚ} (hl : 0 < l) (hf : 0 < f) (hfl : f ≤ 1 / l)
    (h : |t' - t| < l) : -1 ≤ ⌊t' * f⌋ - ⌊t * f⌋ ∧ ⌊t' * f⌋ - ⌊t * f⌋ ≤ 1 := by
  have h1 : l * f ≤ 1 := by
    have := mul_le_mul_of_nonneg_left hfl hl.le
    rwa [mul_one_div_cancel (ne_of_gt hl)] at this
  rw [abs_lt] at h
  have a1 : (t' - t) * f < l * f := mul_lt_mul_of_pos_right h.2 hf
  have a2 : (-l) * f < (t' - t) * f := mul_lt_mul_of_pos_right h.1 hf
  have b1 := Int.floor_le (t' * f)
  have b2 := Int.lt_floor_add_one (t' * f)
  have c1 := Int.floor_le (t * f)
  have c2 := Int.lt_floor_add_one (t * f)
  constructor
  · have : (-2 : ℚ) < ⌊t' * f⌋ - ⌊t * f⌋ := by nlinarith
    have : (-2 : Int) < ⌊t' * f⌋ - ⌊t * f⌋ := by exact_mod_cast this
    omega
  · have : (⌊t' * f⌋ : ℚ) - ⌊t * f⌋ < 2 := by nlinarith
    have : ⌊t' * f⌋ - ⌊t * f⌋ < 2 := by exact_mod_cast this
    omega

/-- Closeness under periodic images; `δ` bounds the relative size of the safety margin. -/
theorem floor_close_periodic {l len f δ t t' : ℚ} {n k : Int} (hl : 0 < l) (hn : 2 ≤ n)
    (hnl : n * l ≤ len) (hf1 : (1 - δ) * (n / len) ≤ f) (hf2 : f < n / len) (hδ : 0 ≤ δ)
    (hf : 0 < f)
    (ht0 : 0 ≤ t) (ht : t ≤ len) (ht0' : 0 ≤ t') (ht' : t' ≤ len)
    (h : |t' - t - k * len| < l * (1 - n * δ)) :
    -1 ≤ ⌊t' * f⌋ - ⌊t * f⌋ - k * n ∧ ⌊t' * f⌋ - ⌊t * f⌋ - k * n ≤ 1 := by
  have hnq : (2 : ℚ) ≤ n := by exact_mod_cast hn
  have hnpos : (0 : ℚ) < n := by linarith
  have hlen : 0 < len := lt_of_lt_of_le (by positivity) hnl
  have hlen2 : 2 * l ≤ len := le_trans (mul_le_mul_of_nonneg_right hnq hl.le) hnl
  have hd1 : 0 < 1 - n * δ := by
    have : 0 < l * (1 - n * δ) := lt_of_le_of_lt (abs_nonneg _) h
    exact (mul_pos_iff_of_pos_left hl).1 this
  have hd2 : 1 - n * δ ≤ 1 := by nlinarith
  have hle : l * (1 - n * δ) ≤ l := by nlinarith
  have hflen1 : (1 - δ) * n ≤ f * len := by
    have := mul_le_mul_of_nonneg_right hf1 hlen.le
    rwa [mul_assoc, div_mul_cancel₀ _ (ne_of_gt hlen)] at this
  have hflen2 : f * len < n := by
    have := mul_lt_mul_of_pos_right hf2 hlen
    rwa [div_mul_cancel₀ _ (ne_of_gt hlen)] at this
  have hfl : f * l < 1 := by
    have h1 : f * (n * l) ≤ f * len := mul_le_mul_of_nonneg_left hnl hf.le
    have h2 : n * (f * l) < n * 1 := by nlinarith
    exact lt_of_mul_lt_mul_left h2 hnpos.le
  rw [abs_lt] at h
  have hk1 : k < 2 := by
    by_contra hk
    have hk' : (2 : ℚ) ≤ k := by exact_mod_cast not_lt.1 hk
    have : 2 * len ≤ k * len := mul_le_mul_of_nonneg_right hk' hlen.le
    linarith [h.1]
  have hk2 : -2 < k := by
    by_contra hk
    have hk' : (k : ℚ) ≤ -2 := by exact_mod_cast not_lt.1 hk
    have : k * len ≤ (-2) * len := mul_le_mul_of_nonneg_right hk' hlen.le
    linarith [h.2]
  have b1 := Int.floor_le (t' * f)
  have b2 := Int.lt_floor_add_one (t' * f)
  have c1 := Int.floor_le (t * f)
  have c2 := Int.lt_floor_add_one (t * f)
  have b0 : 0 ≤ ⌊t' * f⌋ := Int.floor_nonneg.2 (mul_nonneg ht0' hf.le)
  have c0 : 0 ≤ ⌊t * f⌋ := Int.floor_nonneg.2 (mul_nonneg ht0 hf.le)
  have bn : ⌊t' * f⌋ < n := by
    rw [Int.floor_lt]
    exact lt_of_le_of_lt (by rw [mul_comm f]; exact mul_le_mul_of_nonneg_right ht' hf.le) hflen2
  have cn : ⌊t * f⌋ < n := by
    rw [Int.floor_lt]
    exact lt_of_le_of_lt (by rw [mul_comm f]; exact mul_le_mul_of_nonneg_right ht hf.le) hflen2
  have hcase : k = 0 ∨ k = -1 ∨ k = 1 := by omega
  have hprod : f * (l * (1 - n * δ)) ≤ 1 - n * δ := by
    have : f * l * (1 - n * δ) ≤ 1 * (1 - n * δ) := mul_le_mul_of_nonneg_right hfl.le hd1.le
    linarith
  rcases hcase with rfl | rfl | rfl
  · have hfl' : f ≤ 1 / l := by rw [le_div_iff₀ hl]; exact hfl.le
    have := floor_close (t := t) (t' := t') hl hf hfl'
      (by rw [abs_lt]; push_cast at h; constructor <;> linarith [h.1, h.2])
    simpa using this
  · refine ⟨by omega, ?_⟩
    have e : (t' - t + len) * f < l * (1 - n * δ) * f := by
      apply mul_lt_mul_of_pos_right _ hf
      push_cast at h; linarith [h.2]
    have : (⌊t' * f⌋ : ℚ) - ⌊t * f⌋ < 2 - n := by nlinarith
    have : ⌊t' * f⌋ - ⌊t * f⌋ < 2 - n := by exact_mod_cast this
    omega
  · refine ⟨?_, by omega⟩
    have e : (t - t' + len) * f < l * (1 - n * δ) * f := by
      apply mul_lt_mul_of_pos_right _ hf
      push_cast at h; linarith [h.1]
    have : (⌊t * f⌋ : ℚ) - ⌊t' * f⌋ < 2 - n := by nlinarith
    have : ⌊t * f⌋ - ⌊t' * f⌋ < 2 - n := by exact_mod_cast this
    omega

end Verif.Grid
