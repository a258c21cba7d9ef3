import Verif.Cg.Model
import Mathlib.Analysis.Real.Sqrt
import Mathlib.Tactic.Linarith
import Mathlib.Tactic.NormNum
import Mathlib.Tactic.SplitIfs
/-! C39: isospin couplings. -/
namespace Verif.Cg

/-! ### Specification: Racah's formula -/

/-- The selection rules (doubled quantum numbers): components within range and of the right parity,
`m1 + m2 = m3`, and the triangle rule. -/
def Allowed (k : Key) : Prop :=
  0 ≤ k.j1 ∧ 0 ≤ k.j2 ∧ 0 ≤ k.j3 ∧ -k.j1 ≤ k.m1 ∧ k.m1 ≤ k.j1 ∧ -k.j2 ≤ k.m2 ∧ k.m2 ≤ k.j2 ∧
  -k.j3 ≤ k.m3 ∧ k.m3 ≤ k.j3 ∧
  (k.j1 + k.m1) % 2 = 0 ∧ (k.j2 + k.m2) % 2 = 0 ∧ (k.j3 + k.m3) % 2 = 0 ∧ k.m1 + k.m2 = k.m3 ∧
  (k.j1 + k.j2 + k.j3) % 2 = 0 ∧
  k.j3 ≤ k.j1 + k.j2 ∧ k.j1 ≤ k.j2 + k.j3 ∧ k.j2 ≤ k.j1 + k.j3

instance (k : Key) : Decidable (Allowed k) := by unfold Allowed; infer_instance

/-- Factorial of half an integer argument. -/
def hfac (x : Int) : ℚ := (x / 2).toNat.factorial

/-- The factor under the square root. -/
def pref (k : Key) : ℚ :=
  (k.j3 + 1) * (hfac (k.j1 + k.j2 - k.j3) * hfac (k.j1 - k.j2 + k.j3) * hfac (-k.j1 + k.j2 + k.j3)
    / hfac (k.j1 + k.j2 + k.j3 + 2)) *
  (hfac (k.j3 + k.m3) * hfac (k.j3 - k.m3) * hfac (k.j1 + k.m1) * hfac (k.j1 - k.m1) *
    hfac (k.j2 + k.m2) * hfac (k.j2 - k.m2))

/-- The summand of Racah's formula; zero if one of the factorials has a negative argument. -/
def term (k : Key) (n : Nat) : ℚ :=
  let a := k.j1 + k.j2 - k.j3 - 2 * n
  let b := k.j1 - k.m1 - 2 * n
  let c := k.j2 + k.m2 - 2 * n
  let d := k.j3 - k.j2 + k.m1 + 2 * n
  let e := k.j3 - k.j1 - k.m2 + 2 * n
  if 0 ≤ a ∧ 0 ≤ b ∧ 0 ≤ c ∧ 0 ≤ d ∧ 0 ≤ e then
    (-1) ^ n / (n.factorial * hfac a * hfac b * hfac c * hfac d * hfac e)
  else 0

/-- The sum of Racah's formula. -/
def racah (k : Key) : ℚ := ((List.range ((k.j1 + k.j2).toNat + 1)).map (term k)).sum

/-- The Clebsch-Gordan coefficient `⟨j1 m1 j2 m2 | j3 m3⟩`. -/
noncomputable def CG (k : Key) : ℝ :=
  if Allowed k then Real.sqrt (pref k : ℝ) * (racah k : ℝ) else 0

/-! ### The table -/

/-- The value of a table entry. -/
def val (v : Int) : ℚ := v / 10 ^ 17

/-- What is checked for each entry, in rational arithmetic. -/
def entryOk (e : Key × Int) : Bool :=
  decide (Allowed e.1) && decide (0 ≤ pref e.1) && decide (0 < val e.2 * racah e.1) &&
  decide (|val e.2 ^ 2 - pref e.1 * racah e.1 ^ 2| ≤ 1 / 10 ^ 15 * |val e.2|)

theorem table_ok : table.all entryOk = true := by decide +kernel

theorem close_of_squares (v P S ε : ℝ) (hP : 0 ≤ P) (hs : 0 < v * S) (_hε : 0 ≤ ε)
    (h : |v ^ 2 - P * S ^ 2| ≤ ε * |v|) : |v - Real.sqrt P * S| ≤ ε := by
  have hx : (Real.sqrt P * S) ^ 2 = P * S ^ 2 := by rw [mul_pow, Real.sq_sqrt hP]
  have hv : v ≠ 0 := fun e => by rw [e, zero_mul] at hs; exact lt_irrefl _ hs
  have hvpos : 0 < |v| := abs_pos.2 hv
  have hsum : |v| ≤ |v + Real.sqrt P * S| := by
    have h0 := Real.sqrt_nonneg P
    rcases lt_or_gt_of_ne hv with hneg | hpos
    · have hS : S < 0 := by
        by_contra hc
        nlinarith
      have : Real.sqrt P * S ≤ 0 := mul_nonpos_of_nonneg_of_nonpos h0 hS.le
      rw [abs_of_neg hneg, abs_of_neg (by linarith)]; linarith
    · have hS : 0 < S := by
        by_contra hc
        nlinarith
      have : 0 ≤ Real.sqrt P * S := mul_nonneg h0 hS.le
      rw [abs_of_pos hpos, abs_of_nonneg (by linarith)]; linarith
  have hfac : |v - Real.sqrt P * S| * |v + Real.sqrt P * S| ≤ ε * |v| := by
    rw [← abs_mul, show (v - Real.sqrt P * S) * (v + Real.sqrt P * S) = v ^ 2 - (Real.sqrt P * S) ^ 2 by ring,
      hx]
    exact h
  have : |v - Real.sqrt P * S| * |v| ≤ ε * |v| :=
    (mul_le_mul_of_nonneg_left hsum (abs_nonneg _)).trans hfac
  exact le_of_mul_le_mul_right this hvpos

/-- **C39** (table entries): every entry of the built-in table is the Clebsch-Gordan coefficient of its
arguments up to `10⁻¹⁵`. -/
theorem C39_table (k : Key) (v : Int) (h : (k, v) ∈ table) :
    Allowed k ∧ |(v : ℝ) / 10 ^ 17 - CG k| ≤ 1 / 10 ^ 15 := by
  have hk := List.all_eq_true.1 table_ok (k, v) h
  unfold entryOk at hk
  simp only [Bool.and_eq_true, decide_eq_true_eq] at hk
  obtain ⟨⟨⟨h1, h2⟩, h3⟩, h4⟩ := hk
  refine ⟨h1, ?_⟩
  unfold CG
  rw [if_pos h1]
  have e : ((val v : ℚ) : ℝ) = (v : ℝ) / 10 ^ 17 := by unfold val; push_cast; rfl
  rw [← e]
  refine close_of_squares _ _ _ _ (by exact_mod_cast h2) (by exact_mod_cast h3) (by norm_num) ?_
  have := (Rat.cast_le (K := ℝ)).2 h4
  push_cast at this ⊢
  exact this

/-- All quantum numbers with both isospins up to 3/2 that satisfy the selection rules. -/
def smallKeys : List Key :=
  (List.range 4).flatMap fun (j1 : Nat) => (List.range 4).flatMap fun (j2 : Nat) =>
    (List.range 7).flatMap fun (j3 : Nat) => (List.range 7).flatMap fun (a : Nat) =>
    (List.range 7).flatMap fun (b : Nat) =>
      let k : Key := ⟨j1, j2, j3, (a : Int) - 3, (b : Int) - 3, (a : Int) - 3 + ((b : Int) - 3)⟩
      if Allowed k then [k] else []

theorem mem_smallKeys (k : Key) (h : Allowed k) (h1 : k.j1 ≤ 3) (h2 : k.j2 ≤ 3) : k ∈ smallKeys := by
  obtain ⟨j1, j2, j3, m1, m2, m3⟩ := k
  unfold Allowed at h
  simp only at h h1 h2
  unfold smallKeys
  simp only [List.mem_flatMap, List.mem_range]
  refine ⟨j1.toNat, by omega, j2.toNat, by omega, j3.toNat, by omega, (m1 + 3).toNat, by omega,
    (m2 + 3).toNat, by omega, ?_⟩
  have e1 : ((j1.toNat : Nat) : Int) = j1 := by omega
  have e2 : ((j2.toNat : Nat) : Int) = j2 := by omega
  have e3 : ((j3.toNat : Nat) : Int) = j3 := by omega
  have e4 : (((m1 + 3).toNat : Nat) : Int) - 3 = m1 := by omega
  have e5 : (((m2 + 3).toNat : Nat) : Int) - 3 = m2 := by omega
  have e6 : m1 + m2 = m3 := by omega
  rw [e1, e2, e3, e4, e5, e6]
  rw [if_pos (by unfold Allowed; exact h)]
  simp

theorem small_ok : (smallKeys.all fun k => (table.map Prod.fst).contains k || decide (racah k = 0)) = true := by
  decide +kernel

/-- **C39** (completeness): a non-zero coefficient with both isospins up to 3/2 is in the table. -/
theorem C39_complete (k : Key) (h1 : k.j1 ≤ 3) (h2 : k.j2 ≤ 3) (hne : CG k ≠ 0) :
    ∃ v, (k, v) ∈ table := by
  unfold CG at hne
  split_ifs at hne with ha
  · have := List.all_eq_true.1 small_ok k (mem_smallKeys k ha h1 h2)
    rw [Bool.or_eq_true] at this
    rcases this with h | h
    · obtain ⟨e, he, hk⟩ := List.mem_map.1 (List.contains_iff_mem.1 h)
      exact ⟨e.2, by rw [← hk]; exact he⟩
    · have h0 := of_decide_eq_true h
      rw [h0] at hne
      simp at hne
  · exact absurd rfl hne

/-- No key occurs twice, so that the initialiser of the map keeps every entry. -/
theorem C39_no_duplicates : (table.map Prod.fst).Nodup := by decide +kernel

/-- The hash of keys in the asserted range is injective. -/
theorem C39_hash_injective (k k' : Key)
    (h : 0 ≤ k.j1 ∧ k.j1 < 16 ∧ 0 ≤ k.j2 ∧ k.j2 < 16 ∧ 0 ≤ k.j3 ∧ k.j3 < 16 ∧
      -16 < k.m1 ∧ k.m1 < 16 ∧ -16 < k.m2 ∧ k.m2 < 16 ∧ -16 < k.m3 ∧ k.m3 < 16)
    (h' : 0 ≤ k'.j1 ∧ k'.j1 < 16 ∧ 0 ≤ k'.j2 ∧ k'.j2 < 16 ∧ 0 ≤ k'.j3 ∧ k'.j3 < 16 ∧
      -16 < k'.m1 ∧ k'.m1 < 16 ∧ -16 < k'.m2 ∧ k'.m2 < 16 ∧ -16 < k'.m3 ∧ k'.m3 < 16)
    (e : hash k = hash k') : k = k' := by
  obtain ⟨a1, a2, a3, a4, a5, a6⟩ := k
  obtain ⟨b1, b2, b3, b4, b5, b6⟩ := k'
  unfold hash at e
  simp only at h h' e
  have key (x : Int) (r : Nat) (hr : r ≤ 59) (c : Nat) (hc : c = 2 ^ r) :
      ((x % 2 ^ 64).toNat * 2 ^ 59 % 2 ^ 64) / 2 ^ (59 - r) = (x % 32).toNat * c := by
    have e1 : (x % 2 ^ 64).toNat * 2 ^ 59 % 2 ^ 64 = (x % 32).toNat * 2 ^ 59 := by
      have : (2 : Nat) ^ 64 = 32 * 2 ^ 59 := by norm_num
      rw [this, Nat.mul_mod_mul_right]
      have : (x % 2 ^ 64).toNat % 32 = (x % 32).toNat := by omega
      rw [this]
    have e2 : (2 : Nat) ^ 59 = c * 2 ^ (59 - r) := by rw [hc, ← pow_add]; congr 1; omega
    rw [e1, e2, ← mul_assoc, Nat.mul_div_cancel _ (by positivity)]
  rw [key a1 25 (by omega) 33554432 (by norm_num), key a2 20 (by omega) 1048576 (by norm_num),
    key a3 15 (by omega) 32768 (by norm_num), key a4 10 (by omega) 1024 (by norm_num),
    key a5 5 (by omega) 32 (by norm_num), key a6 0 (by omega) 1 (by norm_num),
    key b1 25 (by omega) 33554432 (by norm_num), key b2 20 (by omega) 1048576 (by norm_num),
    key b3 15 (by omega) 32768 (by norm_num), key b4 10 (by omega) 1024 (by norm_num),
    key b5 5 (by omega) 32 (by norm_num), key b6 0 (by omega) 1 (by norm_num)] at e
  clear key
  have b32 (x : Int) : (x % 32).toNat < 32 := by omega
  have inj (x y : Int) (hx : -16 < x ∧ x < 16) (hy : -16 < y ∧ y < 16)
      (hxy : (x % 32).toNat = (y % 32).toNat) : x = y := by omega
  have dig (a b c d : Nat) (hb : b < 32) (hd : d < 32) (h : a * 32 + b = c * 32 + d) : a = c ∧ b = d := by
    omega
  have f1 := inj a1 b1 (by omega) (by omega)
  have f2 := inj a2 b2 (by omega) (by omega)
  have f3 := inj a3 b3 (by omega) (by omega)
  have f4 := inj a4 b4 (by omega) (by omega)
  have f5 := inj a5 b5 (by omega) (by omega)
  have f6 := inj a6 b6 (by omega) (by omega)
  have c1 := b32 a1
  have c2 := b32 a2
  have c3 := b32 a3
  have c4 := b32 a4
  have c5 := b32 a5
  have c6 := b32 a6
  have d1 := b32 b1
  have d2 := b32 b2
  have d3 := b32 b3
  have d4 := b32 b4
  have d5 := b32 b5
  have d6 := b32 b6
  clear h h' inj b32
  generalize (a1 % 32).toNat = u1 at *
  generalize (a2 % 32).toNat = u2 at *
  generalize (a3 % 32).toNat = u3 at *
  generalize (a4 % 32).toNat = u4 at *
  generalize (a5 % 32).toNat = u5 at *
  generalize (a6 % 32).toNat = u6 at *
  generalize (b1 % 32).toNat = v1 at *
  generalize (b2 % 32).toNat = v2 at *
  generalize (b3 % 32).toNat = v3 at *
  generalize (b4 % 32).toNat = v4 at *
  generalize (b5 % 32).toNat = v5 at *
  generalize (b6 % 32).toNat = v6 at *
  rw [Nat.mod_eq_of_lt (by omega), Nat.mod_eq_of_lt (by omega)] at e
  obtain ⟨e, g6⟩ := dig ((((u1 * 32 + u2) * 32 + u3) * 32 + u4) * 32 + u5) u6
    ((((v1 * 32 + v2) * 32 + v3) * 32 + v4) * 32 + v5) v6 c6 d6 (by linarith)
  obtain ⟨e, g5⟩ := dig _ _ _ _ c5 d5 e
  obtain ⟨e, g4⟩ := dig _ _ _ _ c4 d4 e
  obtain ⟨e, g3⟩ := dig _ _ _ _ c3 d3 e
  obtain ⟨g1, g2⟩ := dig _ _ _ _ c2 d2 e
  rw [f1 g1, f2 g2, f3 g3, f4 g4, f5 g5, f6 g6]

/-! ### Memoisation -/

/-- A sequence of calls; the results. -/
def calls {α : Type} (compute : Key → α) : List (Key × α) → List Key → List α
  | _, [] => []
  | tab, k :: ks => let r := coefficient compute tab k; r.2 :: calls compute r.1 ks

/-- **C39** (look-up): in every history of calls, each call returns the value of the built-in table if
the key is in it and the calculated value otherwise, whatever was asked before. -/
theorem C39_memo {α : Type} (compute : Key → α) (tab : List (Key × α)) (ks : List Key) :
    calls compute tab ks = ks.map fun k => (tab.lookup k).getD (compute k) := by
  suffices h : ∀ ext : List (Key × α), (∀ e ∈ ext, tab.lookup e.1 = none ∧ e.2 = compute e.1) →
      calls compute (ext ++ tab) ks = ks.map fun k => (tab.lookup k).getD (compute k) by
    simpa using h [] (by simp)
  induction ks with
  | nil => intro _ _; rfl
  | cons k ks ih =>
    intro ext hext
    rw [calls, List.map_cons]
    unfold coefficient
    have look : ∀ ext : List (Key × α), (∀ e ∈ ext, tab.lookup e.1 = none ∧ e.2 = compute e.1) →
        (ext ++ tab).lookup k = (if k ∈ ext.map Prod.fst then some (compute k) else tab.lookup k) := by
      intro ext
      induction ext with
      | nil => intro _; simp
      | cons e ext ihe =>
        intro he
        obtain ⟨ek, ev⟩ := e
        rw [List.cons_append, List.lookup_cons]
        by_cases hk : k = ek
        · subst hk
          have := (he (k, ev) (by simp)).2
          try simp only at this
          simp [this]
        · have : (k == ek) = false := by simpa using hk
          rw [this]
          dsimp only
          rw [ihe (fun e h => he e (by simp [h]))]
          have : (k ∈ List.map Prod.fst ((ek, ev) :: ext)) ↔ k ∈ List.map Prod.fst ext := by
            rw [List.map_cons, List.mem_cons]
            exact ⟨fun h => h.resolve_left hk, Or.inr⟩
          by_cases hm : k ∈ List.map Prod.fst ext
          · rw [if_pos hm, if_pos (this.2 hm)]
          · rw [if_neg hm, if_neg (fun h => hm (this.1 h))]
    rw [look ext hext]
    by_cases hk : k ∈ ext.map Prod.fst
    · rw [if_pos hk]
      simp only
      obtain ⟨e, he, hek⟩ := List.mem_map.1 hk
      have := (hext e he).1
      rw [hek] at this
      rw [ih ext hext, this]; rfl
    · rw [if_neg hk]
      cases ht : tab.lookup k with
      | some v => simp only; rw [ih ext hext]; rfl
      | none =>
        simp only
        have := ih ((k, compute k) :: ext) (by
          intro e he
          rcases List.mem_cons.1 he with h | h
          · subst h; exact ⟨ht, rfl⟩
          · exact hext e h)
        rw [List.cons_append] at this
        rw [this]; rfl

/-- **C39** (calculated values): for an allowed coupling, if the 3j symbol is the exact one, i.e.
`(-1)^((j1 - j2 + m3)/2) √(j3 + 1) · 3j = CG`, then the calculated value is the Clebsch-Gordan
coefficient, except for values the code replaces by zero. -/
theorem C39_calculate (w3j : Key → ℝ) (k : Key) (ha : Allowed k)
    (hw : CG k = (if (k.j1 - k.j2 + k.m3) / 2 % 2 = 0 then 1 else -1) *
      (Real.sqrt (k.j3 + 1) * w3j ⟨k.j1, k.j2, k.j3, k.m1, k.m2, -k.m3⟩)) :
    calculate w3j (fun x => decide (|x| < 1 / 1000000)) (fun n x => Real.sqrt n * x) k =
      if |w3j ⟨k.j1, k.j2, k.j3, k.m1, k.m2, -k.m3⟩| < 1 / 1000000 then 0 else CG k := by
  unfold calculate
  simp only [decide_eq_true_eq]
  by_cases hs : |w3j ⟨k.j1, k.j2, k.j3, k.m1, k.m2, -k.m3⟩| < 1 / 1000000
  · rw [if_pos hs, if_pos hs]
  · rw [if_neg hs, if_neg hs, hw]
    unfold Allowed at ha
    have hdiv : Int.tdiv (k.j1 - k.j2 + k.m3) 2 = (k.j1 - k.j2 + k.m3) / 2 := by
      have : (k.j1 - k.j2 + k.m3) % 2 = 0 := by omega
      exact Int.tdiv_eq_ediv_of_dvd (Int.dvd_of_emod_eq_zero this)
    unfold phase
    simp only [hdiv]
    generalize (k.j1 - k.j2 + k.m3) / 2 = j
    by_cases hj : j % 2 = 0
    · have h2 : Int.tmod j 2 = 0 := Int.dvd_iff_tmod_eq_zero.1 (Int.dvd_of_emod_eq_zero hj)
      rw [if_pos hj, if_pos (by rw [if_pos h2]; norm_num)]
      push_cast; ring
    · have h2 : ¬Int.tmod j 2 = 0 := fun h => hj (Int.emod_eq_zero_of_dvd (Int.dvd_iff_tmod_eq_zero.2 h))
      rw [if_neg hj, if_neg (by rw [if_neg h2]; norm_num)]
      push_cast; ring

/-! ### Sums over isospin -/

/-- Specification: two isospins can couple to a third one (doubled). -/
def Couple (a b c : Int) : Prop := |a - b| ≤ c ∧ c ≤ a + b ∧ (a + b + c) % 2 = 0

theorem mem_possible (a b : Iso) (x : Int) (ha : 0 ≤ a.i) (hb : 0 ≤ b.i) :
    x ∈ possibleIab a b ↔ |a.i - b.i| ≤ x ∧ x ≤ a.i + b.i := by
  unfold possibleIab
  simp only [List.mem_map, List.mem_range, Int.abs_eq_natAbs]
  constructor
  · rintro ⟨n, h1, rfl⟩; omega
  · intro h; exact ⟨(x - (a.i - b.i).natAbs).toNat, by omega, by omega⟩

/-- **C39** (three-body): the three-body coupling is computed exactly if there is exactly one
intermediate isospin `Iab` to which `a` and `b` can couple and which couples with `c` to the isospin of
the resonance; otherwise an exception is thrown. (The isospins of the four particles must add up to
an integer, otherwise no coupling is possible at all.) -/
theorem C39_three_body_unique {α : Type} [Mul α] (cg : Key → α) (a b c res : Iso)
    (h0 : 0 ≤ a.i ∧ 0 ≤ b.i ∧ 0 ≤ c.i ∧ 0 ≤ res.i) (hp : (a.i + b.i + c.i + res.i) % 2 = 0) :
    ((sqr3to1 cg a b c res).isSome ↔ ∃! x, Couple a.i b.i x ∧ Couple x c.i res.i) ∧
    ∀ x, Couple a.i b.i x → Couple x c.i res.i → (sqr3to1 cg a b c res).isSome →
      let y := cg ⟨x, c.i, res.i, a.i3 + b.i3, c.i3, res.i3⟩ * cg ⟨a.i, b.i, x, a.i3, b.i3, a.i3 + b.i3⟩
      sqr3to1 cg a b c res = some (y * y) := by
  have hmem (x : Int) : x ∈ allowedIab a b c res ↔
      (|a.i - b.i| ≤ x ∧ x ≤ a.i + b.i) ∧ |x - c.i| ≤ res.i ∧ res.i ≤ x + c.i := by
    unfold allowedIab
    rw [List.mem_filter, mem_possible a b x h0.1 h0.2.1]
    simp
  have hnd : (allowedIab a b c res).Nodup := by
    unfold allowedIab possibleIab
    refine List.Nodup.filter _ (List.Nodup.map ?_ List.nodup_range)
    intro m n h
    simp only at h
    omega
  have hcouple (x : Int) : Couple a.i b.i x ∧ Couple x c.i res.i ↔
      x ∈ allowedIab a b c res ∧ (a.i + b.i + x) % 2 = 0 := by
    rw [hmem]
    unfold Couple
    simp only [Int.abs_eq_natAbs]
    omega
  constructor
  · constructor
    · intro h
      unfold sqr3to1 at h
      split at h
      · rename_i iab hl
        have hm : ∀ x, x ∈ allowedIab a b c res ↔ x = iab := by intro x; rw [hl]; simp
        -- the smallest member has the right parity
        have hmin : max |a.i - b.i| (max (res.i - c.i) (c.i - res.i)) ∈ allowedIab a b c res := by
          have h1 := (hmem iab).1 ((hm iab).2 rfl)
          rw [hmem]
          simp only [Int.abs_eq_natAbs] at *
          omega
        have hpar : (a.i + b.i + iab) % 2 = 0 := by
          have := (hm _).1 hmin
          simp only [Int.abs_eq_natAbs] at this
          omega
        refine ⟨iab, (hcouple iab).2 ⟨(hm iab).2 rfl, hpar⟩, ?_⟩
        intro y hy
        exact (hm y).1 ((hcouple y).1 hy).1
      · cases h
    · rintro ⟨x, hx, hu⟩
      have h1 := (hcouple x).1 hx
      have hall : ∀ y ∈ allowedIab a b c res, y = x := by
        intro y hy
        by_contra hne
        have hy' := (hmem y).1 hy
        have hx' := (hmem x).1 h1.1
        -- one of the neighbours in steps of two is another solution
        have hz : ∃ z, z ≠ x ∧ z ∈ allowedIab a b c res ∧ (a.i + b.i + z) % 2 = 0 := by
          rcases lt_or_gt_of_ne hne with hlt | hgt
          · refine ⟨x - 2, by omega, ?_, by omega⟩
            rw [hmem]; simp only [Int.abs_eq_natAbs] at *; omega
          · refine ⟨x + 2, by omega, ?_, by omega⟩
            rw [hmem]; simp only [Int.abs_eq_natAbs] at *; omega
        obtain ⟨z, z1, z2, z3⟩ := hz
        exact z1 (hu z ((hcouple z).2 ⟨z2, z3⟩))
      have hlist : allowedIab a b c res = [x] := by
        cases hl : allowedIab a b c res with
        | nil => rw [hl] at h1; simp at h1
        | cons y ys =>
          rw [hl] at hall hnd
          have := hall y (by simp)
          subst this
          cases ys with
          | nil => rfl
          | cons z zs =>
            have := hall z (by simp)
            subst this
            simp at hnd
      unfold sqr3to1
      rw [hlist]
      rfl
  · intro x hx hx' hsome
    unfold sqr3to1 at hsome ⊢
    split at hsome
    · rename_i iab hl
      have := ((hcouple x).1 ⟨hx, hx'⟩).1
      rw [hl, List.mem_singleton] at this
      subst this
      rfl
    · cases hsome

theorem iterate_spec (lo : Int) (n fuel : Nat) (hf : n < fuel) :
    iterate fuel (lo - 2) (lo - 2 + 2 * n) =
      some ((List.range n).map fun (i : Nat) => lo - 2 + 2 * n - 2 * i) := by
  induction n generalizing fuel with
  | zero =>
    obtain ⟨f, rfl⟩ : ∃ f, fuel = f + 1 := ⟨fuel - 1, by omega⟩
    rw [iterate, if_pos (by simp)]; rfl
  | succ n ih =>
    obtain ⟨f, rfl⟩ : ∃ f, fuel = f + 1 := ⟨fuel - 1, by omega⟩
    rw [iterate, if_neg (by push_cast; omega)]
    have e : lo - 2 + 2 * ((n + 1 : Nat) : Int) - 2 = lo - 2 + 2 * n := by push_cast; ring
    rw [e, ih f (by omega), List.range_succ_eq_map, List.map_cons, List.map_map]
    simp only [Option.map_some, Option.some.injEq, List.cons.injEq]
    refine ⟨by push_cast; ring, ?_⟩
    apply List.map_congr_left
    intro i _
    simp only [Function.comp]
    push_cast; ring

/-- A range whose ends have the same parity is iterated completely; the number of steps is finite. -/
theorem iterRange_mem (r : Int × Int) (hpar : r.1 ≤ r.2 → (r.2 - r.1) % 2 = 0) (fuel : Nat)
    (hf : r.2 - r.1 + 4 ≤ 2 * fuel) (hf1 : 1 ≤ fuel) :
    ∃ l, iterRange fuel r = some l ∧ l.Nodup ∧ ∀ x, x ∈ l ↔ r.1 ≤ x ∧ x ≤ r.2 ∧ (r.2 - x) % 2 = 0 := by
  obtain ⟨lo, hi⟩ := r
  simp only at *
  unfold iterRange
  simp only
  by_cases h : lo > hi
  · rw [if_pos h]
    obtain ⟨f, rfl⟩ : ∃ f, fuel = f + 1 := ⟨fuel - 1, by omega⟩
    rw [iterate, if_pos rfl]
    refine ⟨[], rfl, by simp, ?_⟩
    intro x
    simp only [List.not_mem_nil, false_iff]
    omega
  · rw [if_neg h]
    have hp := hpar (by omega)
    have e : hi = lo - 2 + 2 * (((hi - lo + 2) / 2).toNat : Int) := by omega
    have hs := iterate_spec lo ((hi - lo + 2) / 2).toNat fuel (by omega)
    rw [← e] at hs
    refine ⟨_, hs, ?_, ?_⟩
    · refine List.Nodup.map ?_ List.nodup_range
      intro m n hmn
      simp only at hmn
      omega
    · intro x
      simp only [List.mem_map, List.mem_range]
      constructor
      · rintro ⟨i, h1, rfl⟩; omega
      · rintro ⟨h1, h2, h3⟩
        exact ⟨((hi - x) / 2).toNat, by omega, by omega⟩

/-- Physical particles: the component is within the isospin and of the same parity. -/
def Phys (p : Iso) : Prop := 0 ≤ p.i ∧ -p.i ≤ p.i3 ∧ p.i3 ≤ p.i ∧ (p.i + p.i3) % 2 = 0

/-- **C39** (total isospins): the loop over the total isospin of a 2-to-2 reaction of physical particles
ends, and visits each total isospin exactly once that both pairs can couple to with the common third
component; none if the third components differ. -/
theorem C39_total_isospins (a b c d : Iso) (ha : Phys a) (hb : Phys b) (hc : Phys c) (hd : Phys d) :
    ∃ l, iterRange (a.i + b.i + c.i + d.i + 4).toNat (range4 a b c d) = some l ∧ l.Nodup ∧
      ∀ x, x ∈ l ↔ a.i3 + b.i3 = c.i3 + d.i3 ∧ Couple a.i b.i x ∧ Couple c.i d.i x ∧ |a.i3 + b.i3| ≤ x := by
  unfold Phys at ha hb hc hd
  have q (x : Int) : (|x| - x) % 2 = 0 ∧ 0 ≤ |x| := by simp only [Int.abs_eq_natAbs]; omega
  have q1 := q (a.i - b.i)
  have q2 := q (c.i - d.i)
  have q3 := q (a.i3 + b.i3)
  unfold range4 Couple
  simp only
  generalize |a.i - b.i| = A at *
  generalize |c.i - d.i| = B at *
  generalize |a.i3 + b.i3| = C at *
  clear q
  by_cases h : a.i3 + b.i3 = c.i3 + d.i3
  · rw [if_neg (not_not.2 h)]
    obtain ⟨l, h1, h2, h3⟩ := iterRange_mem (max (max A B) C, min (a.i + b.i) (c.i + d.i))
      (by simp only; omega) (a.i + b.i + c.i + d.i + 4).toNat (by simp only; omega) (by omega)
    refine ⟨l, h1, h2, ?_⟩
    intro x
    rw [h3]
    simp only [max_le_iff, le_min_iff]
    rcases le_total (a.i + b.i) (c.i + d.i) with hm | hm
    · rw [min_eq_left hm]; omega
    · rw [min_eq_right hm]; omega
  · rw [if_pos h]
    obtain ⟨l, h1, h2, h3⟩ := iterRange_mem (1, 0)
      (by simp) (a.i + b.i + c.i + d.i + 4).toNat (by simp only; omega) (by omega)
    refine ⟨l, h1, h2, ?_⟩
    intro x
    rw [h3]
    simp only
    omega

/-- **C39** (symmetry): the isospin factor of a 2-to-2 reaction equals that of the reversed reaction. -/
theorem C39_reversible {α : Type} [CommRing α] (cg : Key → α) (fuel : Nat) (a b c d : Iso) (I : Int) :
    sqr2to2 fuel cg a b c d I = sqr2to2 fuel cg c d a b I := by
  by_cases hz : a.i3 + b.i3 = c.i3 + d.i3
  · unfold sqr2to2
    have hr : range4 a b c d = range4 c d a b := by
      unfold range4
      simp only
      rw [if_neg (not_not.2 hz), if_neg (not_not.2 hz.symm), hz, max_comm |a.i - b.i|, min_comm]
    rw [hr, hz]
    simp only
    congr 1
    funext l
    congr 1
    funext acc t
    split_ifs
    · ring
    · rfl
  · unfold sqr2to2 range4
    simp only
    rw [if_pos hz, if_pos (fun h => hz h.symm)]
    unfold iterRange
    simp only
    cases fuel with
    | zero => rfl
    | succ f => simp [iterate]

/-- Without the condition on the parity the iteration never ends (only the equality of the iterators
is tested). -/
theorem C39_odd_range_diverges (fuel : Nat) : iterRange fuel (0, 1) = none := by
  unfold iterRange
  rw [if_neg (by norm_num)]
  suffices h : ∀ n : Nat, iterate fuel (0 - 2) (1 - 2 * n) = none by simpa using h 0
  induction fuel with
  | zero => intro n; rfl
  | succ f ih =>
    intro n
    rw [iterate, if_neg (by omega)]
    have : (1 : Int) - 2 * n - 2 = 1 - 2 * ((n + 1 : Nat) : Int) := by push_cast; ring
    rw [this, ih (n + 1)]; rfl

/-- The deuteron channel: nucleon and pion to nucleon and pion. -/
example : Phys ⟨1, 1⟩ ∧ Phys ⟨2, -2⟩ ∧
    iterRange 10 (range4 ⟨1, 1⟩ ⟨2, -2⟩ ⟨1, -1⟩ ⟨2, 0⟩) = some [3, 1] := by
  refine ⟨by unfold Phys; decide, by unfold Phys; decide, by decide⟩

/-- Three pions coupling to isospin 0: unique. -/
example : allowedIab ⟨2, 2⟩ ⟨2, 0⟩ ⟨2, -2⟩ ⟨0, 0⟩ = [2] := by decide

end Verif.Cg
