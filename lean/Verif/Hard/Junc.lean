import Verif.Hard.Props
/-
C174, events with several junctions: with consistent colours all strings are found and are neutral.
-/
namespace Verif.Hard
open scoped List

/-- Specification: how often a colour is the colour of a leg of the junctions of odd (`true`) or even (`false`) kind. -/
def legsOf (b : Bool) (J : List Junction) (x : Nat) : Nat := (J.map fun j => if decide (j.kind % 2 = 1) = b then j.legs.count x else 0).sum

/-- Specification: neutral together with the junctions: colours of partons and legs of even junctions against anticolours and legs of odd
junctions. -/
def Balanced (l : List Parton) (J : List Junction) : Prop :=
  ∀ x ≠ 0, (l.map Parton.col).count x + legsOf false J x = (l.map Parton.acol).count x + legsOf true J x

/-- Specification: no colour is used by two junctions of the same kind, or twice by one. -/
def UniqueLegs (J : List Junction) : Prop := ∀ b, ∀ x ≠ 0, legsOf b J x ≤ 1

theorem legsOf_cons (b : Bool) (j : Junction) (J : List Junction) (x : Nat) :
    legsOf b (j :: J) x = (if decide (j.kind % 2 = 1) = b then j.legs.count x else 0) + legsOf b J x := by
  simp [legsOf]

theorem legsOf_append (b : Bool) (J K : List Junction) (x : Nat) : legsOf b (J ++ K) x = legsOf b J x + legsOf b K x := by
  simp [legsOf]

theorem legsOf_perm {b : Bool} {J K : List Junction} (h : J ~ K) (x : Nat) : legsOf b J x = legsOf b K x := (h.map _).sum_eq

theorem matchLeg_zero : ∀ {ks : List Nat} {n : Nat}, (matchLeg 0 n ks).1 = 0 ∧ n ≤ (matchLeg 0 n ks).2.1 ∧
    ∀ x ≠ 0, (matchLeg 0 n ks).2.2.count x = ks.count x := by
  intro ks
  induction ks with
  | nil => intro n; simp [matchLeg]
  | cons k ks ih =>
    intro n
    rw [matchLeg]
    by_cases h : 0 = k
    · subst h
      obtain ⟨h1, h2, h3⟩ := @ih (n + 1)
      simp only [if_true]
      refine ⟨h1, by omega, fun x hx => ?_⟩
      simp only [List.count_cons, h3 x hx]
    · obtain ⟨h1, h2, h3⟩ := @ih n
      simp only [if_neg h]
      exact ⟨h1, h2, fun x hx => by simp only [List.count_cons, h3 x hx]⟩

theorem matchLeg_spec {c : Nat} (hc : c ≠ 0) : ∀ {ks : List Nat} {n : Nat},
    (matchLeg c n ks).1 = (if c ∈ ks then 0 else c) ∧ n ≤ (matchLeg c n ks).2.1 ∧ (c ∈ ks → n < (matchLeg c n ks).2.1) ∧
    ∀ x ≠ 0, (matchLeg c n ks).2.2.count x = ks.count x - if c = x then 1 else 0 := by
  intro ks
  induction ks with
  | nil => intro n; simp [matchLeg]
  | cons k ks ih =>
    intro n
    rw [matchLeg]
    by_cases h : c = k
    · subst h
      obtain ⟨h1, h2, h3⟩ := @matchLeg_zero ks (n + 1)
      simp only [if_true]
      refine ⟨by simp [h1], by omega, fun _ => by omega, fun x hx => ?_⟩
      simp only [List.count_cons, h3 x hx, beq_iff_eq]
      grind
    · obtain ⟨h1, h2, h3, h4⟩ := @ih n
      simp only [if_neg h]
      refine ⟨by simp [h1, h], h2, fun hm => h3 ?_, fun x hx => ?_⟩
      · rcases List.mem_cons.1 hm with hm | hm
        · exact absurd hm h
        · exact hm
      · simp only [List.count_cons, h4 x hx, beq_iff_eq]
        have := @List.count_eq_zero Nat _ _ c ks
        grind

theorem matchLegs_spec : ∀ {col : List Nat} {n : Nat} {new : List Nat},
    n ≤ (matchLegs n new col).2.1 ∧ ((∃ x ≠ 0, x ∈ col ∧ x ∈ new) → n < (matchLegs n new col).2.1) ∧
    ∀ x ≠ 0, (matchLegs n new col).1.count x = col.count x - new.count x ∧ (matchLegs n new col).2.2.count x = new.count x - col.count x := by
  intro col
  induction col with
  | nil => intro n new; simp [matchLegs]
  | cons c cs ih =>
    intro n new
    rw [matchLegs]
    by_cases hc : c = 0
    · subst hc
      obtain ⟨h1, h2, h3⟩ := @ih n new
      simp only [if_true]
      refine ⟨h1, fun ⟨x, hx, hm, hn⟩ => h2 ⟨x, hx, ?_, hn⟩, fun x hx => ?_⟩
      · rcases List.mem_cons.1 hm with hm | hm
        · exact absurd hm hx
        · exact hm
      · have h0 : 0 ≠ x := Ne.symm hx
        simp only [List.count_cons, beq_iff_eq, h0, if_false]
        exact h3 x hx
    · obtain ⟨g1, g2, g3, g4⟩ := @matchLeg_spec c hc new n
      obtain ⟨h1, h2, h3⟩ := @ih (matchLeg c n new).2.1 (matchLeg c n new).2.2
      simp only [if_neg hc]
      refine ⟨g2.trans h1, fun ⟨x, hx, hm, hn⟩ => ?_, fun x hx => ?_⟩
      · by_cases hcn : c ∈ new
        · exact lt_of_lt_of_le (g3 hcn) h1
        · refine lt_of_le_of_lt g2 (h2 ⟨x, hx, ?_, ?_⟩)
          · rcases List.mem_cons.1 hm with hm | hm
            · subst hm; exact absurd hn hcn
            · exact hm
          · have h4 := g4 x hx
            have : c ≠ x := by rintro rfl; exact hcn hn
            rw [if_neg this] at h4
            have := List.count_pos_iff.2 hn
            exact List.count_pos_iff.1 (by omega)
      · obtain ⟨k1, k2⟩ := h3 x hx
        have h4 := g4 x hx
        simp only [List.count_cons, beq_iff_eq, k1, k2, h4, g1]
        have hz : c ∉ new → new.count c = 0 := fun h => List.count_eq_zero.2 h
        have hp : c ∈ new → 0 < new.count c := fun h => List.count_pos_iff.2 h
        by_cases hcx : c = x
        · subst hcx
          by_cases hcn : c ∈ new
          · have := hp hcn
            have h0 : 0 ≠ c := Ne.symm hc
            simp only [if_pos hcn, if_true, h0, if_false]
            omega
          · have := hz hcn
            simp only [if_neg hcn, if_true]
            omega
        · have h0 : ¬ ((if c ∈ new then 0 else c) = x) := by
            split_ifs
            · exact Ne.symm hx
            · exact hcx
          simp only [if_neg hcx, if_neg h0]
          omega

theorem connect_le {b : Bool} {col : List Nat} {J : List Junction} (s : Bool) (x : Nat) :
    legsOf b (connect s col J).2.1 x ≤ legsOf b J x := by
  have := legsOf_perm (b := b) (@connect_perm s J col) x
  rw [legsOf_append] at this
  omega

theorem connect_spec {s : Bool} : ∀ {J : List Junction} {col : List Nat}, (∀ x ≠ 0, legsOf s J x ≤ 1) → (∀ x ≠ 0, col.count x ≤ 1) →
    (∀ x ≠ 0, (connect s col J).1.count x + 2 * min (col.count x) (legsOf s J x) = col.count x + legsOf s (connect s col J).2.1 x) ∧
    ∀ x, legsOf (!s) (connect s col J).2.1 x = 0 := by
  intro J
  induction J with
  | nil => intro col _ _; simp [connect, legsOf]
  | cons j J ih =>
    intro col hu hc
    rw [connect]
    by_cases hk : s ≠ decide (j.kind % 2 = 1)
    · have hk' : ¬ (decide (j.kind % 2 = 1) = s) := fun h => hk h.symm
      simp only [if_pos hk]
      obtain ⟨h1, h2⟩ := @ih col (fun x hx => by have := hu x hx; rw [legsOf_cons, if_neg hk'] at this; omega) hc
      refine ⟨fun x hx => ?_, h2⟩
      rw [legsOf_cons, if_neg hk', Nat.zero_add]
      exact h1 x hx
    · have hk' : decide (j.kind % 2 = 1) = s := (not_not.1 hk).symm
      have hk'' : ¬ (decide (j.kind % 2 = 1) = !s) := by rw [hk']; cases s <;> simp
      simp only [if_neg hk]
      have hu' : ∀ x ≠ 0, j.legs.count x + legsOf s J x ≤ 1 := fun x hx => by
        have := hu x hx; rwa [legsOf_cons, if_pos hk'] at this
      obtain ⟨m1, m2, m3⟩ := @matchLegs_spec col 0 j.legs
      have hle : ∀ c x, legsOf s (connect s c J).2.1 x ≤ legsOf s J x := fun c x => connect_le s x
      by_cases hn : (matchLegs 0 j.legs col).2.1 > 0
      · simp only [if_pos hn]
        have hcnt : ∀ x ≠ 0, ((matchLegs 0 j.legs col).1 ++ (matchLegs 0 j.legs col).2.2.filter (· ≠ 0)).count x =
            (col.count x - j.legs.count x) + (j.legs.count x - col.count x) := by
          intro x hx
          rw [List.count_append, List.count_filter (by simpa using hx), (m3 x hx).1, (m3 x hx).2]
        obtain ⟨h1, h2⟩ := @ih ((matchLegs 0 j.legs col).1 ++ (matchLegs 0 j.legs col).2.2.filter (· ≠ 0))
          (fun x hx => by have := hu' x hx; omega)
          (fun x hx => by rw [hcnt x hx]; have := hu' x hx; have := hc x hx; omega)
        refine ⟨fun x hx => ?_, fun x => ?_⟩
        · have k1 := h1 x hx
          rw [hcnt x hx] at k1
          rw [legsOf_cons, legsOf_cons, if_pos hk']
          have := hu' x hx
          have := hc x hx
          have := hle ((matchLegs 0 j.legs col).1 ++ (matchLegs 0 j.legs col).2.2.filter (· ≠ 0)) x
          omega
        · rw [legsOf_cons, if_neg hk'', Nat.zero_add]
          exact h2 x
      · simp only [if_neg hn]
        have hno : ∀ x ≠ 0, col.count x = 0 ∨ j.legs.count x = 0 := by
          intro x hx
          by_contra hcon
          push Not at hcon
          exact hn (m2 ⟨x, hx, List.count_pos_iff.1 (by omega), List.count_pos_iff.1 (by omega)⟩)
        obtain ⟨h1, h2⟩ := @ih (matchLegs 0 j.legs col).1 (fun x hx => by have := hu' x hx; omega)
          (fun x hx => by rw [(m3 x hx).1]; have := hc x hx; omega)
        refine ⟨fun x hx => ?_, h2⟩
        have k1 := h1 x hx
        rw [(m3 x hx).1] at k1
        rw [legsOf_cons, if_pos hk']
        have := hu' x hx
        have := hc x hx
        have := hno x hx
        have := hle (matchLegs 0 j.legs col).1 x
        omega

/-- A leg that stays open is not among the partons left; with other junctions left the search does not fail. -/
theorem leg_open {sign : Bool} {nj c : Nat} {rest : List Parton} {s : Str} : nj ≠ 0 → ∃ c' r t, leg sign nj c rest s = .ok (c', r, t) ∧
    r ⊆ rest ∧ (c' ≠ 0 → ∀ q ∈ r, c' ≠ side sign q) := by
  fun_induction leg sign nj c rest s with
  | case1 => intro h; contradiction
  | case2 c rest s hs hn => intro _; exact ⟨_, _, _, rfl, fun _ h => h, fun _ => legSearch_none hs⟩
  | case3 c rest s i hi hs => intro _; exact ⟨_, _, _, rfl, List.eraseIdx_subset, fun h => absurd rfl h⟩
  | case4 c rest s i c1 hs hi hc ih =>
    intro hn
    obtain ⟨c', r, t, h1, h2, h3⟩ := ih hn
    exact ⟨c', r, t, h1, fun q hq => List.eraseIdx_subset (h2 hq), h3⟩
  | case5 c rest s i c1 hs hi =>
    obtain ⟨n, hn, hk, e1, e2⟩ := legSearch_some hs
    omega

theorem findLegs_open {sign : Bool} {nj : Nat} (hn : nj ≠ 0) : ∀ {col : List Nat} {rest : List Parton} {s : Str},
    ∃ l r t, findLegs sign nj col rest s = .ok (l, r, t) ∧ r ⊆ rest ∧ ∀ c ∈ l, c ≠ 0 → ∀ q ∈ r, c ≠ side sign q := by
  intro col
  induction col with
  | nil => intro rest s; exact ⟨[], rest, s, rfl, fun _ h => h, fun c hc => (List.not_mem_nil hc).elim⟩
  | cons c cs ih =>
    intro rest s
    rw [findLegs]
    by_cases hc : c = 0
    · obtain ⟨l, r, t, h1, h2, h3⟩ := @ih rest s
      refine ⟨0 :: l, r, t, by rw [if_pos hc, h1], h2, fun d hd hd0 => ?_⟩
      rcases List.mem_cons.1 hd with rfl | hd
      · exact absurd rfl hd0
      · exact h3 d hd hd0
    · obtain ⟨c', r1, t1, g1, g2, g3⟩ := @leg_open sign nj c rest s hn
      obtain ⟨l, r, t, h1, h2, h3⟩ := @ih r1 t1
      refine ⟨c' :: l, r, t, by rw [if_neg hc, g1]; simp only [h1], fun q hq => g2 (h2 hq), fun d hd hd0 => ?_⟩
      rcases List.mem_cons.1 hd with rfl | hd
      · exact fun q hq => g3 hd0 q (h2 hq)
      · exact h3 d hd hd0

/-- The balance with open legs. -/
def BalOpen (s : Bool) (col : List Nat) (l : List Parton) (J : List Junction) : Prop :=
  ∀ x ≠ 0, (l.map (side s)).count x + legsOf (!s) J x = (l.map (side !s)).count x + legsOf s J x + col.count x

theorem balOpen_legs {s : Bool} {nj : Nat} {col col' : List Nat} {rest r : List Parton} {st t : Str} {J : List Junction}
    (h : findLegs s nj col rest st = .ok (col', r, t)) (hb : BalOpen s col rest J) : BalOpen s col' r J := by
  obtain ⟨h1, -, -, -, h5⟩ := findLegs_spec h
  intro x hx
  have e1 := (h1.map (side s)).count_eq x
  have e2 := (h1.map (side !s)).count_eq x
  have := h5 x hx
  have := hb x hx
  simp only [List.map_append, List.count_append] at e1 e2
  omega

theorem balOpen_balanced {s : Bool} {col : List Nat} {l : List Parton} {J : List Junction} (hc : ∀ c ∈ col, c = 0) (h : BalOpen s col l J) :
    Balanced l J := by
  have hside : ∀ b, (side b) = if b then Parton.col else Parton.acol := by intro b; cases b <;> rfl
  intro x hx
  have h0 : col.count x = 0 := List.count_eq_zero.2 fun hm => hx (hc x hm)
  have := h x hx
  cases s <;> simp [hside, h0] at this ⊢ <;> omega

theorem leg_grow {sign : Bool} {nj c : Nat} {rest : List Parton} {s : Str} : ∀ {c' r t}, leg sign nj c rest s = .ok (c', r, t) →
    s.parts.length ≤ t.parts.length := by
  fun_induction leg sign nj c rest s with
  | case1 => intro c' r t h; cases h
  | case2 => intro c' r t h; cases h; exact le_refl _
  | case3 => intro c' r t h; cases h; simp [Str.add]
  | case4 c rest s i c1 hs hi hc ih =>
    intro c' r t h
    have := ih h
    simp [Str.add] at this
    omega
  | case5 => intro c' r t h; cases h

theorem findLegs_grow {sign : Bool} {nj : Nat} : ∀ {col : List Nat} {rest : List Parton} {s : Str} {l r t},
    findLegs sign nj col rest s = .ok (l, r, t) → s.parts.length ≤ t.parts.length := by
  intro col
  induction col with
  | nil => intro rest s l r t h; simp only [findLegs] at h; cases h; exact le_refl _
  | cons c cs ih =>
    intro rest s l r t h
    rw [findLegs] at h
    by_cases hc : c = 0
    · rw [if_pos hc] at h
      rcases hf : findLegs sign nj cs rest s with e | ⟨l', r', t'⟩ <;> rw [hf] at h <;> cases h
      exact ih hf
    · rw [if_neg hc] at h
      rcases hl : leg sign nj c rest s with e | ⟨c1, r1, t1⟩ <;> rw [hl] at h <;> simp only at h
      · cases h
      · rcases hf : findLegs sign nj cs r1 t1 with e | ⟨l', r', t'⟩ <;> rw [hf] at h <;> cases h
        exact (leg_grow hl).trans (ih hf)

theorem junctionLoop_ok : ∀ {fuel : Nat} {s : Bool} {col : List Nat} {ev : Event} {st : Str}, ev.juncs.length < fuel →
    BalOpen s col ev.parts ev.juncs → UniqueLegs ev.juncs →
    ∃ t ev', junctionLoop fuel s col ev st = some (.ok (t, ev')) ∧ Balanced ev'.parts ev'.juncs ∧ UniqueLegs ev'.juncs ∧
      ev'.parts.length + ev'.juncs.length ≤ ev.parts.length + ev.juncs.length := by
  intro fuel
  induction fuel with
  | zero => intro s col ev st h; omega
  | succ n ih =>
    intro s col ev st hf hb hu
    have key : ∃ l r t, findLegs s ev.juncs.length col ev.parts st = .ok (l, r, t) ∧
        ∀ c ∈ l, c ≠ 0 → ∀ q ∈ r, c ≠ side s q := by
      by_cases hj : ev.juncs.length = 0
      · have hnil : ev.juncs = [] := List.eq_nil_of_length_eq_zero hj
        obtain ⟨l, r, t, h1, h2, -⟩ := @findLegs_ok s ev.juncs.length col ev.parts st (fun x hx => by
          have := hb x hx
          simpa [hnil, legsOf] using this)
        exact ⟨l, r, t, h1, fun c hc h0 => absurd (h2 c hc) h0⟩
      · obtain ⟨l, r, t, h1, -, h3⟩ := @findLegs_open s ev.juncs.length hj col ev.parts st
        exact ⟨l, r, t, h1, h3⟩
    obtain ⟨l, r, t, hl, hopen⟩ := key
    have hb' := balOpen_legs hl hb
    obtain ⟨hperm, -, -, -, -⟩ := findLegs_spec hl
    rw [junctionLoop, hl]
    simp only
    have hr : r.length ≤ ev.parts.length := by
      have : r.length + t.parts.length = st.parts.length + ev.parts.length := by have := hperm.length_eq; simp at this; omega
      have hpre : st.parts.length ≤ t.parts.length := findLegs_grow hl
      omega
    by_cases hz : l.all (· = 0)
    · rw [if_pos hz]
      exact ⟨t, ⟨r, ev.juncs⟩, rfl, balOpen_balanced (by simpa using hz) hb', hu, by simp only; omega⟩
    · rw [if_neg hz]
      have hlc : ∀ x ≠ 0, x ∈ l → (r.map (side s)).count x = 0 := by
        intro x hx hm
        rw [List.count_eq_zero]
        intro hmm
        obtain ⟨q, hq, he⟩ := List.mem_map.1 hmm
        exact hopen x hm hx q hq he.symm
      have hle : ∀ x ≠ 0, l.count x ≤ legsOf (!s) ev.juncs x := by
        intro x hx
        by_cases hm : x ∈ l
        · have := hb' x hx
          have := hlc x hx hm
          omega
        · rw [List.count_eq_zero.2 hm]; omega
      have huniq := hu (!s)
      obtain ⟨c1, c2⟩ := @connect_spec (!s) ev.juncs l huniq (fun x hx => (hle x hx).trans (huniq x hx))
      have hp := @connect_perm (!s) ev.juncs l
      have hs1 := fun b x => legsOf_perm (b := b) hp x
      have hb2 : BalOpen (!s) (connect (!s) l ev.juncs).1 r (connect (!s) l ev.juncs).2.2 := by
        intro x hx
        have k1 := hb' x hx
        have k2 := c1 x hx
        have k3 := c2 x
        have k4 := hs1 s x
        have k5 := hs1 (!s) x
        have k6 := hle x hx
        rw [legsOf_append] at k4 k5
        simp only [Bool.not_not] at *
        omega
      have hlen2 := hp.length_eq
      rw [List.length_append] at hlen2
      have hmoved : (connect (!s) l ev.juncs).2.1.length ≠ 0 := by
        intro h0
        simp at hz
        obtain ⟨x, hm, hx⟩ := hz
        have k2 := c1 x hx
        have k6 := hle x hx
        have k7 := List.count_pos_iff.2 hm
        rw [List.eq_nil_of_length_eq_zero h0] at k2
        have : legsOf (!s) [] x = 0 := rfl
        have k8 := huniq x hx
        omega
      obtain ⟨t', ev', h1, h2, h3, h4⟩ := @ih (!s) (connect (!s) l ev.juncs).1 ⟨r, (connect (!s) l ev.juncs).2.2⟩
        { t with juncs := t.juncs ++ (connect (!s) l ev.juncs).2.1 } (by simp only; omega) hb2 (fun b x hx => by
          have := hu b x hx
          have k := hs1 b x
          rw [legsOf_append] at k
          simp only
          omega)
      exact ⟨t', ev', h1, h2, h3, by simp only at h4; omega⟩

theorem balanced_sub {l : List Parton} {J : List Junction} {s : Str} {ev' : Event} (hp : s.parts ++ ev'.parts ~ l) (hj : s.juncs ++ ev'.juncs ~ J)
    (h : Balanced l J) (h' : Balanced ev'.parts ev'.juncs) : Balanced s.parts s.juncs := by
  intro x hx
  have e1 := (hp.map Parton.col).count_eq x
  have e2 := (hp.map Parton.acol).count_eq x
  have e3 := legsOf_perm (b := true) hj x
  have e4 := legsOf_perm (b := false) hj x
  have := h x hx
  have := h' x hx
  rw [legsOf_append] at e3 e4
  simp only [List.map_append, List.count_append] at e1 e2
  omega

/-- **C174** For events with consistent colours (neutral together with the junctions, no colour on two legs of junctions of the same kind, no
parton with a colour and the same anticolour) the division into strings ends, succeeds, and every string is neutral with its junctions. -/
theorem C174_consistent {y : Parton → ℚ} : ∀ {fuel : Nat} {fwd : Bool} {ev : Event}, ev.parts.length + ev.juncs.length < fuel →
    Balanced ev.parts ev.juncs → UniqueLegs ev.juncs → NoSinglet ev.parts →
    ∃ strs left, hardLoop y fuel fwd ev = some (.ok (strs, left)) ∧ ∀ s ∈ strs, Balanced s.parts s.juncs := by
  intro fuel
  induction fuel with
  | zero => intro fwd ev h; omega
  | succ n ih =>
    intro fwd ev hf hb hu hs
    rcases hj : ev.juncs with _ | ⟨j, js⟩
    · have hn : Neutral ev.parts := fun x hx => by have := hb x hx; simpa [hj, legsOf] using this
      obtain ⟨parts, juncs⟩ := ev
      simp only at hj
      subst hj
      obtain ⟨strs, h⟩ := @hardLoop_ok y (n + 1) fwd parts (by simpa using hf) hs hn
      refine ⟨strs, [], h, fun s hsm x hx => ?_⟩
      obtain ⟨h1, h2⟩ := (C174_neutral h).1 s hsm
      have := h1 x hx
      simp [h2, legsOf, this]
    · by_cases he : ev.parts = []
      · exact ⟨[], ev.juncs, by rw [hardLoop, if_pos he], fun s hs => (List.not_mem_nil hs).elim⟩
      · have hlen : ev.juncs.length = js.length + 1 := by rw [hj]; rfl
        have hb0 : BalOpen (decide (j.kind % 2 = 1)) j.legs ev.parts js := by
          have hside : ∀ b, (side b) = if b then Parton.col else Parton.acol := by intro b; cases b <;> rfl
          intro x hx
          have := hb x hx
          rw [hj, legsOf_cons, legsOf_cons] at this
          by_cases hk : j.kind % 2 = 1 <;> simp [hk, hside] at this ⊢ <;> omega
        have hu0 : UniqueLegs js := fun b x hx => by
          have := hu b x hx
          rw [hj, legsOf_cons] at this
          omega
        obtain ⟨t, ev', h1, h2, h3, h4⟩ := @junctionLoop_ok n (decide (j.kind % 2 = 1)) j.legs ⟨ev.parts, js⟩ { Str.empty with juncs := [j] }
          (by simp only; omega) hb0 hu0
        obtain ⟨p1, p2, -⟩ := junctionLoop_spec h1
        simp only at h4
        have hsub : ev'.parts ⊆ ev.parts := fun q hq => p1.subset (List.mem_append_right _ hq)
        obtain ⟨strs, left, g1, g2⟩ := @ih (!decide (t.sys.2.2.1 > 0)) ev' (by omega) h2 h3 (fun q hq => hs q (hsub hq))
        refine ⟨t :: strs, left, ?_, fun s hsm => ?_⟩
        · rw [hardLoop, if_neg he, hj]
          simp only [composeJunction, h1, g1]
        · rcases List.mem_cons.1 hsm with rfl | hsm
          · exact balanced_sub (l := ev.parts) (J := ev.juncs) p1 (by rw [hj]; exact p2) hb h2
          · exact g2 s hsm

section Example

/-- A junction and an antijunction joined by one leg, two quarks and two antiquarks. -/
example : let ev : Event := ⟨[⟨1, 1, 0, 0⟩, ⟨2, 2, 0, 0⟩, ⟨-1, 0, 4, 0⟩, ⟨-2, 0, 5, 0⟩], [⟨1, [1, 2, 3]⟩, ⟨2, [3, 4, 5]⟩]⟩
    Balanced ev.parts ev.juncs ∧ UniqueLegs ev.juncs ∧ NoSinglet ev.parts := by
  refine ⟨fun x hx => ?_, fun b x hx => ?_, by simp [NoSinglet]⟩
  · have h0 : 0 ≠ x := Ne.symm hx
    simp only [List.map_cons, List.map_nil, List.count_cons, List.count_nil, beq_iff_eq, legsOf]
    simp [h0, List.count_cons]
    omega
  · cases b <;> simp [legsOf] <;> simp only [List.count_cons, List.count_nil, beq_iff_eq] <;> split_ifs <;> omega

end Example

end Verif.Hard
