import Verif.Multi.Props

/-
C98, the theorems.
-/
namespace Verif.Multi

open Verif.Pdg List

/-- The channels `cs` for the incoming particles `inc` are the ones with outgoing particles `P`, each
once, with the statistical factor and the kind of the specification. -/
def Ok (inc : List Nat) (P : List Nat → Prop) (cs : List Channel) : Prop :=
  (∀ o, o ∈ cs.map Channel.outs ↔ P o) ∧ (cs.map Channel.outs).Nodup ∧
  ∀ ch ∈ cs, ch.factor = statFactor inc ch.outs ∧ kindOf inc.length ch.outs.length = some ch.kind

theorem ok_nil {inc : List Nat} {P : List Nat → Prop} (h : ∀ o, ¬ P o) : Ok inc P [] :=
  ⟨fun o => by simp [h o], by simp, by simp⟩

theorem ok_one {inc : List Nat} {P : List Nat → Prop} {ch : Channel} (h : ∀ o, P o ↔ o = ch.outs)
    (hf : ch.factor = statFactor inc ch.outs)
    (hk : kindOf inc.length ch.outs.length = some ch.kind) : Ok inc P [ch] :=
  ⟨fun o => by simp [h o], by simp, by simpa using ⟨hf, hk⟩⟩

theorem ok_append {inc : List Nat} {P Q : List Nat → Prop} {cs ds : List Channel}
    (h1 : Ok inc P cs) (h2 : Ok inc Q ds) (hd : ∀ o, P o → ¬ Q o) :
    Ok inc (fun o => P o ∨ Q o) (cs ++ ds) := by
  obtain ⟨a1, a2, a3⟩ := h1
  obtain ⟨b1, b2, b3⟩ := h2
  refine ⟨fun o => ?_, ?_, ?_⟩
  · rw [List.map_append, List.mem_append, a1, b1]
  · rw [List.map_append, List.nodup_append]
    refine ⟨a2, b2, fun x hx y hy e => ?_⟩
    subst e
    exact hd x ((a1 x).1 hx) ((b1 x).1 hy)
  · intro ch hch
    rcases List.mem_append.1 hch with h | h
    · exact a3 ch h
    · exact b3 ch h

theorem ok_congr {inc : List Nat} {P Q : List Nat → Prop} {cs : List Channel} (h : Ok inc P cs)
    (hpq : ∀ o, P o ↔ Q o) : Ok inc Q cs :=
  ⟨fun o => (h.1 o).trans (hpq o), h.2⟩

theorem ok_ite {inc : List Nat} {P : List Nat → Prop} {cs : List Channel} {b : Bool}
    (h : b = true → Ok inc P cs) : Ok inc (fun o => b = true ∧ P o) (if b then cs else []) := by
  cases b with
  | false => simpa using ok_nil (inc := inc) (P := fun o => false = true ∧ P o) (by simp)
  | true => simpa using ok_congr (h rfl) (Q := fun o => true = true ∧ P o) (by simp)

/-! ### Three particles -/

theorem ok31 (known : Nat → Bool) {a b c : Nat} (ha : Word a) (hb : Word b) (hc : Word c) :
    Ok [a, b, c] (fun o => (o = [omega] ∧ [a, b, c] ~ [piP, piM, piZ] ∧ known omega = true) ∨
      (o = [phi] ∧ [a, b, c] ~ [piP, piM, piZ] ∧ known phi = true) ∨
      (o = [etaPrime] ∧ ([a, b, c] ~ [piZ, piZ, eta] ∨ [a, b, c] ~ [piP, piM, eta]) ∧
        known etaPrime = true)) (threeToOne known a b c) := by
  unfold threeToOne
  by_cases h1 : threeDifferentPions a b c = true
  · rw [if_pos h1]
    have hp := (threeDifferentPions_iff ha hb hc).1 h1
    have hne : ¬ ([a, b, c] ~ [piZ, piZ, eta] ∨ [a, b, c] ~ [piP, piM, eta]) := by
      rintro (h | h)
      · have := hp.symm.trans h
        exact absurd (this.subset (show piP ∈ [piP, piM, piZ] by simp)) (by decide)
      · have := hp.symm.trans h
        exact absurd (this.subset (show piZ ∈ [piP, piM, piZ] by simp)) (by decide)
    have f : ∀ o ∈ [omega, phi], (degen o : ℚ) = statFactor [a, b, c] [o] := by
      intro o ho
      rw [statFactor_perm hp]
      fin_cases ho <;> decide +kernel
    refine ok_congr (ok_append (P := fun o => known omega = true ∧ o = [omega])
      (Q := fun o => known phi = true ∧ o = [phi]) (ok_ite fun _ => ?_) (ok_ite fun _ => ?_) ?_) ?_
    · exact ok_one (by simp) (f _ (by simp)) rfl
    · exact ok_one (by simp) (f _ (by simp)) rfl
    · rintro o ⟨-, rfl⟩ ⟨-, h⟩
      exact absurd h (by decide)
    · intro o
      constructor
      · rintro (⟨h, rfl⟩ | ⟨h, rfl⟩)
        · exact Or.inl ⟨rfl, hp, h⟩
        · exact Or.inr (Or.inl ⟨rfl, hp, h⟩)
      · rintro (⟨h, -, h'⟩ | ⟨h, -, h'⟩ | ⟨h, h', -⟩)
        · exact Or.inl ⟨h', h⟩
        · exact Or.inr ⟨h', h⟩
        · exact absurd h' hne
  · rw [if_neg h1]
    have hp : ¬ [a, b, c] ~ [piP, piM, piZ] := fun h => h1 ((threeDifferentPions_iff ha hb hc).2 h)
    by_cases h2 : twoPionsEta a b c = true
    · rw [if_pos h2]
      have hq := twoPionsEta_iff.1 h2
      dsimp only
      refine ok_congr (ok_ite (P := fun o => o = [etaPrime]) fun _ => ok_one (by simp) ?_ rfl) ?_
      · dsimp only
        rcases hq with h | h
        · rw [statFactor_perm h]
          rcases perm3.1 h with ⟨rfl, rfl, rfl⟩ | ⟨rfl, rfl, rfl⟩ | ⟨rfl, rfl, rfl⟩ |
            ⟨rfl, rfl, rfl⟩ | ⟨rfl, rfl, rfl⟩ | ⟨rfl, rfl, rfl⟩ <;> decide +kernel
        · rw [statFactor_perm h]
          rcases perm3.1 h with ⟨rfl, rfl, rfl⟩ | ⟨rfl, rfl, rfl⟩ | ⟨rfl, rfl, rfl⟩ |
            ⟨rfl, rfl, rfl⟩ | ⟨rfl, rfl, rfl⟩ | ⟨rfl, rfl, rfl⟩ <;> decide +kernel
      · intro o
        constructor
        · rintro ⟨h, rfl⟩
          exact Or.inr (Or.inr ⟨rfl, hq, h⟩)
        · rintro (⟨-, h', -⟩ | ⟨-, h', -⟩ | ⟨h, -, h'⟩)
          · exact absurd h' hp
          · exact absurd h' hp
          · exact ⟨h', h⟩
    · rw [if_neg h2]
      refine ok_nil fun o => ?_
      rintro (⟨-, h', -⟩ | ⟨-, h', -⟩ | ⟨h, h', -⟩)
      · exact absurd h' hp
      · exact absurd h' hp
      · exact absurd (twoPionsEta_iff.2 h') h2

theorem channel32_perm {l l' : List Nat} (h : l ~ l') (s x n : Nat) :
    channel32 l s x n = channel32 l' s x n := by
  unfold channel32
  rw [(h.map degen).prod_eq]

theorem mem_of_perm3 {a b c x y z : Nat} (h : [a, b, c] ~ [x, y, z]) (P : Nat → Prop)
    (ha : P a) (hb : P b) (hc : P c) : P x := by
  have : x ∈ [a, b, c] := h.symm.subset (by simp)
  simp only [List.mem_cons, List.not_mem_nil, or_false] at this
  rcases this with rfl | rfl | rfl <;> assumption

theorem ok32pion {a b c y z n : Nat} (ha : Word a) (hb : Word b) (hc : Word c)
    (hyz : (y = proton ∧ z = neutron ∧ n = deuteron) ∨
      (y = antiProton ∧ z = antiNeutron ∧ n = antiDeuteron)) :
    Ok [a, b, c] (fun o => ∃ x, x ∈ pions ∧ o = [x, n] ∧ [a, b, c] ~ [x, y, z])
      (if sixOrders isPion y z a b c then pionCatalyst [a, b, c] n else []) := by
  have npy : isPion y = false ∧ isPion z = false := by
    rcases hyz with ⟨rfl, rfl, -⟩ | ⟨rfl, rfl, -⟩ <;> decide
  by_cases h : sixOrders isPion y z a b c = true
  · rw [if_pos h]
    obtain ⟨x, hx, hp⟩ := sixOrders_iff.1 h
    have hfind : [a, b, c].find? isPion = some x := by
      rcases perm3.1 hp with ⟨rfl, rfl, rfl⟩ | ⟨rfl, rfl, rfl⟩ | ⟨rfl, rfl, rfl⟩ |
        ⟨rfl, rfl, rfl⟩ | ⟨rfl, rfl, rfl⟩ | ⟨rfl, rfl, rfl⟩ <;>
        simp [hx, npy.1, npy.2]
    have hw : Word x := mem_of_perm3 hp Word ha hb hc
    have hxp : x ∈ pions := by
      have := (isPion_iff hw).1 hx
      simpa [pions] using this
    have huniq : ∀ x', x' ∈ pions → [a, b, c] ~ [x', y, z] → x' = x := by
      intro x' hx' hp'
      have : x' ∈ [x, y, z] := (hp'.symm.trans hp).subset (by simp)
      have hi : isPion x' = true := by
        simp only [pions, List.mem_cons, List.not_mem_nil, or_false] at hx'
        rcases hx' with rfl | rfl | rfl <;> decide
      simp only [List.mem_cons, List.not_mem_nil, or_false] at this
      rcases this with rfl | rfl | rfl
      · rfl
      · rw [npy.1] at hi; cases hi
      · rw [npy.2] at hi; cases hi
    unfold pionCatalyst
    rw [hfind]
    dsimp only
    refine ok_one ?_ ?_ rfl
    · intro o
      constructor
      · rintro ⟨x', hx', rfl, hp'⟩
        rw [huniq x' hx' hp']
        rfl
      · rintro rfl
        exact ⟨x, hxp, rfl, hp⟩
    · rw [statFactor_perm hp, channel32_perm hp]
      simp only [pions, List.mem_cons, List.not_mem_nil, or_false] at hxp
      rcases hyz with ⟨rfl, rfl, rfl⟩ | ⟨rfl, rfl, rfl⟩ <;> rcases hxp with rfl | rfl | rfl <;>
        decide +kernel
  · rw [if_neg h]
    refine ok_nil ?_
    rintro o ⟨x, hx, -, hp⟩
    refine h (sixOrders_iff.2 ⟨x, ?_, hp⟩)
    simp only [pions, List.mem_cons, List.not_mem_nil, or_false] at hx
    rcases hx with rfl | rfl | rfl <;> decide

theorem nucleonCatalyst_eq {a b c x y z n : Nat} {s : Int} (hx : x ∈ nucleons)
    (hyz : (y = proton ∧ z = neutron ∧ n = deuteron ∧ s = -1) ∨
      (y = antiProton ∧ z = antiNeutron ∧ n = antiDeuteron ∧ s = 1))
    (hp : [a, b, c] ~ [x, y, z]) :
    nucleonCatalyst a b c s n = [channel32 [a, b, c] (if x = y ∨ x = z then 2 else 1) x n] := by
  simp only [nucleons, List.mem_cons, List.not_mem_nil, or_false] at hx
  rcases hyz with ⟨rfl, rfl, rfl, rfl⟩ | ⟨rfl, rfl, rfl, rfl⟩ <;>
    rcases hx with rfl | rfl | rfl | rfl <;>
    rcases perm3.1 hp with ⟨rfl, rfl, rfl⟩ | ⟨rfl, rfl, rfl⟩ | ⟨rfl, rfl, rfl⟩ |
        ⟨rfl, rfl, rfl⟩ | ⟨rfl, rfl, rfl⟩ | ⟨rfl, rfl, rfl⟩ <;> rfl

theorem ok32nucleon {a b c y z n : Nat} {s : Int} (ha : Word a) (hb : Word b) (hc : Word c)
    (hyz : (y = proton ∧ z = neutron ∧ n = deuteron ∧ s = -1) ∨
      (y = antiProton ∧ z = antiNeutron ∧ n = antiDeuteron ∧ s = 1)) :
    Ok [a, b, c] (fun o => ∃ x, x ∈ nucleons ∧ o = [x, n] ∧ [a, b, c] ~ [x, y, z])
      (if sixOrders isNucleon y z a b c then nucleonCatalyst a b c s n else []) := by
  by_cases h : sixOrders isNucleon y z a b c = true
  · rw [if_pos h]
    obtain ⟨x, hx, hp⟩ := sixOrders_iff.1 h
    have hw : Word x := mem_of_perm3 hp Word ha hb hc
    have hxn : x ∈ nucleons := (isNucleon_iff hw).1 hx
    have huniq : ∀ x', [a, b, c] ~ [x', y, z] → x' = x := by
      intro x' hp'
      have h2 := hp'.symm.trans hp
      have h3 : [y, z, x'] ~ [y, z, x] :=
        ((List.perm_append_singleton x' [y, z]).trans h2).trans
          (List.perm_append_singleton x [y, z]).symm
      have := List.perm_singleton.1 ((List.perm_cons z).1 ((List.perm_cons y).1 h3))
      simpa using this
    rw [nucleonCatalyst_eq hxn hyz hp]
    refine ok_one ?_ ?_ rfl
    · intro o
      constructor
      · rintro ⟨x', hx', rfl, hp'⟩
        rw [huniq x' hp']
        rfl
      · rintro rfl
        exact ⟨x, hxn, rfl, hp⟩
    · rw [statFactor_perm hp, channel32_perm hp]
      simp only [nucleons, List.mem_cons, List.not_mem_nil, or_false] at hxn
      rcases hyz with ⟨rfl, rfl, rfl, -⟩ | ⟨rfl, rfl, rfl, -⟩ <;>
        rcases hxn with rfl | rfl | rfl | rfl <;> decide +kernel
  · rw [if_neg h]
    refine ok_nil ?_
    rintro o ⟨x, hx, -, hp⟩
    exact h (sixOrders_iff.2 ⟨x, (isNucleon_iff (mem_of_perm3 hp Word ha hb hc)).2 hx, hp⟩)

theorem pions_nucleons {x : Nat} (h : x ∈ pions) : x ∉ nucleons := by
  simp only [pions, List.mem_cons, List.not_mem_nil, or_false] at h
  rcases h with rfl | rfl | rfl <;> decide

theorem ok32 (known : Nat → Bool) {a b c : Nat} (ha : Word a) (hb : Word b) (hc : Word c) :
    Ok [a, b, c] (fun o => (known deuteron = true ∧ known antiDeuteron = true) ∧
      ((∃ x, x ∈ pions ++ nucleons ∧ o = [x, deuteron] ∧ [a, b, c] ~ [x, proton, neutron]) ∨
       (∃ x, x ∈ pions ++ nucleons ∧ o = [x, antiDeuteron] ∧
          [a, b, c] ~ [x, antiProton, antiNeutron]))) (threeToTwo known a b c) := by
  unfold threeToTwo
  have hdd : deuteron ≠ antiDeuteron := by decide
  refine ok_congr (ok_ite fun _ => ok_append (ok_append (ok_append (ok32pion ha hb hc (Or.inl ⟨rfl, rfl, rfl⟩))
    (ok32pion ha hb hc (Or.inr ⟨rfl, rfl, rfl⟩)) ?_)
    (ok32nucleon ha hb hc (Or.inl ⟨rfl, rfl, rfl, rfl⟩)) ?_)
    (ok32nucleon ha hb hc (Or.inr ⟨rfl, rfl, rfl, rfl⟩)) ?_) ?_
  · rintro o ⟨x, -, rfl, -⟩ ⟨y, -, h, -⟩
    simp only [List.cons.injEq, and_true] at h
    exact hdd h.2
  · rintro o (⟨x, hx, rfl, -⟩ | ⟨x, hx, rfl, -⟩) ⟨y, hy, h, -⟩ <;>
      rw [List.cons.injEq, List.cons.injEq] at h
    · exact pions_nucleons hx (h.1 ▸ hy)
    · exact hdd h.2.1.symm
  · rintro o ((⟨x, hx, rfl, -⟩ | ⟨x, hx, rfl, -⟩) | ⟨x, hx, rfl, -⟩) ⟨y, hy, h, -⟩ <;>
      rw [List.cons.injEq, List.cons.injEq] at h
    · exact hdd h.2.1
    · exact pions_nucleons hx (h.1 ▸ hy)
    · exact hdd h.2.1
  · intro o
    rw [Bool.and_eq_true]
    refine and_congr Iff.rfl ?_
    constructor
    · rintro (((⟨x, hx, h⟩ | ⟨x, hx, h⟩) | ⟨x, hx, h⟩) | ⟨x, hx, h⟩)
      · exact Or.inl ⟨x, List.mem_append_left _ hx, h⟩
      · exact Or.inr ⟨x, List.mem_append_left _ hx, h⟩
      · exact Or.inl ⟨x, List.mem_append_right _ hx, h⟩
      · exact Or.inr ⟨x, List.mem_append_right _ hx, h⟩
    · rintro (⟨x, hx, h⟩ | ⟨x, hx, h⟩) <;> rcases List.mem_append.1 hx with hx | hx
      · exact Or.inl (Or.inl (Or.inl ⟨x, hx, h⟩))
      · exact Or.inl (Or.inr ⟨x, hx, h⟩)
      · exact Or.inl (Or.inl (Or.inr ⟨x, hx, h⟩))
      · exact Or.inr ⟨x, hx, h⟩

/-! ### Four particles -/

theorem counts_of {n : Nat} {cs : List Nat} (h : (n, cs) ∈ madeOf) :
    nucleusP n = cnt cs proton ∧ nucleusAp n = cnt cs antiProton ∧ nucleusN n = cnt cs neutron ∧
    nucleusAn n = cnt cs antiNeutron ∧ nucleusLa n = cnt cs lambda ∧
    nucleusALa n = cnt cs antiLambda ∧ cs.length = 3 ∧
    (∀ x ∈ cs, x = proton ∨ x = antiProton ∨ x = neutron ∨ x = antiNeutron ∨ x = lambda ∨
      x = antiLambda) ∧ (∀ x, cs.count x ≤ 2) := by
  simp only [madeOf, List.mem_cons, List.not_mem_nil, or_false, Prod.mk.injEq] at h
  rcases h with ⟨rfl, rfl⟩ | ⟨rfl, rfl⟩ | ⟨rfl, rfl⟩ | ⟨rfl, rfl⟩ | ⟨rfl, rfl⟩ | ⟨rfl, rfl⟩
  all_goals
    refine ⟨by decide +kernel, by decide +kernel, by decide +kernel, by decide +kernel,
      by decide +kernel, by decide +kernel, rfl, by decide +kernel, fun x => ?_⟩
    simp only [List.count_cons, List.count_nil, beq_iff_eq, proton, neutron, lambda, antiProton,
      antiNeutron, antiLambda]
    split_ifs <;> omega

theorem cnt_perm {l l' : List Nat} (h : l ~ l') (x : Nat) : cnt l x = cnt l' x := by
  unfold cnt
  rw [h.count_eq]

theorem cnt_cons (y : Nat) (l : List Nat) (x : Nat) :
    cnt (y :: l) x = cnt l x + if y = x then 1 else 0 := by
  unfold cnt
  rw [List.count_cons]
  by_cases h : y = x <;> simp [h]

theorem leftOver_eq {n : Nat} {cs : List Nat} (h : (n, cs) ∈ madeOf) (inc : List Nat) (x : Nat) :
    leftOver inc n x = cnt inc x - cnt cs x := by
  obtain ⟨h1, h2, h3, h4, h5, h6, -, h7, -⟩ := counts_of h
  unfold leftOver
  rw [h1, h2, h3, h4, h5, h6]
  by_cases hx : x = proton ∨ x = antiProton ∨ x = neutron ∨ x = antiNeutron ∨ x = lambda ∨
      x = antiLambda
  · rcases hx with rfl | rfl | rfl | rfl | rfl | rfl <;>
      simp [proton, neutron, lambda, antiProton, antiNeutron, antiLambda]
  · have : cnt cs x = 0 := by
      unfold cnt
      rw [List.count_eq_zero_of_not_mem fun hm => hx (h7 x hm)]
      rfl
    rw [this]
    push Not at hx
    simp [hx]

theorem catalystsIn_single (y : Nat) :
    catalystsIn [y] = if y ∈ pions ++ nucleons then 1 else 0 := by
  unfold catalystsIn
  by_cases h : y ∈ pions ++ nucleons
  · rw [if_pos h]
    simp only [pions, nucleons, List.cons_append, List.nil_append, List.mem_cons, List.not_mem_nil,
      or_false] at h
    rcases h with rfl | rfl | rfl | rfl | rfl | rfl | rfl <;> decide +kernel
  · rw [if_neg h]
    simp only [pions, nucleons, List.cons_append, List.nil_append, List.mem_cons, List.not_mem_nil,
      or_false] at h
    push Not at h
    simp [cnt_cons, cnt, h]

theorem catalystsIn_cons (y : Nat) (l : List Nat) :
    catalystsIn (y :: l) = catalystsIn l + catalystsIn [y] := by
  have e : ∀ x, cnt [] x = 0 := fun x => by simp [cnt]
  simp only [catalystsIn, cnt_cons, e]
  omega

theorem catalystsIn_perm {l l' : List Nat} (h : l ~ l') : catalystsIn l = catalystsIn l' := by
  simp only [catalystsIn, cnt_perm h]

theorem catalysts_made {n : Nat} {cs : List Nat} (h : (n, cs) ∈ madeOf) :
    catalystsIn cs = nucleusP n + nucleusAp n + nucleusN n + nucleusAn n := by
  simp only [madeOf, List.mem_cons, List.not_mem_nil, or_false, Prod.mk.injEq] at h
  rcases h with ⟨rfl, rfl⟩ | ⟨rfl, rfl⟩ | ⟨rfl, rfl⟩ | ⟨rfl, rfl⟩ | ⟨rfl, rfl⟩ | ⟨rfl, rfl⟩ <;>
    decide +kernel

theorem canForm_iff (known : Nat → Bool) {inc : List Nat} (hl : inc.length = 4) {n : Nat}
    {cs : List Nat} (h : (n, cs) ∈ madeOf) :
    canForm known inc n = true ↔
      known n = true ∧ ∃ x, x ∈ pions ++ nucleons ∧ inc ~ x :: cs := by
  obtain ⟨h1, h2, h3, h4, h5, h6, hlen, h7, -⟩ := counts_of h
  have hcat := catalysts_made h
  simp only [canForm, Bool.and_eq_true, decide_eq_true_eq]
  constructor
  · rintro ⟨⟨hk, ⟨⟨⟨⟨⟨c1, c2⟩, c3⟩, c4⟩, c5⟩, c6⟩⟩, hc⟩
    refine ⟨hk, ?_⟩
    have hsub : cs <+~ inc := by
      rw [List.subperm_ext_iff]
      intro x hx
      have : cnt cs x ≤ cnt inc x := by
        rcases h7 x hx with rfl | rfl | rfl | rfl | rfl | rfl
        · rw [← h1]; exact c1
        · rw [← h2]; exact c2
        · rw [← h3]; exact c3
        · rw [← h4]; exact c4
        · rw [← h5]; exact c5
        · rw [← h6]; exact c6
      unfold cnt at this
      exact_mod_cast this
    have hr : inc ~ cs ++ inc.diff cs := (List.subperm_append_diff_self_of_count_le fun x hx =>
      (List.subperm_ext_iff.1 hsub) x hx).symm
    generalize inc.diff cs = rest at hr
    have hrl : rest.length = 1 := by
      have := hr.length_eq
      rw [List.length_append] at this
      omega
    obtain ⟨y, rfl⟩ := List.length_eq_one_iff.1 hrl
    have hperm : inc ~ y :: cs := hr.trans (List.perm_append_singleton y cs)
    refine ⟨y, ?_, hperm⟩
    by_contra hy
    have e := catalystsIn_perm hperm
    rw [catalystsIn_cons, catalystsIn_single, if_neg hy] at e
    omega
  · rintro ⟨hk, x, hx, hp⟩
    have le : ∀ y, cnt cs y ≤ cnt inc y := by
      intro y
      rw [cnt_perm hp, cnt_cons]
      split_ifs <;> omega
    have e := catalystsIn_perm hp
    rw [catalystsIn_cons, catalystsIn_single, if_pos hx] at e
    refine ⟨⟨hk, ⟨⟨⟨⟨⟨?_, ?_⟩, ?_⟩, ?_⟩, ?_⟩, ?_⟩⟩, by omega⟩
    · rw [h1]; exact le _
    · rw [h2]; exact le _
    · rw [h3]; exact le _
    · rw [h4]; exact le _
    · rw [h5]; exact le _
    · rw [h6]; exact le _

theorem symmetry4_eq {inc : List Nat} (h : ∀ x, inc.count x ≤ 3) :
    symmetry4 inc = ((∏ x ∈ inc.toFinset, (inc.count x).factorial : ℕ) : ℚ) := by
  unfold symmetry4
  rw [Nat.cast_prod, show inc.toFinset = inc.dedup.toFinset from by ext x; simp,
    List.prod_toFinset _ (List.nodup_dedup inc)]
  congr 1
  apply List.map_congr_left
  intro x _
  have hx := h x
  generalize inc.count x = k at hx
  interval_cases k <;> simp [Nat.factorial]

theorem channel42_ok (known : Nat → Bool) {inc : List Nat} (hl : inc.length = 4) {n : Nat}
    {cs : List Nat} (h : (n, cs) ∈ madeOf) :
    ∃ l, channel42 known inc n = some l ∧
      Ok inc (fun o => known n = true ∧ ∃ x, x ∈ pions ++ nucleons ∧ o = [x, n] ∧ inc ~ x :: cs) l := by
  unfold channel42
  by_cases hc : canForm known inc n = true
  · rw [if_pos hc]
    obtain ⟨hk, x, hx, hp⟩ := (canForm_iff known hl h).1 hc
    have hlo : ∀ y, (leftOver inc n y == 1) = decide (y = x) := by
      intro y
      rw [leftOver_eq h, cnt_perm hp, cnt_cons]
      by_cases e : y = x
      · subst e; simp
      · have e' : ¬ x = y := fun h => e h.symm
        simp [e, e']
    have hfind : inc.find? (fun y => leftOver inc n y == 1) = some x := by
      rw [show (fun y => leftOver inc n y == 1) = fun y => decide (y = x) from funext hlo]
      have hm : x ∈ inc := hp.symm.subset (by simp)
      clear hl hc hp hlo
      induction inc with
      | nil => simp at hm
      | cons a t ih =>
        rw [List.find?_cons]
        by_cases e : a = x
        · simp [e]
        · simp only [e, decide_false]
          apply ih
          rcases List.mem_cons.1 hm with h | h
          · exact absurd h.symm e
          · exact h
    rw [hfind]
    refine ⟨_, rfl, ok_one ?_ ?_ ?_⟩
    · intro o
      constructor
      · rintro ⟨-, x', -, rfl, hp'⟩
        have e : x' :: cs ~ x :: cs := hp'.symm.trans hp
        have e2 : cs ++ [x'] ~ cs ++ [x] :=
          ((List.perm_append_singleton x' cs).trans e).trans (List.perm_append_singleton x cs).symm
        have := List.perm_singleton.1 ((List.perm_append_left_iff cs).1 e2)
        simp only [List.cons.injEq, and_true] at this
        rw [this]
      · rintro rfl
        exact ⟨hk, x, hx, rfl, hp⟩
    · dsimp only
      have hcnt : ∀ y, inc.count y ≤ 3 := by
        intro y
        rw [hp.count_eq, List.count_cons]
        have := (counts_of h).2.2.2.2.2.2.2.2 y
        split_ifs <;> omega
      rw [symmetry4_eq hcnt]
      unfold reactDegen statFactor
      simp only [List.map_cons, List.map_nil, List.prod_cons, List.prod_nil, mul_one]
      rw [mul_comm]
    · rw [hl]
      rfl
  · rw [if_neg hc]
    refine ⟨[], rfl, ok_nil ?_⟩
    rintro o ⟨hk, x, hx, -, hp⟩
    exact hc ((canForm_iff known hl h).2 ⟨hk, x, hx, hp⟩)

theorem nuclei3_eq : nuclei3 = madeOf.map Prod.fst := rfl

theorem mapM_ok (known : Nat → Bool) {inc : List Nat} (hl : inc.length = 4) :
    ∀ ms : List (Nat × List Nat), (∀ m ∈ ms, m ∈ madeOf) → (ms.map Prod.fst).Nodup →
    ∃ ls, (ms.map Prod.fst).mapM (channel42 known inc) = some ls ∧
      Ok inc (fun o => ∃ n cs x, (n, cs) ∈ ms ∧ known n = true ∧ x ∈ pions ++ nucleons ∧
        o = [x, n] ∧ inc ~ x :: cs) ls.flatten := by
  intro ms
  induction ms with
  | nil => exact fun _ _ => ⟨[], rfl, ok_nil (by rintro o ⟨n, cs, x, h, -⟩; simp at h)⟩
  | cons m ms ih =>
    intro hm hnd
    obtain ⟨n, cs⟩ := m
    rw [List.map_cons, List.nodup_cons] at hnd
    obtain ⟨ls, h1, h2⟩ := ih (fun m hm' => hm m (List.mem_cons_of_mem _ hm')) hnd.2
    obtain ⟨l, h3, h4⟩ := channel42_ok known hl (hm (n, cs) (by simp))
    refine ⟨l :: ls, ?_, ?_⟩
    · rw [List.map_cons, List.mapM_cons, h3, h1]
      rfl
    · rw [List.flatten_cons]
      refine ok_congr (ok_append h4 h2 ?_) ?_
      · rintro o ⟨-, x, -, rfl, -⟩ ⟨n', cs', x', hmem, -, -, h, -⟩
        simp only [List.cons.injEq, and_true] at h
        exact hnd.1 (List.mem_map.2 ⟨(n', cs'), hmem, h.2.symm⟩)
      · intro o
        constructor
        · rintro (⟨hk, x, hx, ho, hp⟩ | ⟨n', cs', x, hmem, hk, hx, ho, hp⟩)
          · exact ⟨n, cs, x, by simp, hk, hx, ho, hp⟩
          · exact ⟨n', cs', x, List.mem_cons_of_mem _ hmem, hk, hx, ho, hp⟩
        · rintro ⟨n', cs', x, hmem, hk, hx, ho, hp⟩
          rcases List.mem_cons.1 hmem with e | e
          · simp only [Prod.mk.injEq] at e
            obtain ⟨rfl, rfl⟩ := e
            exact Or.inl ⟨hk, x, hx, ho, hp⟩
          · exact Or.inr ⟨n', cs', x, e, hk, hx, ho, hp⟩

theorem ok42 (known : Nat → Bool) {inc : List Nat} (hl : inc.length = 4) :
    ∃ l, fourToTwo known inc = some l ∧
      Ok inc (fun o => ∃ n cs x, (n, cs) ∈ madeOf ∧ known n = true ∧ x ∈ pions ++ nucleons ∧
        o = [x, n] ∧ inc ~ x :: cs) l := by
  obtain ⟨ls, h1, h2⟩ := mapM_ok known hl madeOf (fun _ h => h) (by decide)
  refine ⟨ls.flatten, ?_, h2⟩
  unfold fourToTwo
  rw [nuclei3_eq, h1]
  rfl

/-! ### Five particles -/

theorem five_counts : ∀ (l : List Nat), (∀ x ∈ l, x = piP ∨ x = piZ ∨ x = piM) →
    (l.map charge).sum = (l.count piP : Int) - l.count piM ∧
    l.length = l.count piP + l.count piZ + l.count piM := by
  intro l
  induction l with
  | nil => intro _; simp
  | cons a t ih =>
    intro h
    obtain ⟨h1, h2⟩ := ih fun x hx => h x (List.mem_cons_of_mem _ hx)
    have c1 : charge piP = 1 := by decide +kernel
    have c2 : charge piZ = 0 := by decide +kernel
    have c3 : charge piM = -1 := by decide +kernel
    rw [List.map_cons, List.sum_cons, h1, List.length_cons, h2]
    rcases h a (by simp) with rfl | rfl | rfl
    · rw [c1]; simp [List.count_cons, piP, piZ, piM]; omega
    · rw [c2]; simp [List.count_cons, piP, piZ, piM]; omega
    · rw [c3]; simp [List.count_cons, piP, piZ, piM]; omega

theorem fivePions_iff {inc : List Nat} (hw : ∀ d ∈ inc, Word d) (hl : inc.length = 5) :
    fivePions inc = true ↔ inc ~ [piP, piP, piM, piM, piZ] := by
  simp only [fivePions, Bool.and_eq_true, List.all_eq_true, beq_iff_eq]
  constructor
  · rintro ⟨⟨h1, h2⟩, h3⟩
    have hp : ∀ x ∈ inc, x = piP ∨ x = piZ ∨ x = piM := fun x hx => (isPion_iff (hw x hx)).1 (h1 x hx)
    obtain ⟨e1, e2⟩ := five_counts inc hp
    have hz : inc.count piZ = 1 := h3
    rw [List.perm_iff_count]
    intro x
    by_cases hx : x = piP ∨ x = piZ ∨ x = piM
    · rcases hx with rfl | rfl | rfl
      · rw [show [piP, piP, piM, piM, piZ].count piP = 2 from by decide]; omega
      · rw [show [piP, piP, piM, piM, piZ].count piZ = 1 from by decide]; omega
      · rw [show [piP, piP, piM, piM, piZ].count piM = 2 from by decide]; omega
    · rw [List.count_eq_zero_of_not_mem fun hm => hx (hp x hm),
        List.count_eq_zero_of_not_mem fun hm => hx (by simp at hm; tauto)]
  · intro h
    refine ⟨⟨?_, ?_⟩, ?_⟩
    · intro x hx
      have := h.subset hx
      simp only [List.mem_cons, List.not_mem_nil, or_false] at this
      rcases this with rfl | rfl | rfl | rfl | rfl <;> decide
    · rw [sum_perm h]
      decide +kernel
    · rw [h.countP_eq]
      decide

theorem ok52 {known : Nat → Bool} {inc : List Nat} (hw : ∀ d ∈ inc, Word d) (hl : inc.length = 5)
    (hk : known proton = true ∧ known antiProton = true) :
    ∃ l, fiveToTwo known inc = some l ∧
      Ok inc (fun o => (known proton = true ∧ known neutron = true) ∧
        inc ~ [piP, piP, piM, piM, piZ] ∧
        (o = [proton, antiProton] ∨ o = [neutron, antiNeutron])) l := by
  unfold fiveToTwo
  by_cases h : fivePions inc = true
  · have hp := (fivePions_iff hw hl).1 h
    rw [if_pos h, if_pos (by simp [hk.1, hk.2])]
    dsimp only
    by_cases hn : known neutron = true
    · rw [if_pos (by simp [hk.1, hn])]
      have hf : ∀ o ∈ [[proton, antiProton], [neutron, antiNeutron]],
          4 * reactDegen (inc.map degen).prod (degen proton) (degen antiProton) =
            statFactor inc o := by
        intro o ho
        rw [statFactor_perm hp, (hp.map degen).prod_eq]
        fin_cases ho <;> decide +kernel
      refine ⟨_, rfl, ?_, ?_, ?_⟩
      · intro o
        simp [hk.1, hn, hp]
      · show [[proton, antiProton], [neutron, antiNeutron]].Nodup
        decide
      · intro ch hch
        simp only [List.mem_cons, List.not_mem_nil, or_false] at hch
        rcases hch with rfl | rfl
        · exact ⟨hf _ (by simp), by rw [hl]; rfl⟩
        · exact ⟨hf _ (by simp), by rw [hl]; rfl⟩
    · rw [if_neg (by simp [hn])]
      exact ⟨[], rfl, ok_nil (by simp [hn])⟩
  · rw [if_neg h]
    refine ⟨[], rfl, ok_nil ?_⟩
    rintro o ⟨-, hp, -⟩
    exact h ((fivePions_iff hw hl).2 hp)

/-! ### The theorems -/

/-- The codes used are the ones of the PDG numbering scheme. -/
theorem C98_codes : ([("2212", proton), ("2112", neutron), ("3122", lambda), ("-2212", antiProton),
    ("-2112", antiNeutron), ("-3122", antiLambda), ("211", piP), ("111", piZ), ("-211", piM),
    ("221", eta), ("223", omega), ("333", phi), ("331", etaPrime), ("1000010020", deuteron),
    ("-1000010020", antiDeuteron), ("1000010030", triton), ("-1000010030", antiTriton),
    ("1000020030", he3), ("-1000020030", antiHe3), ("1010010030", hyperTriton),
    ("-1010010030", antiHyperTriton)].all
      fun p => decide (Pdg.ofString p.1.toList = .ok p.2)) = true := by
  decide +kernel

/-- **C98.** Whatever the incoming particles and switches, the reactions added are exactly the
documented ones, each once, with the spin and symmetry factor of the specification and the right
process type; if protons are known nothing is dereferenced that does not exist. -/
theorem C98_reactions (fl : Flags) (known : Nat → Bool) (inc : List Nat) (hw : ∀ d ∈ inc, Word d)
    (hk : known proton = true ∧ known antiProton = true) :
    ∃ cs, reactions fl known inc = some cs ∧
      (∀ o, o ∈ cs.map Channel.outs ↔ Allowed fl known inc o) ∧ (cs.map Channel.outs).Nodup ∧
      ∀ ch ∈ cs, ch.factor = statFactor inc ch.outs ∧
        kindOf inc.length ch.outs.length = some ch.kind := by
  have len : ∀ {o}, Allowed fl known inc o → inc.length = 3 ∨ inc.length = 4 ∨ inc.length = 5 := by
    intro o h
    cases h with
    | omega _ h _ => exact Or.inl h.length_eq
    | phi _ h _ => exact Or.inl h.length_eq
    | etaPrime _ h _ => exact Or.inl (h.elim (fun h => h.length_eq) fun h => h.length_eq)
    | deuteron _ _ _ _ _ h => exact Or.inl h.length_eq
    | antiDeuteron _ _ _ _ _ h => exact Or.inl h.length_eq
    | nucleus x n cs _ _ hm _ h =>
      refine Or.inr (Or.inl ?_)
      rw [h.length_eq, List.length_cons, (counts_of hm).2.2.2.2.2.2.1]
    | protons _ _ _ h => exact Or.inr (Or.inr h.length_eq)
    | neutrons _ _ _ h => exact Or.inr (Or.inr h.length_eq)
  have none : ∀ cs, inc.length ≠ 3 → inc.length ≠ 4 → inc.length ≠ 5 → cs = [] →
      Ok inc (Allowed fl known inc) cs := by
    rintro _ n3 n4 n5 rfl
    refine ok_nil fun o h => ?_
    rcases len h with h | h | h
    · exact n3 h
    · exact n4 h
    · exact n5 h
  show ∃ cs, reactions fl known inc = some cs ∧ Ok inc (Allowed fl known inc) cs
  rcases inc with _ | ⟨a, _ | ⟨b, _ | ⟨c, _ | ⟨d, _ | ⟨e, _ | ⟨f, t⟩⟩⟩⟩⟩⟩
  · exact ⟨[], rfl, none [] (by simp) (by simp) (by simp) rfl⟩
  · exact ⟨[], rfl, none [] (by simp) (by simp) (by simp) rfl⟩
  · exact ⟨[], rfl, none [] (by simp) (by simp) (by simp) rfl⟩
  · have ha := hw a (by simp)
    have hb := hw b (by simp)
    have hc := hw c (by simp)
    refine ⟨_, rfl, ok_congr (ok_append (ok_ite fun _ => ok31 known ha hb hc)
      (ok_ite fun _ => ok32 known ha hb hc) ?_) ?_⟩
    · rintro o ⟨-, (⟨rfl, -⟩ | ⟨rfl, -⟩ | ⟨rfl, -⟩)⟩ ⟨-, -, (⟨x, -, h, -⟩ | ⟨x, -, h, -⟩)⟩ <;>
        simp at h
    · intro o
      constructor
      · rintro (⟨hf, (⟨rfl, h, hk⟩ | ⟨rfl, h, hk⟩ | ⟨rfl, h, hk⟩)⟩ |
          ⟨hf, ⟨k1, k2⟩, (⟨x, hx, rfl, h⟩ | ⟨x, hx, rfl, h⟩)⟩)
        · exact .omega hf h hk
        · exact .phi hf h hk
        · exact .etaPrime hf h hk
        · exact .deuteron x hf k1 k2 hx h
        · exact .antiDeuteron x hf k1 k2 hx h
      · intro h
        cases h with
        | omega hf h hk => exact Or.inl ⟨hf, Or.inl ⟨rfl, h, hk⟩⟩
        | phi hf h hk => exact Or.inl ⟨hf, Or.inr (Or.inl ⟨rfl, h, hk⟩)⟩
        | etaPrime hf h hk => exact Or.inl ⟨hf, Or.inr (Or.inr ⟨rfl, h, hk⟩)⟩
        | deuteron x hf k1 k2 hx h => exact Or.inr ⟨hf, ⟨k1, k2⟩, Or.inl ⟨x, hx, rfl, h⟩⟩
        | antiDeuteron x hf k1 k2 hx h => exact Or.inr ⟨hf, ⟨k1, k2⟩, Or.inr ⟨x, hx, rfl, h⟩⟩
        | nucleus x n cs _ _ hm _ h =>
          have h3 := (counts_of hm).2.2.2.2.2.2.1
          have := h.length_eq
          simp [h3] at this
        | protons _ _ _ h => exact absurd h.length_eq (by simp)
        | neutrons _ _ _ h => exact absurd h.length_eq (by simp)
  · cases hf : fl.nuclei4to2 with
    | false =>
      refine ⟨[], by simp [reactions, hf], ok_nil ?_⟩
      intro o h
      cases h with
      | omega _ h _ => exact absurd h.length_eq (by simp)
      | phi _ h _ => exact absurd h.length_eq (by simp)
      | etaPrime _ h _ => rcases h with h | h <;> exact absurd h.length_eq (by simp)
      | deuteron _ _ _ _ _ h => exact absurd h.length_eq (by simp)
      | antiDeuteron _ _ _ _ _ h => exact absurd h.length_eq (by simp)
      | nucleus x n cs h _ hm _ _ => rw [hf] at h; cases h
      | protons _ _ _ h => exact absurd h.length_eq (by simp)
      | neutrons _ _ _ h => exact absurd h.length_eq (by simp)
    | true =>
      obtain ⟨l, h1, h2⟩ := ok42 known (inc := [a, b, c, d]) rfl
      refine ⟨l, by simp [reactions, hf, h1], ok_congr h2 fun o => ?_⟩
      constructor
      · rintro ⟨n, cs, x, hm, hk, hx, rfl, hp⟩
        exact .nucleus x n cs hf hk hm hx hp
      · intro h
        cases h with
        | omega _ h _ => exact absurd h.length_eq (by simp)
        | phi _ h _ => exact absurd h.length_eq (by simp)
        | etaPrime _ h _ => rcases h with h | h <;> exact absurd h.length_eq (by simp)
        | deuteron _ _ _ _ _ h => exact absurd h.length_eq (by simp)
        | antiDeuteron _ _ _ _ _ h => exact absurd h.length_eq (by simp)
        | nucleus x n cs _ hk hm hx hp => exact ⟨n, cs, x, hm, hk, hx, rfl, hp⟩
        | protons _ _ _ h => exact absurd h.length_eq (by simp)
        | neutrons _ _ _ h => exact absurd h.length_eq (by simp)
  · cases hf : fl.nnbar5to2 with
    | false =>
      refine ⟨[], by simp [reactions, hf], ok_nil ?_⟩
      intro o h
      cases h with
      | omega _ h _ => exact absurd h.length_eq (by simp)
      | phi _ h _ => exact absurd h.length_eq (by simp)
      | etaPrime _ h _ => rcases h with h | h <;> exact absurd h.length_eq (by simp)
      | deuteron _ _ _ _ _ h => exact absurd h.length_eq (by simp)
      | antiDeuteron _ _ _ _ _ h => exact absurd h.length_eq (by simp)
      | nucleus x n cs _ _ hm _ h =>
        have h3 := (counts_of hm).2.2.2.2.2.2.1
        have := h.length_eq
        simp [h3] at this
      | protons h _ _ _ => rw [hf] at h; cases h
      | neutrons h _ _ _ => rw [hf] at h; cases h
    | true =>
      obtain ⟨l, h1, h2⟩ := ok52 hw rfl hk
      refine ⟨l, by simp [reactions, hf, h1], ok_congr h2 fun o => ?_⟩
      constructor
      · rintro ⟨⟨k1, k2⟩, hp, (rfl | rfl)⟩
        · exact .protons hf k1 k2 hp
        · exact .neutrons hf k1 k2 hp
      · intro h
        cases h with
        | omega _ h _ => exact absurd h.length_eq (by simp)
        | phi _ h _ => exact absurd h.length_eq (by simp)
        | etaPrime _ h _ => rcases h with h | h <;> exact absurd h.length_eq (by simp)
        | deuteron _ _ _ _ _ h => exact absurd h.length_eq (by simp)
        | antiDeuteron _ _ _ _ _ h => exact absurd h.length_eq (by simp)
        | nucleus x n cs _ _ hm _ h =>
          have h3 := (counts_of hm).2.2.2.2.2.2.1
          have := h.length_eq
          simp [h3] at this
        | protons _ k1 k2 hp => exact ⟨⟨k1, k2⟩, hp, Or.inl rfl⟩
        | neutrons _ k1 k2 hp => exact ⟨⟨k1, k2⟩, hp, Or.inr rfl⟩
  · exact ⟨[], rfl, none [] (by simp) (by simp) (by simp) rfl⟩

/-- **C98.** Every reaction that is added conserves charge, baryon number and strangeness. -/
theorem C98_conserved (fl : Flags) (known : Nat → Bool) (inc : List Nat) (hw : ∀ d ∈ inc, Word d)
    (hk : known proton = true ∧ known antiProton = true) (cs : List Channel)
    (h : reactions fl known inc = some cs) (ch : Channel) (hch : ch ∈ cs) :
    ∀ q ∈ [charge, baryonNumber, strangeness], (ch.outs.map q).sum = (inc.map q).sum := by
  obtain ⟨cs', h1, h2, -⟩ := C98_reactions fl known inc hw hk
  rw [h] at h1
  cases h1
  have ha := (h2 ch.outs).1 (List.mem_map.2 ⟨ch, hch, rfl⟩)
  intro q hq
  generalize ch.outs = o at ha
  have h3 : ∀ (x y z n : Nat), q y + q z = q n → inc ~ [x, y, z] →
      ([x, n].map q).sum = (inc.map q).sum := by
    intro x y z n e hp
    rw [sum_perm hp]
    simp only [List.map_cons, List.map_nil, List.sum_cons, List.sum_nil]
    omega
  simp only [List.mem_cons, List.not_mem_nil, or_false] at hq
  cases ha with
  | omega _ hp _ => rw [sum_perm hp]; rcases hq with rfl | rfl | rfl <;> decide +kernel
  | phi _ hp _ => rw [sum_perm hp]; rcases hq with rfl | rfl | rfl <;> decide +kernel
  | etaPrime _ hp _ =>
    rcases hp with hp | hp <;> rw [sum_perm hp] <;> rcases hq with rfl | rfl | rfl <;> decide +kernel
  | deuteron x _ _ _ _ hp =>
    exact h3 x _ _ _ (by rcases hq with rfl | rfl | rfl <;> decide +kernel) hp
  | antiDeuteron x _ _ _ _ hp =>
    exact h3 x _ _ _ (by rcases hq with rfl | rfl | rfl <;> decide +kernel) hp
  | nucleus x n cs _ _ hm _ hp =>
    rw [sum_perm hp]
    have e : (cs.map q).sum = q n := by
      simp only [madeOf, List.mem_cons, List.not_mem_nil, or_false, Prod.mk.injEq] at hm
      rcases hm with ⟨rfl, rfl⟩ | ⟨rfl, rfl⟩ | ⟨rfl, rfl⟩ | ⟨rfl, rfl⟩ | ⟨rfl, rfl⟩ | ⟨rfl, rfl⟩ <;>
        rcases hq with rfl | rfl | rfl <;> decide +kernel
    simp only [List.map_cons, List.map_nil, List.sum_cons, List.sum_nil, e]
    omega
  | protons _ _ _ hp => rw [sum_perm hp]; rcases hq with rfl | rfl | rfl <;> decide +kernel
  | neutrons _ _ _ hp => rw [sum_perm hp]; rcases hq with rfl | rfl | rfl <;> decide +kernel

/-- Without protons in the particle list five pions dereference a null pointer, although the missing
type is checked for afterwards. -/
theorem C98_no_protons_false (fl : Flags) (known : Nat → Bool) (hf : fl.nnbar5to2 = true)
    (hk : known proton = false) : reactions fl known [piP, piM, piP, piZ, piM] = none := by
  have : fivePions [piP, piM, piP, piZ, piM] = true := by decide +kernel
  simp [reactions, fiveToTwo, hf, hk, this]

/-- Two protons and two neutrons: both nuclei can be formed, and each nucleon can be the catalyst. -/
example : (reactions ⟨true, true, true, true⟩ (fun _ => true) [proton, neutron, proton, neutron]).map
    (·.map Channel.outs) = some [[proton, triton], [neutron, he3]] := by decide +kernel

example : ∀ d ∈ [proton, neutron, piM, antiProton, deuteron, lambda], Word d := by
  unfold Word
  decide +kernel

example : (reactions ⟨true, true, true, true⟩ (fun _ => true) [neutron, antiProton, antiNeutron]).map
    (·.map Channel.outs) = some [[neutron, antiDeuteron]] := by decide +kernel

end Verif.Multi
