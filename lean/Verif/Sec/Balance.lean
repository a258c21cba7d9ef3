import Verif.Sec.Props
import Mathlib.Tactic.FieldSimp
import Mathlib.Tactic.LinearCombination

/-!
Detailed balance of strangeness exchange and of Delta + kaon reactions (C110).
-/

namespace Verif.Sec

open Verif

/-! ### Lookups -/

/-- Types are identified by their codes. -/
def Distinct (W : World) : Prop := ∀ t ∈ W.types, ∀ u ∈ W.types, t.pdg = u.pdg → t = u

theorem find_of {W : World} (hd : Distinct W) {t : PType} (ht : t ∈ W.types) {c : Int}
    (hc : Pdg.ofInt c = .ok t.pdg) : find W c = .ok t := by
  unfold find
  rw [hc]
  simp only []
  split
  · rename_i u hu
    have h1 := List.find?_some hu
    simp only [beq_iff_eq] at h1
    rw [hd u (List.mem_of_find?_eq_some hu) t ht h1]
  · rename_i hn
    have := List.find?_eq_none.mp hn t ht
    simp at this

/-- The constructor from an integer agrees with the code for the codes of the tables. -/
def codesOk (r : Row) : Bool :=
  [r.baryon, r.meson, r.out1, r.out2].all fun c =>
    match Pdg.ofInt c with
    | .ok d => d == ofCode c && c != 0 && Pdg.code d == c
    | .error _ => false

theorem codes_ok {table : List Row} (ht : table.all codesOk = true) {r : Row} (hr : r ∈ table) :
    ∀ c ∈ [r.baryon, r.meson, r.out1, r.out2], Pdg.ofInt c = .ok (ofCode c) ∧ c ≠ 0 ∧
      Pdg.code (ofCode c) = c := by
  intro c hc
  have := List.all_eq_true.mp (List.all_eq_true.mp ht r hr) c hc
  split at this
  · rename_i d hd
    simp only [Bool.and_eq_true, beq_iff_eq, bne_iff_ne] at this
    exact ⟨by rw [hd, this.1.1], this.1.2, by rw [← this.1.1]; exact this.2⟩
  · cases this

theorem nk_codes : nkXx.all codesOk = true := by decide +kernel
theorem ypi_codes : ypiXx.all codesOk = true := by decide +kernel
theorem deltak_codes : deltakXx.all codesOk = true := by decide +kernel

/-- A type whose code is in a table. -/
theorem pdg_of {t : PType} (h : Good t) {c : Int} (hc : c = Pdg.code t.pdg) (h0 : c ≠ 0)
    (hs : c.natAbs < 131072) : t.pdg = ofCode c := by
  rw [hc]
  refine (h.ofCode ?_ (by rw [← hc]; exact h0)).symm
  exact not_nucleus h (by rw [← hc]; exact hs)

theorem small_codes : (nkXx ++ ypiXx ++ deltakXx).all (fun r =>
    decide (r.baryon.natAbs < 131072) && decide (r.meson.natAbs < 131072)) = true := by decide +kernel

/-! ### Isospin ratios -/

/-- `flip` on codes. -/
def flipC (debug : Bool) : List Nat → Int → Except Err Int
  | [], f => .ok f
  | p :: ps, f =>
    if (Pdg.code p).natAbs == 0x2212 || (Pdg.code p).natAbs == 0x2112 then
      if f = 0 then flipC debug ps (Pdg.antiparticleSign p)
      else if debug && Pdg.antiparticleSign p != f then .error .assertion
      else flipC debug ps f
    else flipC debug ps f

theorem flip_eq (debug : Bool) (l : List PType) (f : Int) :
    flip debug l f = flipC debug (l.map fun t => t.pdg) f := by
  induction l generalizing f with
  | nil => rfl
  | cons p ps ih =>
    simp only [flip, flipC, List.map_cons, isNucleon, sign, ih]

/-- The entry of the table that is read. -/
def entry (debug : Bool) (l : List Nat) : Except Err (List Int) :=
  match flipC debug l 0 with
  | .error e => .error e
  | .ok f =>
    match ratioTable.find? (fun e => e.take 4 == l.map fun d => Pdg.code d * f) with
    | some e => .ok e
    | none => .error .outOfRange

theorem getRatio_eq (W : World) (a b c d : PType) :
    getRatio W a b c d = (entry W.debug [a.pdg, b.pdg, c.pdg, d.pdg]).map (storedRatio W) := by
  unfold getRatio entry
  rw [flip_eq]
  simp only [List.map_cons, List.map_nil]
  cases flipC W.debug [a.pdg, b.pdg, c.pdg, d.pdg] 0 with
  | error e => rfl
  | ok f =>
    simp only []
    cases ratioTable.find? (fun e => e.take 4 ==
      [Pdg.code a.pdg * f, Pdg.code b.pdg * f, Pdg.code c.pdg * f, Pdg.code d.pdg * f]) <;> rfl

/-- The stored entry for row `r` when `r'` is the other channel of the pair. -/
def expected (r r' : Row) : List Int :=
  [(r.baryon.natAbs : Int), (r.meson.natAbs : Int), (r.out1.natAbs : Int), (r.out2.natAbs : Int),
    (r'.out1.natAbs : Int), (r'.out2.natAbs : Int)]

/-- The entry read for a row. -/
def entryOf (debug : Bool) (r : Row) : Option (List Int) :=
  (entry debug [ofCode r.baryon, ofCode r.meson, ofCode r.out1, ofCode r.out2]).toOption

/-- Every ratio asked for by `nk_xx` is stored, and the two channels of a pair ask for each other's
complement. -/
def ratioRow (r : Row) : Bool :=
  match r.xs with
  | .ratio p c d =>
    c == r.out1 && d == r.out2 && (entryOf true r).isSome && (entryOf false r).isSome &&
    nkXx.all fun r' =>
      r' == r || r'.baryon != r.baryon || r'.meson != r.meson || r'.flag != .knkd ||
        (r'.xs == .ratio p r'.out1 r'.out2 && entryOf true r == some (expected r r') &&
          entryOf true r' == some (expected r' r) && entryOf false r == some (expected r r') &&
          entryOf false r' == some (expected r' r))
  | _ => true

theorem ratio_rows : nkXx.all ratioRow = true := by decide +kernel

/-! ### Matching rows -/

/-- A row of `ypi_xx` and its inverse in `nk_xx`. -/
def inverseY (r : Row) : Bool :=
  match r.xs with
  | .balance p c d => c == r.out1 && d == r.out2 && r.baryon != r.meson && c != d &&
      nkXx.contains ⟨c, d, .strange, .par p, r.meson, r.baryon⟩
  | _ => false

/-- A row of `deltak_xx` and its inverse in `nk_xx`. -/
def inverseD (r : Row) : Bool :=
  match r.xs with
  | .balanceR p c d => c == r.out1 && d == r.out2 && r.baryon != r.meson && c != d &&
      nkXx.contains ⟨c, d, .knkd, .ratio p r.meson r.baryon, r.meson, r.baryon⟩
  | _ => false

theorem inverse_y : ypiXx.all inverseY = true := by decide +kernel
theorem inverse_d : deltakXx.all inverseD = true := by decide +kernel

theorem channels_row {W : World} {a b : PType} {rows : List Row} {l : List Branch}
    (h : channels W a b rows = .ok l) {r : Row} (hr : r ∈ rows) :
    ∃ l', channel W a b r = .ok l' ∧ ∀ br ∈ l', br ∈ l := by
  induction rows generalizing l with
  | nil => simp at hr
  | cons r0 rs ih =>
    unfold channels at h
    obtain ⟨l1, h1, h⟩ := bind_ok.mp h
    obtain ⟨l2, h2, h⟩ := bind_ok.mp h
    cases h
    rcases List.mem_cons.mp hr with rfl | hm
    · exact ⟨l1, h1, fun br hb => List.mem_append_left _ hb⟩
    · obtain ⟨l', e, hb⟩ := ih h2 hm
      exact ⟨l', e, fun br hbr => List.mem_append_right _ (hb br hbr)⟩

theorem channel_of {W : World} {a b t1 t2 : PType} {r : Row} {l : List Branch} {x : ℝ}
    (h : channel W a b r = .ok l) (h1 : find W r.out1 = .ok t1) (h2 : find W r.out2 = .ok t2)
    (hx : eval W a b r.xs = .ok x) (hs : small < x) (he : t1.minSpec + t2.minSpec < W.energy t1 t2) :
    (⟨[t1, t2], x⟩ : Branch) ∈ l := by
  unfold channel at h
  rw [h1, h2, hx] at h
  simp only [bind, Except.bind, addChannel, if_neg (not_le.mpr he)] at h
  rw [if_pos hs] at h
  cases h
  simp

/-! ### Detailed balance -/

/-- Number of spin states of a particle. -/
noncomputable def states (t : PType) : ℝ := ((t.spin + 1 : ℕ) : ℝ)

theorem states_pos (t : PType) : 0 < states t := by
  unfold states
  exact_mod_cast Nat.succ_pos _

/-- **C110** (strangeness exchange). If a hyperon and a pion can become a nucleon and a kaon with
cross section σ', then at the same energy the nucleon and the kaon can become that hyperon and pion,
with the cross section given by detailed balance: `σ' g_Y g_π p²(Yπ) = σ g_N g_K p²(NK)`. The channel is
there whenever its cross section is above the cutoff and the energy above threshold. -/
theorem C110_strangeness_exchange (W : World) (hd : Distinct W) (hg : ∀ t ∈ W.types, Good t)
    (inc : Included) (y pi : PType) (hy : y ∈ W.types) (hpi : pi ∈ W.types)
    (hyp : Pdg.isHyperon y.pdg = true) (l : List Branch) (h : ypiXxList W inc y pi = .ok l)
    (hp : Kin.pCMsqrS (W.sqrts * W.sqrts) y.mass pi.mass ≠ 0) (br : Branch) (hbr : br ∈ l) :
    ∃ n k σ, br.out = [n, k] ∧ isNucleon n = true ∧
      br.weight * (states y * states pi) * Kin.pCMsqrS (W.sqrts * W.sqrts) y.mass pi.mass =
        σ * (states n * states k) * Kin.pCMsqrS (W.sqrts * W.sqrts) n.mass k.mass ∧
      ∀ off l', nkXxList W inc off n k = .ok l' → small < σ →
        pi.minSpec + y.minSpec < W.energy pi y → (⟨[pi, y], σ⟩ : Branch) ∈ l' := by
  unfold ypiXxList at h
  split at h
  · rename_i hinc
    simp only [hyp, if_true] at h
    obtain ⟨r, hr, l', hl', hm⟩ := channels_mem h hbr
    obtain ⟨n, k, x, h1, h2, hx, hs, he, rfl⟩ := channel_ok hl' hm
    simp only [select, List.mem_filter, Bool.and_eq_true, beq_iff_eq] at hr
    obtain ⟨hr, ⟨hc1, hc2⟩, _⟩ := hr
    have hcodes := codes_ok ypi_codes hr
    have hinv := List.all_eq_true.mp inverse_y r hr
    unfold inverseY at hinv
    have hsm := List.all_eq_true.mp small_codes r (by simp [hr])
    simp only [Bool.and_eq_true, decide_eq_true_eq] at hsm
    have cb := hcodes r.baryon (by simp)
    have cm := hcodes r.meson (by simp)
    have co1 := hcodes r.out1 (by simp)
    have co2 := hcodes r.out2 (by simp)
    have py : y.pdg = ofCode r.baryon := pdg_of (hg y hy) hc1 cb.2.1 hsm.1
    have pp : pi.pdg = ofCode r.meson := pdg_of (hg pi hpi) hc2 cm.2.1 hsm.2
    have pn : n.pdg = ofCode r.out1 := by
      have := (find_ok h1).1; rw [co1.1] at this; exact (Except.ok.inj this).symm
    have pk : k.pdg = ofCode r.out2 := by
      have := (find_ok h2).1; rw [co2.1] at this; exact (Except.ok.inj this).symm
    split at hinv
    · rename_i p c d hxs
      simp only [Bool.and_eq_true, beq_iff_eq, bne_iff_ne, ne_eq, List.contains_iff_mem] at hinv
      obtain ⟨⟨⟨⟨e1, e2⟩, e3⟩, e4⟩, hmem⟩ := hinv
      rw [hxs] at hx
      simp only [eval, e1, e2, h1, h2] at hx
      simp only [bind, Except.bind, Except.ok.injEq] at hx
      have hne1 : y.pdg ≠ pi.pdg := by
        rw [py, pp]; intro hh
        apply e3
        rw [← cb.2.2, ← cm.2.2, hh]
      have hne2 : n.pdg ≠ k.pdg := by
        rw [pn, pk]; intro hh
        apply e4
        rw [e1, e2, ← co1.2.2, ← co2.2.2, hh]
      have hnuc : isNucleon n = true := by
        have hall : (nkXx.all fun r => (r.baryon.natAbs == 0x2212 || r.baryon.natAbs == 0x2112)) =
          true := by decide +kernel
        have := List.all_eq_true.mp hall _ hmem
        unfold isNucleon
        rw [pn, co1.2.2, ← e1]
        exact this
      refine ⟨n, k, W.par p, rfl, hnuc, ?_, ?_⟩
      · simp only []
        rw [← hx]
        unfold balanceStable
        simp only [if_neg hne1, if_neg hne2]
        have g1 := (states_pos y).ne'
        have g2 := (states_pos pi).ne'
        unfold states at *
        generalize Kin.pCMsqrS (W.sqrts * W.sqrts) y.mass pi.mass = P at hp ⊢
        generalize Kin.pCMsqrS (W.sqrts * W.sqrts) n.mass k.mass = Q
        field_simp
      · intro off l2 hl2 hσ hthr
        unfold nkXxList at hl2
        simp only [hnuc, if_true] at hl2
        have hrow : (⟨c, d, .strange, .par p, r.meson, r.baryon⟩ : Row) ∈
            select nkXx (fun f => match f with
              | .always => true
              | .strange => inc.strange
              | .knkn => inc.knToKN
              | .knkd => inc.knToKDelta && decide (W.sqrts < off + n.mass + k.mass)) n k := by
          simp only [select, List.mem_filter, Bool.and_eq_true, beq_iff_eq]
          refine ⟨hmem, ⟨?_, ?_⟩, hinc⟩
          · rw [pn, co1.2.2, e1]
          · rw [pk, co2.2.2, e2]
        obtain ⟨l3, h3, hsub⟩ := channels_row hl2 hrow
        refine hsub _ (channel_of (t1 := pi) (t2 := y) h3 ?_ ?_ rfl hσ hthr)
        · exact find_of hd hpi (by rw [pp]; exact cm.1)
        · exact find_of hd hy (by rw [py]; exact cb.1)
    · cases hinv
  · rw [← ok_inj h] at hbr; exact absurd hbr List.not_mem_nil

/-- **C110** (Delta and kaon). The same for `Δ K → N K`: `σ' g_Δ g_K p ∫p(m)A(m)dm = σ g_N g_K p²(NK)`
with the cross section σ of the inverse reaction, which is offered up to the configured energy. -/
theorem C110_delta_kaon_partial (W : World) (hd : Distinct W) (hg : ∀ t ∈ W.types, Good t)
    (inc : Included) (dl kn : PType) (hdl : dl ∈ W.types) (hkn : kn ∈ W.types)
    (hdelta : isDelta dl = true) (l : List Branch) (h : deltakXxList W inc dl kn = .ok l)
    (hp : Kin.pCM W.sqrts W.m1 W.m2 * W.intRK dl ≠ 0) (br : Branch) (hbr : br ∈ l) :
    ∃ n k σ, br.out = [n, k] ∧ isNucleon n = true ∧
      br.weight * (states dl * states kn) * (Kin.pCM W.sqrts W.m1 W.m2 * W.intRK dl) =
        σ * (states n * states k) * Kin.pCMsqr W.sqrts n.mass k.mass ∧
      ∀ off l', W.sqrts < off + n.mass + k.mass → nkXxList W inc off n k = .ok l' → small < σ →
        kn.minSpec + dl.minSpec < W.energy kn dl → (⟨[kn, dl], σ⟩ : Branch) ∈ l' := by
  unfold deltakXxList at h
  split at h
  · rename_i hinc
    simp only [hdelta, if_true] at h
    obtain ⟨r, hr, l', hl', hm⟩ := channels_mem h hbr
    obtain ⟨n, k, x, h1, h2, hx, hs, he, rfl⟩ := channel_ok hl' hm
    simp only [select, List.mem_filter, Bool.and_eq_true, beq_iff_eq] at hr
    obtain ⟨hr, ⟨hc1, hc2⟩, _⟩ := hr
    have hcodes := codes_ok deltak_codes hr
    have hinv := List.all_eq_true.mp inverse_d r hr
    unfold inverseD at hinv
    have hsm := List.all_eq_true.mp small_codes r (by simp [hr])
    simp only [Bool.and_eq_true, decide_eq_true_eq] at hsm
    have cb := hcodes r.baryon (by simp)
    have cm := hcodes r.meson (by simp)
    have co1 := hcodes r.out1 (by simp)
    have co2 := hcodes r.out2 (by simp)
    have py : dl.pdg = ofCode r.baryon := pdg_of (hg dl hdl) hc1 cb.2.1 hsm.1
    have pp : kn.pdg = ofCode r.meson := pdg_of (hg kn hkn) hc2 cm.2.1 hsm.2
    have pn : n.pdg = ofCode r.out1 := by
      have := (find_ok h1).1; rw [co1.1] at this; exact (Except.ok.inj this).symm
    have pk : k.pdg = ofCode r.out2 := by
      have := (find_ok h2).1; rw [co2.1] at this; exact (Except.ok.inj this).symm
    have f1 := find_of hd hkn (c := r.meson) (by rw [pp]; exact cm.1)
    have f2 := find_of hd hdl (c := r.baryon) (by rw [py]; exact cb.1)
    split at hinv
    · rename_i p c d hxs
      simp only [Bool.and_eq_true, beq_iff_eq, bne_iff_ne, ne_eq, List.contains_iff_mem] at hinv
      obtain ⟨⟨⟨⟨e1, e2⟩, e3⟩, e4⟩, hmem⟩ := hinv
      rw [hxs] at hx
      simp only [eval, e1, e2, h1, h2] at hx
      simp only [bind, Except.bind] at hx
      split at hx
      · cases hx
      · rename_i ρ hρ
        simp only [Except.ok.injEq] at hx
        have hne1 : dl.pdg ≠ kn.pdg := by
          rw [py, pp]; intro hh
          apply e3
          rw [← cb.2.2, ← cm.2.2, hh]
        have hne2 : n.pdg ≠ k.pdg := by
          rw [pn, pk]; intro hh
          apply e4
          rw [e1, e2, ← co1.2.2, ← co2.2.2, hh]
        have hnuc : isNucleon n = true := by
          have hall : (nkXx.all fun r => (r.baryon.natAbs == 0x2212 || r.baryon.natAbs == 0x2112)) =
            true := by decide +kernel
          have := List.all_eq_true.mp hall _ hmem
          unfold isNucleon
          rw [pn, co1.2.2, ← e1]
          exact this
        refine ⟨n, k, W.par p * ρ, rfl, hnuc, ?_, ?_⟩
        · simp only []
          rw [← hx]
          unfold balanceRK
          simp only [if_neg hne1, if_neg hne2]
          have g1 := (states_pos dl).ne'
          have g2 := (states_pos kn).ne'
          have hp1 := left_ne_zero_of_mul hp
          have hp2 := right_ne_zero_of_mul hp
          unfold states at *
          field_simp
        · intro off l2 hoff hl2 hσ hthr
          unfold nkXxList at hl2
          simp only [hnuc, if_true] at hl2
          have hrow : (⟨c, d, .knkd, .ratio p r.meson r.baryon, r.meson, r.baryon⟩ : Row) ∈
              select nkXx (fun f => match f with
                | .always => true
                | .strange => inc.strange
                | .knkn => inc.knToKN
                | .knkd => inc.knToKDelta && decide (W.sqrts < off + n.mass + k.mass)) n k := by
            simp only [select, List.mem_filter, Bool.and_eq_true, beq_iff_eq]
            refine ⟨hmem, ⟨?_, ?_⟩, hinc, decide_eq_true hoff⟩
            · rw [pn, co1.2.2, e1]
            · rw [pk, co2.2.2, e2]
          obtain ⟨l3, h3, hsub⟩ := channels_row hl2 hrow
          refine hsub _ (channel_of (t1 := kn) (t2 := dl) h3 f1 f2 ?_ hσ hthr)
          simp only [eval, f1, f2, bind, Except.bind, hρ]
    · cases hinv
  · rw [← ok_inj h] at hbr; exact absurd hbr List.not_mem_nil

/-- **C110** (isospin ratios). The ratio of each `N K → K Δ` channel is found without an error, and
the cross sections of the two channels of a pair add up to the whole inelastic background. -/
theorem C110_ratios (W : World) (hg : ∀ t ∈ W.types, Good t) (n k : PType) (hn : n ∈ W.types)
    (hk : k ∈ W.types) (r : Row) (hr : r ∈ nkXx) (h1 : r.baryon = Pdg.code n.pdg)
    (h2 : r.meson = Pdg.code k.pdg) (p : Par) (c d : Int) (hx : r.xs = .ratio p c d)
    (hfind : ∀ x ∈ [r.out1, r.out2], ∃ t, find W x = .ok t) :
    ∃ x, eval W n k r.xs = .ok x ∧
      ∀ r' ∈ nkXx, r' ≠ r → r'.baryon = r.baryon → r'.meson = r.meson → r'.flag = .knkd →
        ∀ x', eval W n k r'.xs = .ok x' →
          W.weight r.baryon.natAbs r.meson.natAbs r.out1.natAbs r.out2.natAbs +
            W.weight r.baryon.natAbs r.meson.natAbs r'.out1.natAbs r'.out2.natAbs ≠ 0 →
          x + x' = W.par p := by
  have hrow := List.all_eq_true.mp ratio_rows r hr
  have hcodes := codes_ok nk_codes hr
  have hsm := List.all_eq_true.mp small_codes r (by simp [hr])
  simp only [Bool.and_eq_true, decide_eq_true_eq] at hsm
  have pn : n.pdg = ofCode r.baryon := pdg_of (hg n hn) h1 (hcodes _ (by simp)).2.1 hsm.1
  have pk : k.pdg = ofCode r.meson := pdg_of (hg k hk) h2 (hcodes _ (by simp)).2.1 hsm.2
  unfold ratioRow at hrow
  rw [hx] at hrow
  simp only [Bool.and_eq_true, beq_iff_eq, List.all_eq_true, Bool.or_eq_true, bne_iff_ne] at hrow
  obtain ⟨⟨⟨⟨e1, e2⟩, s1⟩, s2⟩, hall⟩ := hrow
  have value : ∀ r0 ∈ nkXx, r0.baryon = r.baryon → r0.meson = r.meson →
      ∀ t1 t2, find W r0.out1 = .ok t1 → find W r0.out2 = .ok t2 →
        eval W n k (.ratio p r0.out1 r0.out2) =
          (entry W.debug [ofCode r0.baryon, ofCode r0.meson, ofCode r0.out1, ofCode r0.out2]).map
            fun e => W.par p * storedRatio W e := by
    intro r0 hr0 hb hm t1 t2 f1 f2
    have hc0 := codes_ok nk_codes hr0
    have p1 : t1.pdg = ofCode r0.out1 := by
      have := (find_ok f1).1; rw [(hc0 _ (by simp)).1] at this; exact (Except.ok.inj this).symm
    have p2 : t2.pdg = ofCode r0.out2 := by
      have := (find_ok f2).1; rw [(hc0 _ (by simp)).1] at this; exact (Except.ok.inj this).symm
    simp only [eval, f1, f2, bind, Except.bind, getRatio_eq]
    rw [pn, pk, p1, p2, hb, hm]
    cases entry W.debug [ofCode r.baryon, ofCode r.meson, ofCode r0.out1, ofCode r0.out2] <;> rfl
  have ok : ∀ (r0 : Row) (e : List Int), entryOf W.debug r0 = some e →
      entry W.debug [ofCode r0.baryon, ofCode r0.meson, ofCode r0.out1, ofCode r0.out2] = .ok e := by
    intro r0 e h
    unfold entryOf at h
    generalize entry W.debug [ofCode r0.baryon, ofCode r0.meson, ofCode r0.out1, ofCode r0.out2] = E at h
    cases E with
    | error _ => simp [Except.toOption] at h
    | ok v => simp [Except.toOption] at h; rw [h]
  obtain ⟨t1, f1⟩ := hfind r.out1 (by simp)
  obtain ⟨t2, f2⟩ := hfind r.out2 (by simp)
  have some_e : ∃ e, entryOf W.debug r = some e := by
    cases W.debug
    · exact Option.isSome_iff_exists.mp s2
    · exact Option.isSome_iff_exists.mp s1
  obtain ⟨e, he⟩ := some_e
  have v := value r hr rfl rfl t1 t2 f1 f2
  rw [ok r e he] at v
  refine ⟨W.par p * storedRatio W e, by rw [hx, e1, e2]; exact v, ?_⟩
  intro r' hr' hne hb hm hf x' hx' hw
  have key : r'.xs = .ratio p r'.out1 r'.out2 ∧ entryOf W.debug r = some (expected r r') ∧
      entryOf W.debug r' = some (expected r' r) := by
    rcases hall r' hr' with (((h | h) | h) | h) | h
    · exact absurd h hne
    · exact absurd hb h
    · exact absurd hm h
    · exact absurd hf h
    · refine ⟨h.1.1.1.1, ?_⟩
      cases W.debug
      · exact ⟨h.1.2, h.2⟩
      · exact ⟨h.1.1.1.2, h.1.1.2⟩
  obtain ⟨k1, k2, k3⟩ := key
  have fx : ∃ t1 t2, find W r'.out1 = .ok t1 ∧ find W r'.out2 = .ok t2 := by
    rw [k1] at hx'
    simp only [eval] at hx'
    obtain ⟨a1, g1, hx'⟩ := bind_ok.mp hx'
    obtain ⟨a2, g2, _⟩ := bind_ok.mp hx'
    exact ⟨a1, a2, g1, g2⟩
  obtain ⟨u1, u2, g1, g2⟩ := fx
  have v' := value r' hr' hb hm u1 u2 g1 g2
  rw [ok r' _ k3, ← k1, hx'] at v'
  simp only [Except.map, Except.ok.injEq] at v'
  have ee : e = expected r r' := by rw [k2] at he; exact (Option.some.inj he).symm
  rw [v', ee]
  simp only [storedRatio, expected, List.getD_cons_zero, List.getD_cons_succ, hb, hm]
  generalize W.weight r.baryon.natAbs r.meson.natAbs r.out1.natAbs r.out2.natAbs = w1 at *
  generalize W.weight r.baryon.natAbs r.meson.natAbs r'.out1.natAbs r'.out2.natAbs = w2 at *
  have hw' : w2 + w1 ≠ 0 := by rw [add_comm]; exact hw
  field_simp
  ring

end Verif.Sec
