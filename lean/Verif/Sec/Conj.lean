import Verif.Sec.Sym
import Verif.Sec.Wit
import Verif.Pdg.Quantum

/-!
Charge conjugation of the inelastic 2 → 2 channels (C111).
-/

namespace Verif.Sec

open Verif

/-- The code of the antiparticle; particles without one are their own. -/
def conjPdg (d : Nat) : Nat := if Pdg.hasAntiparticle d then Pdg.getAntiparticle d else d

/-- `bar` maps every particle type to its antiparticle, and the world treats both alike. -/
structure Conj (W : World) (bar : PType → PType) : Prop where
  mem : ∀ t ∈ W.types, bar t ∈ W.types
  pdg : ∀ t, (bar t).pdg = conjPdg t.pdg
  mass : ∀ t, (bar t).mass = t.mass
  width : ∀ t, (bar t).width = t.width
  isospin : ∀ t, (bar t).isospin = t.isospin
  spin : ∀ t, (bar t).spin = t.spin
  minKin : ∀ t, (bar t).minKin = t.minKin
  minSpec : ∀ t, (bar t).minSpec = t.minSpec
  multiplet : ∀ t u, (bar t).multiplet = (bar u).multiplet ↔ t.multiplet = u.multiplet
  energy : ∀ t u, W.energy (bar t) (bar u) = W.energy t u
  iso : ∀ a b c d I, W.iso (bar a) (bar b) (bar c) (bar d) I = W.iso a b c d I
  totI : ∀ a b, W.totI (bar a) (bar b) = W.totI a b
  intNR : ∀ t, W.intNR (bar t) = W.intNR t
  intRR : ∀ t u, W.intRR (bar t) (bar u) = W.intRR t u
  intRK : ∀ t, W.intRK (bar t) = W.intRK t
  nucleons : ∀ t, t ∈ W.nucleons → bar t ∈ W.antiNucleons
  antiNucleons : ∀ t, t ∈ W.antiNucleons → bar t ∈ W.nucleons
  deltas : ∀ t, t ∈ W.deltas → bar t ∈ W.antiDeltas
  antiDeltas : ∀ t, t ∈ W.antiDeltas → bar t ∈ W.deltas

/-! ### Classes of particles -/

theorem conj_mod (d : Nat) : conjPdg d % 2147483648 = d % 2147483648 := by
  unfold conjPdg
  split_ifs
  · exact (Pdg.getAnti_mod d).1
  · rfl

theorem ucode_conj (d : Nat) : Pdg.ucode (conjPdg d) = Pdg.ucode d :=
  Pdg.bits_mod (conj_mod d) (by omega)

theorem code_conj (d : Nat) : (Pdg.code (conjPdg d)).natAbs = (Pdg.code d).natAbs := by
  have h1 : ∀ e, (Pdg.code e).natAbs = Pdg.ucode e := by
    intro e
    unfold Pdg.code Pdg.antiparticleSign
    split_ifs <;> simp
  rw [h1, h1, ucode_conj]

theorem hadron_conj (d : Nat) : Pdg.isHadron (conjPdg d) = Pdg.isHadron d := by
  have s := Pdg.same_of_mod (conj_mod d)
  simp only [Pdg.isHadron, s.nq3, s.nq2, s.nuc]

theorem baryon_conj (d : Nat) : Pdg.isBaryon (conjPdg d) = Pdg.isBaryon d := by
  have s := Pdg.same_of_mod (conj_mod d)
  simp only [Pdg.isBaryon, hadron_conj, s.nq1]

theorem meson_conj (d : Nat) : Pdg.isMeson (conjPdg d) = Pdg.isMeson d := by
  have s := Pdg.same_of_mod (conj_mod d)
  simp only [Pdg.isMeson, hadron_conj, s.nq1]

theorem hyperon_conj (d : Nat) : Pdg.isHyperon (conjPdg d) = Pdg.isHyperon d := by
  have s := Pdg.same_of_mod (conj_mod d)
  simp only [Pdg.isHyperon, hadron_conj, s.nq1]

theorem nucleus_conj (d : Nat) : Pdg.isNucleus (conjPdg d) = Pdg.isNucleus d :=
  (Pdg.same_of_mod (conj_mod d)).nuc

theorem isPion_iff (t : PType) : isPion t = true ↔
    Pdg.ucode t.pdg = 0x211 ∨ (Pdg.ucode t.pdg = 0x111 ∧ Pdg.anti t.pdg = false) := by
  simp only [isPion, Pdg.code, Pdg.antiparticleSign, Bool.or_eq_true, beq_iff_eq]
  cases h : Pdg.anti t.pdg <;> simp <;> omega

section
variable {W : World} {bar : PType → PType} (hc : Conj W bar)
include hc

theorem nucleon_bar (t : PType) : isNucleon (bar t) = isNucleon t := by
  simp only [isNucleon, hc.pdg, code_conj]

theorem delta_bar (t : PType) : isDelta (bar t) = isDelta t := by
  simp only [isDelta, hc.pdg, code_conj]

theorem kaon_bar (t : PType) : isKaon (bar t) = isKaon t := by
  simp only [isKaon, hc.pdg, code_conj]

theorem n1535_bar (t : PType) : isNstar1535 (bar t) = isNstar1535 t := by
  simp only [isNstar1535, hc.pdg, code_conj]

theorem stable_bar (t : PType) : stable (bar t) ↔ stable t := by
  simp only [stable, hc.width]

omit hc in
theorem strange_zero (d : Nat) : (Pdg.strangeness (conjPdg d) == 0) = (Pdg.strangeness d == 0) := by
  unfold conjPdg
  split_ifs
  · rw [(Pdg.C15_opposite d).2.2.2.1, Bool.eq_iff_iff]; simp
  · rfl

omit hc in
theorem charm_zero (d : Nat) : (Pdg.charmness (conjPdg d) == 0) = (Pdg.charmness d == 0) := by
  unfold conjPdg
  split_ifs
  · rw [(Pdg.C15_opposite d).2.2.2.2.1, Bool.eq_iff_iff]; simp
  · rfl

theorem nstar_bar (t : PType) : isNstar (bar t) = isNstar t := by
  simp only [isNstar, nucleon_bar hc, hc.isospin, hc.pdg, baryon_conj, strange_zero,
    charm_zero]

theorem deltastar_bar (t : PType) : isDeltastar (bar t) = isDeltastar t := by
  simp only [isDeltastar, delta_bar hc, hc.isospin, hc.pdg, baryon_conj, strange_zero,
    charm_zero]

theorem deuteron_bar (t : PType) : isDeuteron (bar t) = isDeuteron t := by
  have s := Pdg.same_of_mod (conj_mod t.pdg)
  have hI : Pdg.I (conjPdg t.pdg) = Pdg.I t.pdg := Pdg.bits_mod (conj_mod _) (by omega)
  simp only [isDeuteron, hc.pdg, s.nuc, s.A, s.Z, s.L, hI]

theorem sign_bar {t : PType} (h : Pdg.hasAntiparticle t.pdg = true) : sign (bar t) = -sign t := by
  simp only [sign, hc.pdg, conjPdg, h, if_true, Pdg.sign_getAnti]

theorem charge_bar {t : PType} (h : Pdg.isHadron t.pdg = true ∨ Pdg.isNucleus t.pdg = true) :
    charge (bar t) = -charge t := by
  unfold charge
  rw [hc.pdg]
  unfold conjPdg
  split_ifs with ha
  · exact (Pdg.C15_opposite _).1
  · have ha' : Pdg.hasAntiparticle t.pdg = false := by simpa using ha
    have hh : Pdg.isHadron t.pdg = true := by
      rcases h with h | h
      · exact h
      · simp [Pdg.hasAntiparticle, h] at ha'
    have := (Pdg.C15_neutral_partial ha' (by
      intro hb
      simp only [Pdg.isHadron, Bool.and_eq_true, bne_iff_ne, ne_eq, Pdg.nq2, Pdg.bits] at hh
      simp only [Pdg.bits] at hb
      omega)).1
    rw [this]; rfl

theorem pion_bar {t : PType} (h : Good t) (hp : isPion t = true) : isPion (bar t) = true := by
  have hn := (pion_qn h hp).2.2.1
  simp only [isPion, Bool.or_eq_true, beq_iff_eq] at hp
  have key : ∀ c : Int, Pdg.code t.pdg = c → c ≠ 0 → t.pdg = ofCode c := by
    rintro c rfl h0
    exact (h.ofCode hn h0).symm
  unfold isPion
  rw [hc.pdg]
  rcases hp with (hp | hp) | hp <;> rw [key _ hp (by decide)] <;> decide +kernel

theorem matrix_bar {a b : PType}
    (hs : (sign (bar a) == sign (bar b)) = (sign a == sign b)) (I : Int)
    (hpa : isPion (bar a) = isPion a) (hpb : isPion (bar b) = isPion b) :
    matrixElement W.sqrts (bar a) (bar b) I = matrixElement W.sqrts a b I := by
  unfold matrixElement
  simp only [hc.mass, hc.width, hs, delta_bar hc, nucleon_bar hc, nstar_bar hc, deltastar_bar hc,
    deuteron_bar hc, n1535_bar hc, hpa, hpb]
end

/-! ### Tables -/

/-- Charge conjugation of the codes in the tables; the neutral pion is its own antiparticle. -/
def cc (c : Int) : Int := if c = 0x111 then c else -c

def conjF : Formula → Formula
  | .par p => .par p
  | .half p => .half p
  | .sigmaZero => .sigmaZero
  | .ratio p c d => .ratio p (cc c) (cc d)
  | .balance p c d => .balance p (cc c) (cc d)
  | .balanceR p c d => .balanceR p (cc c) (cc d)

def conjRow (r : Row) : Row := ⟨cc r.baryon, cc r.meson, r.flag, conjF r.xs, cc r.out1, cc r.out2⟩

/-- The ratio read for conjugate particles is the same. -/
def sameEntry (l : List Int) : Bool :=
  [true, false].all fun dbg =>
    (entry dbg (l.map fun c => ofCode (cc c))).toOption == (entry dbg (l.map ofCode)).toOption &&
      (entry dbg (l.map ofCode)).toOption.isSome

/-- What is checked of each row. -/
def conjOk (table : List Row) (r : Row) : Bool :=
  table.contains (conjRow r) &&
  ([r.baryon, r.meson, r.out1, r.out2].all fun c =>
    ofCode (cc c) == conjPdg (ofCode c) && decide (c.natAbs < 131072)) &&
  match r.xs with
  | .ratio _ c d => c == r.out1 && d == r.out2 && sameEntry [r.baryon, r.meson, c, d]
  | .balance _ c d => c == r.out1 && d == r.out2 && ofCode r.baryon != ofCode r.meson &&
      ofCode c != ofCode d && ofCode (cc r.baryon) != ofCode (cc r.meson) &&
      ofCode (cc c) != ofCode (cc d)
  | .balanceR _ c d => c == r.out1 && d == r.out2 && ofCode r.baryon != ofCode r.meson &&
      ofCode c != ofCode d && ofCode (cc r.baryon) != ofCode (cc r.meson) &&
      ofCode (cc c) != ofCode (cc d) && sameEntry [c, d, r.meson, r.baryon]
  | _ => true

theorem npi_conj : npiYk.all (conjOk npiYk) = true := by decide +kernel
theorem nk_conj : nkXx.all (conjOk nkXx) = true := by decide +kernel
theorem ypi_conj : ypiXx.all (conjOk ypiXx) = true := by decide +kernel
theorem deltak_conj : deltakXx.all (conjOk deltakXx) = true := by decide +kernel
theorem npi_codes : npiYk.all codesOk = true := by decide +kernel

theorem sameEntry_ratio {W : World} {l : List Int} (h : sameEntry l = true) {a b c d a' b' c' d' : PType}
    (h1 : l.map ofCode = [a.pdg, b.pdg, c.pdg, d.pdg])
    (h2 : (l.map fun c => ofCode (cc c)) = [a'.pdg, b'.pdg, c'.pdg, d'.pdg]) :
    getRatio W a' b' c' d' = getRatio W a b c d := by
  unfold sameEntry at h
  have := List.all_eq_true.mp h W.debug (by cases W.debug <;> simp)
  simp only [Bool.and_eq_true, beq_iff_eq] at this
  rw [getRatio_eq, getRatio_eq, ← h1, ← h2]
  obtain ⟨e, hs⟩ := this
  generalize entry W.debug (l.map fun c => ofCode (cc c)) = E1 at e
  generalize entry W.debug (l.map ofCode) = E2 at e hs
  cases E1 <;> cases E2 <;> simp_all [Except.toOption]

theorem table_conj {W : World} {bar : PType → PType} (hc : Conj W bar) (hd : Distinct W)
    {table : List Row} (hcodes : table.all codesOk = true)
    (hconj : table.all (conjOk table) = true) {on : Flag → Bool} {a b : PType} (ha : Good a)
    (hb : Good b) {l l' : List Branch} (h : channels W a b (select table on a b) = .ok l)
    (h' : channels W (bar a) (bar b) (select table on (bar a) (bar b)) = .ok l') {br : Branch}
    (hbr : br ∈ l) : (⟨br.out.map bar, br.weight⟩ : Branch) ∈ l' := by
  obtain ⟨r, hr, l1, hl1, hm⟩ := channels_mem h hbr
  obtain ⟨t1, t2, x, f1, f2, hx, hs, he, rfl⟩ := channel_ok hl1 hm
  simp only [select, List.mem_filter, Bool.and_eq_true, beq_iff_eq] at hr
  obtain ⟨hr, ⟨hc1, hc2⟩, hon⟩ := hr
  have hco := codes_ok hcodes hr
  have hk := List.all_eq_true.mp hconj r hr
  unfold conjOk at hk
  simp only [Bool.and_eq_true, List.contains_iff_mem] at hk
  obtain ⟨⟨hmem, hcc⟩, hform⟩ := hk
  have hco' := codes_ok hcodes hmem
  have hcc' : ∀ c ∈ [r.baryon, r.meson, r.out1, r.out2], ofCode (cc c) = conjPdg (ofCode c) ∧
      c.natAbs < 131072 := by
    intro c hcm
    have := List.all_eq_true.mp hcc c hcm
    simp only [Bool.and_eq_true, beq_iff_eq, decide_eq_true_eq] at this
    exact this
  have pa : a.pdg = ofCode r.baryon := pdg_of ha hc1 (hco _ (by simp)).2.1 (hcc' _ (by simp)).2
  have pb : b.pdg = ofCode r.meson := pdg_of hb hc2 (hco _ (by simp)).2.1 (hcc' _ (by simp)).2
  have p1 : t1.pdg = ofCode r.out1 := by
    have := (find_ok f1).1; rw [(hco _ (by simp)).1] at this; exact (Except.ok.inj this).symm
  have p2 : t2.pdg = ofCode r.out2 := by
    have := (find_ok f2).1; rw [(hco _ (by simp)).1] at this; exact (Except.ok.inj this).symm
  have qa : (bar a).pdg = ofCode (cc r.baryon) := by rw [hc.pdg, pa, (hcc' _ (by simp)).1]
  have qb : (bar b).pdg = ofCode (cc r.meson) := by rw [hc.pdg, pb, (hcc' _ (by simp)).1]
  have q1 : (bar t1).pdg = ofCode (cc r.out1) := by rw [hc.pdg, p1, (hcc' _ (by simp)).1]
  have q2 : (bar t2).pdg = ofCode (cc r.out2) := by rw [hc.pdg, p2, (hcc' _ (by simp)).1]
  have g1 : find W (cc r.out1) = .ok (bar t1) :=
    find_of hd (hc.mem _ (find_ok f1).2) (by
      rw [q1]; exact (hco' (cc r.out1) (by simp [conjRow])).1)
  have g2 : find W (cc r.out2) = .ok (bar t2) :=
    find_of hd (hc.mem _ (find_ok f2).2) (by
      rw [q2]; exact (hco' (cc r.out2) (by simp [conjRow])).1)
  have hev : eval W (bar a) (bar b) (conjF r.xs) = .ok x := by
    revert hform hx
    cases hxs : r.xs with
    | par p => exact fun hx _ => hx
    | half p => exact fun hx _ => hx
    | sigmaZero => exact fun hx _ => hx
    | ratio p c d =>
      intro hx hform
      simp only [Bool.and_eq_true, beq_iff_eq] at hform
      obtain ⟨⟨e1, e2⟩, hse⟩ := hform
      subst e1 e2
      rw [← hx]
      simp only [eval, conjF, f1, f2, g1, g2, bind, Except.bind]
      rw [sameEntry_ratio (W := W) hse (a := a) (b := b) (c := t1) (d := t2) (a' := bar a)
        (b' := bar b) (c' := bar t1) (d' := bar t2) (by simp [pa, pb, p1, p2])
        (by simp [qa, qb, q1, q2])]
    | balance p c d =>
      intro hx hform
      simp only [Bool.and_eq_true, beq_iff_eq, bne_iff_ne, ne_eq] at hform
      obtain ⟨⟨⟨⟨⟨e1, e2⟩, n1⟩, n2⟩, n3⟩, n4⟩ := hform
      subst e1 e2
      rw [← hx]
      simp only [eval, conjF, f1, f2, g1, g2, bind, Except.bind, balanceStable]
      rw [← pa, ← pb] at n1
      rw [← p1, ← p2] at n2
      rw [← qa, ← qb] at n3
      rw [← q1, ← q2] at n4
      simp only [if_neg n1, if_neg n2, if_neg n3, if_neg n4, hc.spin, hc.mass]
    | balanceR p c d =>
      intro hx hform
      simp only [Bool.and_eq_true, beq_iff_eq, bne_iff_ne, ne_eq] at hform
      obtain ⟨⟨⟨⟨⟨⟨e1, e2⟩, n1⟩, n2⟩, n3⟩, n4⟩, hse⟩ := hform
      subst e1 e2
      rw [← hx]
      simp only [eval, conjF, f1, f2, g1, g2, bind, Except.bind, balanceRK]
      rw [sameEntry_ratio (W := W) hse (a := t1) (b := t2) (c := b) (d := a) (a' := bar t1)
        (b' := bar t2) (c' := bar b) (d' := bar a) (by simp [pa, pb, p1, p2])
        (by simp [qa, qb, q1, q2])]
      rw [← pa, ← pb] at n1
      rw [← p1, ← p2] at n2
      rw [← qa, ← qb] at n3
      rw [← q1, ← q2] at n4
      simp only [if_neg n1, if_neg n2, if_neg n3, if_neg n4, hc.spin, hc.mass, hc.intRK]
  have hrow : conjRow r ∈ select table on (bar a) (bar b) := by
    simp only [select, List.mem_filter, Bool.and_eq_true, beq_iff_eq]
    refine ⟨hmem, ⟨?_, ?_⟩, hon⟩
    · rw [qa]; exact (hco' (cc r.baryon) (by simp [conjRow])).2.2.symm
    · rw [qb]; exact (hco' (cc r.meson) (by simp [conjRow])).2.2.symm
  obtain ⟨l2, h2, hsub⟩ := channels_row h' hrow
  refine hsub _ ?_
  simp only [List.map_cons, List.map_nil]
  refine channel_of (t1 := bar t1) (t2 := bar t2) h2 g1 g2 hev hs ?_
  rw [hc.minSpec, hc.minSpec, hc.energy]
  exact he

/-! ### Resonances -/

theorem hasAnti_of {d : Nat} (h : Pdg.baryonNumber d ≠ 0) : Pdg.hasAntiparticle d = true := by
  unfold Pdg.hasAntiparticle
  unfold Pdg.baryonNumber at h ⊢
  split_ifs at h ⊢ with h1 h2 h3 <;> simp_all

theorem conj_conj (d : Nat) : conjPdg (conjPdg d) = d := by
  unfold conjPdg
  by_cases h : Pdg.hasAntiparticle d = true
  · simp only [h, if_true, Pdg.hasAnti_getAnti, Pdg.C15_involution]
  · rw [if_neg h, if_neg h]

theorem dump_aux {d e : Nat} (m : e % 2147483648 = d % 2147483648) (h1 : d < 4294967296)
    (he : e < 4294967296) (h2 : d / 2147483648 % 2 * 2147483648 + d % 268435456 = d) :
    e / 2147483648 % 2 * 2147483648 + e % 268435456 = e := by
  have a1 : d / 2147483648 < 2 := by omega
  have a2 : e / 2147483648 < 2 := by omega
  rw [Nat.mod_eq_of_lt a1] at h2
  rw [Nat.mod_eq_of_lt a2]
  have b1 := Nat.div_add_mod d 2147483648
  have b2 := Nat.div_add_mod e 2147483648
  have c : d % 2147483648 = d % 268435456 := by omega
  have f : e % 268435456 = e % 2147483648 % 268435456 := (Nat.mod_mod_of_dvd e ⟨8, rfl⟩).symm
  rw [f, m, c, Nat.mod_mod]
  rw [← c, ← m]
  rw [Nat.mul_comm]
  exact b2

section
variable {W : World} {bar : PType → PType} (hc : Conj W bar)
include hc

theorem pion_bar_eq {t : PType} (h : Good t) : isPion (bar t) = isPion t := by
  rw [Bool.eq_iff_iff]
  refine ⟨fun hp => ?_, pion_bar hc h⟩
  rw [isPion_iff, hc.pdg, ucode_conj] at hp
  rw [isPion_iff]
  rcases hp with hp | ⟨hp, ha⟩
  · exact .inl hp
  · refine .inr ⟨hp, ?_⟩
    have hn : Pdg.isNucleus t.pdg = false := by
      apply not_nucleus h
      have : (Pdg.code t.pdg).natAbs = Pdg.ucode t.pdg := by
        unfold Pdg.code Pdg.antiparticleSign
        split_ifs <;> simp
      omega
    have hna : Pdg.hasAntiparticle t.pdg = false := by
      have e1 : Pdg.nq1 t.pdg = 0 ∧ Pdg.nq2 t.pdg = 1 ∧ Pdg.nq3 t.pdg = 1 := by
        simp only [Pdg.ucode, Pdg.nq1, Pdg.nq2, Pdg.nq3, Pdg.bits] at *
        omega
      simp [Pdg.hasAntiparticle, Pdg.isHadron, Pdg.baryonNumber, hn, e1]
    unfold conjPdg at ha
    rw [hna] at ha
    simpa using ha

theorem good_bar {t : PType} (h : Good t) : Good (bar t) := by
  constructor
  · intro hn
    rw [hc.pdg, nucleus_conj] at hn
    obtain ⟨h1, h2⟩ := h.1 hn
    rw [hc.pdg]
    have m := conj_mod t.pdg
    have hb : Pdg.bits (conjPdg t.pdg) 0 28 = Pdg.bits t.pdg 0 28 := Pdg.bits_mod m (by omega)
    have hlt : conjPdg t.pdg < 2 ^ 32 := by
      unfold conjPdg
      split_ifs
      · rw [Pdg.getAnti_eq]
        have := @Pdg.anti_iff t.pdg
        split_ifs with hx
        · omega
        · have : ¬ 1 = t.pdg / 2147483648 % 2 := by
            intro hh; exact hx (Pdg.anti_iff.2 (by omega))
          norm_num at h1 ⊢
          omega
      · exact h1
    refine ⟨hlt, ?_⟩
    have h3 : t.pdg / 2147483648 % 2 * 2147483648 + t.pdg % 268435456 = t.pdg := by
      simpa [Pdg.dump, Pdg.bits] using h2
    have := dump_aux m h1 hlt h3
    simpa [Pdg.dump, Pdg.bits] using this
  · intro hn
    rw [hc.pdg, nucleus_conj] at hn
    rw [hc.pdg, (Pdg.same_of_mod (conj_mod t.pdg)).A]
    exact h.2 hn

theorem nsb_sign {t : PType} (h : NSB t) : sign (bar t) = -sign t := by
  refine sign_bar hc (hasAnti_of ?_)
  rw [h.1]
  rcases sign_cases t with h | h <;> omega

omit hc in
theorem nsb_hadron {t : PType} (h : NSB t) : Pdg.isHadron t.pdg = true := by
  have h1 := h.1
  have h2 := h.2.2
  unfold Pdg.baryonNumber at h1
  rw [h2] at h1
  by_contra hx
  simp only [Bool.false_eq_true, if_false] at h1
  rw [if_pos (by simp [Bool.eq_false_iff.mpr hx])] at h1
  rcases sign_cases t with h | h <;> omega

/-- One channel with resonances. -/
theorem nnFromType_conj {a b : PType} (ha : Pdg.isHadron a.pdg = true)
    (hb : Pdg.isHadron b.pdg = true) {l1 l2 l1' l2' : List PType} {g g' : PType → PType → ℝ}
    (h1 : ∀ t ∈ l1, bar t ∈ l1') (h2 : ∀ t ∈ l2, bar t ∈ l2')
    (q1 : ∀ t ∈ l1, Pdg.isHadron t.pdg = true ∨ Pdg.isNucleus t.pdg = true)
    (q2 : ∀ t ∈ l2, Pdg.isHadron t.pdg = true ∨ Pdg.isNucleus t.pdg = true)
    (hm : ∀ t ∈ l1, ∀ u ∈ l2, ∀ I, matrixElement W.sqrts (bar t) (bar u) I =
      matrixElement W.sqrts t u I)
    (hg : ∀ t u, g' (bar t) (bar u) = g t u)
    {br : Branch} (h : br ∈ nnFromType W a b l1 l2 g) :
    (⟨br.out.map bar, br.weight⟩ : Branch) ∈ nnFromType W (bar a) (bar b) l1' l2' g' := by
  unfold nnFromType at h ⊢
  simp only [List.mem_flatMap] at h ⊢
  obtain ⟨r1, m1, r2, m2, h⟩ := h
  refine ⟨bar r1, h1 r1 m1, bar r2, h2 r2 m2, ?_⟩
  split at h
  · exact absurd h List.not_mem_nil
  · rename_i hq
    rw [if_neg (by
      rw [charge_bar hc (q1 r1 m1), charge_bar hc (q2 r2 m2), charge_bar hc (.inl ha),
        charge_bar hc (.inl hb)]
      omega)]
    obtain ⟨I, hI, h⟩ := List.mem_flatMap.mp h
    refine List.mem_flatMap.mpr ⟨I, by rw [hc.totI]; exact hI, ?_⟩
    unfold nnChannel at h ⊢
    simp only [hc.iso, hc.mass, hc.minKin, hc.spin, hm r1 m1 r2 m2, hg] at h ⊢
    split_ifs at h ⊢
    all_goals first
      | exact absurd h List.not_mem_nil
      | (rw [List.mem_singleton.mp h]; simp)

theorem nucPairs_conj {a b : PType} (ha : Pdg.isHadron a.pdg = true)
    (hb : Pdg.isHadron b.pdg = true) {l l' : List PType} {p : ℝ}
    (h1 : ∀ t ∈ l, bar t ∈ l') (q1 : ∀ t ∈ l, Pdg.isHadron t.pdg = true)
    (hm : ∀ I, matrixElement W.sqrts (bar a) (bar b) I = matrixElement W.sqrts a b I)
    {br : Branch} (h : br ∈ nucPairs W a b l fun _ _ => p) :
    (⟨br.out.map bar, br.weight⟩ : Branch) ∈ nucPairs W (bar a) (bar b) l' fun _ _ => p := by
  unfold nucPairs at h ⊢
  simp only [List.mem_flatMap] at h ⊢
  obtain ⟨r1, m1, r2, m2, h⟩ := h
  refine ⟨bar r1, h1 r1 m1, bar r2, h1 r2 m2, ?_⟩
  split at h
  · exact absurd h List.not_mem_nil
  · rename_i hq
    rw [if_neg (by
      rw [charge_bar hc (.inl (q1 r1 m1)), charge_bar hc (.inl (q1 r2 m2)), charge_bar hc (.inl ha),
        charge_bar hc (.inl hb)]
      omega)]
    obtain ⟨I, hI, h⟩ := List.mem_flatMap.mp h
    refine List.mem_flatMap.mpr ⟨I, by rw [hc.totI]; exact hI, ?_⟩
    unfold nucChannel at h ⊢
    simp only [hc.iso, hc.spin, hm, hc.multiplet] at h ⊢
    split_ifs at h ⊢
    all_goals first
      | exact absurd h List.not_mem_nil
      | (rw [List.mem_singleton.mp h]; simp)

theorem resonances_bar (hd : Distinct W) {t : PType} (h : t ∈ baryonResonances W) :
    bar t ∈ baryonResonances W := by
  unfold baryonResonances at h ⊢
  simp only [List.mem_flatMap] at h ⊢
  obtain ⟨u, hu, h⟩ := h
  split at h
  · exact absurd h List.not_mem_nil
  · rename_i hn
    refine ⟨u, hu, ?_⟩
    rw [if_neg hn]
    have hb : Pdg.baryonNumber u.pdg = 1 := by
      by_contra hx; exact hn (.inr hx)
    have hha := hasAnti_of (d := u.pdg) (by omega)
    rcases List.mem_cons.mp h with rfl | h
    · refine List.mem_cons_of_mem _ (Option.mem_toList.mpr ?_)
      cases hf : W.types.find? fun v => v.pdg == Pdg.getAntiparticle t.pdg with
      | none =>
        have := List.find?_eq_none.mp hf (bar t) (hc.mem t hu)
        rw [hc.pdg, conjPdg, if_pos hha] at this
        simp at this
      | some v =>
        have h1 := List.find?_some hf
        simp only [beq_iff_eq] at h1
        rw [hd v (List.mem_of_find?_eq_some hf) (bar t) (hc.mem t hu) (by
          rw [h1, hc.pdg, conjPdg, if_pos hha])]
    · have hf := Option.mem_toList.mp h
      have h1 := List.find?_some hf
      simp only [beq_iff_eq] at h1
      have : bar t = u := by
        refine hd _ (hc.mem t (List.mem_of_find?_eq_some hf)) _ hu ?_
        rw [hc.pdg, h1]
        have : Pdg.getAntiparticle u.pdg = conjPdg u.pdg := by rw [conjPdg, if_pos hha]
        rw [this, conj_conj]
      rw [this]
      exact List.mem_cons_self

theorem resonance_hadron (hl : Lists W) {t : PType} (h : t ∈ baryonResonances W) :
    Pdg.isHadron t.pdg = true ∧ (sign (bar t) = -sign t) := by
  obtain ⟨g, _⟩ := resonances_mem hl h
  have hb : Pdg.baryonNumber t.pdg = 1 ∨ Pdg.baryonNumber t.pdg = -1 := by
    unfold baryonResonances at h
    simp only [List.mem_flatMap] at h
    obtain ⟨u, hu, h⟩ := h
    split at h
    · exact absurd h List.not_mem_nil
    · rename_i hn
      have hb : Pdg.baryonNumber u.pdg = 1 := by
        by_contra hx; exact hn (.inr hx)
      rcases List.mem_cons.mp h with rfl | h
      · exact .inl hb
      · have h1 := List.find?_some (Option.mem_toList.mp h)
        simp only [beq_iff_eq] at h1
        rw [h1, Pdg.baryon_getAnti, hb]
        exact .inr rfl
  refine ⟨?_, sign_bar hc (hasAnti_of (by omega))⟩
  have hn : Pdg.isNucleus t.pdg = false := by
    by_contra hx
    have hx : Pdg.isNucleus t.pdg = true := by simpa using hx
    have := g.2 hx
    simp only [Pdg.baryonNumber, hx, if_true] at hb
    unfold Pdg.antiparticleSign at hb
    split_ifs at hb <;> omega
  by_contra hx
  simp [Pdg.baryonNumber, hn, Bool.eq_false_iff.mpr hx] at hb
end

/-! ### Everything together -/

theorem baryon_hadron {d : Nat} (h : Pdg.isBaryon d = true) :
    Pdg.isHadron d = true ∧ Pdg.hasAntiparticle d = true := by
  obtain ⟨h1, hn⟩ := baryon_sign h
  have hh : Pdg.isHadron d = true := by
    simp only [Pdg.isBaryon, Bool.and_eq_true] at h
    exact h.1
  refine ⟨hh, hasAnti_of ?_⟩
  rw [h1]
  unfold Pdg.antiparticleSign
  split_ifs <;> omega

/-- With a deuteron and a pion only their masses matter. -/
theorem matrix_dpi {s : ℝ} {a b : PType} (ha : isDeuteron a = true) (hga : Good a) (hb : isPion b = true)
    (hgb : Good b) (I : Int) : matrixElement s a b I =
      if s > a.mass + b.mass + 3 * (a.width + b.width) + 3 then 0 else
        55 / 1000 / ((s - 2145 / 1000) ^ 2 + (65 / 1000) ^ 2) * (1 - Real.exp (-(s - 2) * 20)) := by
  have hn := (deuteron_qn ha).1
  have hnb := (pion_qn hgb hb).2.2.2
  have e1 : isNucleon a = false := by
    by_contra hx
    have := (nucleon_nsb hga (by simpa using hx)).2.2
    rw [hn] at this; cases this
  have e2 : isDelta a = false := by
    by_contra hx
    have := (delta_nsb hga (by simpa using hx)).2.2
    rw [hn] at this; cases this
  have e3 : Pdg.isBaryon a.pdg = false := by
    by_contra hx
    have := (baryon_sign (by simpa using hx)).2
    rw [hn] at this; cases this
  have e4 : isNucleon b = false := by
    by_contra hx
    rw [nucleon_not_pion (by simpa using hx)] at hb; cases hb
  have e5 : isDelta b = false := by
    by_contra hx
    have h1 := delta_nsb hgb (by simpa using hx)
    have h2 := (pion_qn hgb hb).1
    have := h1.1
    rcases sign_cases b with h | h <;> omega
  unfold matrixElement
  simp only [isNstar, isDeltastar, e1, e2, e3, e4, e5, hnb, Bool.false_and, Bool.and_false,
    Bool.or_self, Bool.false_eq_true, if_false, ha, hb, Bool.and_self, Bool.true_or, if_true]

theorem bar_one {W : World} {bar : PType → PType} (hc : Conj W bar) (hd : Distinct W) {x : Nat}
    {t u : PType} (h1 : tryFind W x = some t) (h2 : tryFind W (conjPdg x) = some u) : bar t = u := by
  have e1 : t.pdg = x := by simpa using List.find?_some h1
  have e2 : u.pdg = conjPdg x := by simpa using List.find?_some h2
  exact hd _ (hc.mem t (List.mem_of_find?_eq_some h1)) _ (List.mem_of_find?_eq_some h2)
    (by rw [hc.pdg, e1, e2])

/-- **C111** (charge conjugation). For two hadrons and their antiparticles the channels are the same
with all particles replaced by antiparticles, with the same cross sections. -/
theorem C111_conjugate_partial (W : World) (bar : PType → PType) (hc : Conj W bar) (hd : Distinct W)
    (hl : Lists W) (inc : Included) (k : ℝ) (a b : PType) (ha : Good a) (hb : Good b)
    (hn : Pdg.isNucleus a.pdg = false ∧ Pdg.isNucleus b.pdg = false) (l l' : List Branch)
    (h : twoToTwo W inc k a b = .ok l) (h' : twoToTwo W inc k (bar a) (bar b) = .ok l')
    (br : Branch) (hbr : br ∈ l) : (⟨br.out.map bar, br.weight⟩ : Branch) ∈ l' := by
  have nn : ∀ t, isNucleon (bar t) = isNucleon t := nucleon_bar hc
  have signs : ∀ {t u : PType}, Pdg.isBaryon t.pdg = true → Pdg.isBaryon u.pdg = true →
      (sign (bar t) == sign (bar u)) = (sign t == sign u) := by
    intro t u ht hu
    rw [sign_bar hc (baryon_hadron ht).2, sign_bar hc (baryon_hadron hu).2, Bool.eq_iff_iff]
    simp
  have good : ∀ t, Good t → Good (bar t) := fun t => good_bar hc
  unfold twoToTwo at h h'
  simp only [hc.pdg, baryon_conj, meson_conj, hyperon_conj, nucleus_conj, nn, kaon_bar hc,
    delta_bar hc, deuteron_bar hc, pion_bar_eq hc ha, pion_bar_eq hc hb] at h'
  by_cases h1 : (Pdg.isBaryon a.pdg && Pdg.isBaryon b.pdg) = true
  · have h1' := h1
    simp only [Bool.and_eq_true] at h1'
    obtain ⟨ba, bb⟩ := h1'
    rw [if_pos h1] at h h'
    rw [signs ba bb] at h'
    have had := (baryon_hadron ba).1
    have hbd := (baryon_hadron bb).1
    by_cases h2 : (isNucleon a && isNucleon b && sign a == sign b) = true
    · rw [if_pos h2] at h h'
      rw [← ok_inj h] at hbr
      rw [← ok_inj h']
      simp only [Bool.and_eq_true, beq_iff_eq] at h2
      have hs : sign a = 1 ∨ sign a = -1 := sign_cases a
      have e1 : (sign a == -1 && sign b == -1) = decide (sign a = -1) := by
        rw [← h2.2]; rcases hs with h | h <;> rw [h] <;> decide
      have e2 : (sign (bar a) == -1 && sign (bar b) == -1) = decide (sign a = 1) := by
        rw [sign_bar hc (baryon_hadron ba).2, sign_bar hc (baryon_hadron bb).2, ← h2.2]
        rcases hs with h | h <;> rw [h] <;> decide
      unfold nnXx at hbr ⊢
      rw [e1] at hbr
      rw [e2]
      have lists : (∀ t ∈ (if decide (sign a = -1) = true then W.antiNucleons else W.nucleons),
            (Good t ∧ NSB t) ∧
              bar t ∈ (if decide (sign a = 1) = true then W.antiNucleons else W.nucleons)) ∧
          (∀ t ∈ (if decide (sign a = -1) = true then W.antiDeltas else W.deltas),
            (Good t ∧ NSB t) ∧
              bar t ∈ (if decide (sign a = 1) = true then W.antiDeltas else W.deltas)) := by
        rcases hs with h | h
        · simp only [h]
          constructor
          · intro t ht
            simp only [Int.reduceNeg, Int.reduceEq, decide_false, Bool.false_eq_true, if_false] at ht
            obtain ⟨g, n, _⟩ := hl.nucleons t ht
            exact ⟨⟨g, nucleon_nsb g n⟩, by simpa using hc.nucleons t ht⟩
          · intro t ht
            simp only [Int.reduceNeg, Int.reduceEq, decide_false, Bool.false_eq_true, if_false] at ht
            obtain ⟨g, n, _⟩ := hl.deltas t ht
            exact ⟨⟨g, delta_nsb g n⟩, by simpa using hc.deltas t ht⟩
        · simp only [h]
          constructor
          · intro t ht
            simp only [decide_true, if_true] at ht
            obtain ⟨g, n, _⟩ := hl.antiNucleons t ht
            exact ⟨⟨g, nucleon_nsb g n⟩, by simpa using hc.antiNucleons t ht⟩
          · intro t ht
            simp only [decide_true, if_true] at ht
            obtain ⟨g, n, _⟩ := hl.antiDeltas t ht
            exact ⟨⟨g, delta_nsb g n⟩, by simpa using hc.antiDeltas t ht⟩
      have res : ∀ {l2 l2' : List PType} {g : PType → PType → ℝ},
          (∀ t ∈ l2, (Good t ∧ NSB t) ∧ bar t ∈ l2') → (∀ t u, g (bar t) (bar u) = g t u) →
          br ∈ nnFromType W a b (baryonResonances W) l2 g →
          (⟨br.out.map bar, br.weight⟩ : Branch) ∈
            nnFromType W (bar a) (bar b) (baryonResonances W) l2' g := by
        intro l2 l2' g hl2 hg hm
        refine nnFromType_conj hc had hbd (fun t ht => resonances_bar hc hd ht)
          (fun t ht => (hl2 t ht).2) (fun t ht => .inl (resonance_hadron hc hl ht).1)
          (fun t ht => .inl (nsb_hadron (hl2 t ht).1.2)) ?_ hg hm
        intro t ht u hu I
        have gt := (resonances_mem hl ht).1
        have gu := (hl2 u hu).1.1
        refine matrix_bar hc ?_ I (pion_bar_eq hc gt) (pion_bar_eq hc gu)
        rw [(resonance_hadron hc hl ht).2, nsb_sign hc (hl2 u hu).1.2, Bool.eq_iff_iff]
        simp
      simp only [List.mem_append] at hbr ⊢
      rcases hbr with (hbr | hbr) | hbr
      · refine .inl (.inl ?_)
        split at hbr
        · rename_i hi
          rw [if_pos hi]
          exact res lists.1 (fun t _ => hc.intNR t) hbr
        · exact absurd hbr List.not_mem_nil
      · refine .inl (.inr ?_)
        split at hbr
        · rename_i hi
          rw [if_pos hi]
          exact res lists.2 (fun t u => hc.intRR t u) hbr
        · exact absurd hbr List.not_mem_nil
      · refine .inr ?_
        unfold nnToDeuteron at hbr ⊢
        split at hbr
        · rename_i d ad pim piz pip e1 e2 e3 e4 e5
          split at hbr
          · rename_i hi
            rw [if_pos hi]
            have c1 : conjPdg deuteronCode = antideuteronCode := by decide +kernel
            have c2 : conjPdg antideuteronCode = deuteronCode := by decide +kernel
            have c3 : conjPdg (2 ^ 31 + 0x211) = 0x211 := by decide +kernel
            have c4 : conjPdg 0x111 = 0x111 := by decide +kernel
            have c5 : conjPdg 0x211 = 2 ^ 31 + 0x211 := by decide +kernel
            have b1 : bar d = ad := bar_one hc hd e1 (by rw [c1]; exact e2)
            have b2 : bar ad = d := bar_one hc hd e2 (by rw [c2]; exact e1)
            have b3 : bar pim = pip := bar_one hc hd e3 (by rw [c3]; exact e5)
            have b4 : bar piz = piz := bar_one hc hd e4 (by rw [c4]; exact e4)
            have b5 : bar pip = pim := bar_one hc hd e5 (by rw [c5]; exact e3)
            have pd : ∀ {x : Nat} {t : PType}, tryFind W x = some t → t.pdg = x ∧ Good t :=
              fun hh => ⟨by simpa using List.find?_some hh, hl.good _ (List.mem_of_find?_eq_some hh)⟩
            have dd : ∀ t ∈ (if decide (sign a = -1) = true then [ad] else [d]),
                isDeuteron t = true ∧ Good t ∧
                  bar t ∈ (if decide (sign a = 1) = true then [ad] else [d]) := by
              intro t ht
              rcases hs with h | h
              · simp only [h, Int.reduceNeg, Int.reduceEq, decide_false, Bool.false_eq_true, if_false,
                  List.mem_singleton] at ht
                subst ht
                refine ⟨?_, (pd e1).2, by simp [h, b1]⟩
                unfold isDeuteron
                rw [(pd e1).1]
                decide +kernel
              · simp only [h, decide_true, if_true, List.mem_singleton] at ht
                subst ht
                refine ⟨?_, (pd e2).2, by simp [h, b2]⟩
                unfold isDeuteron
                rw [(pd e2).1]
                decide +kernel
            have pp : ∀ t ∈ [pim, piz, pip], isPion t = true ∧ Good t ∧ bar t ∈ [pim, piz, pip] ∧
                Pdg.isHadron t.pdg = true := by
              intro t ht
              simp only [List.mem_cons, List.not_mem_nil, or_false] at ht
              rcases ht with rfl | rfl | rfl
              · refine ⟨?_, (pd e3).2, by simp [b3], by rw [(pd e3).1]; decide +kernel⟩
                unfold isPion
                rw [(pd e3).1]
                decide +kernel
              · refine ⟨?_, (pd e4).2, by simp [b4], by rw [(pd e4).1]; decide +kernel⟩
                unfold isPion
                rw [(pd e4).1]
                decide +kernel
              · refine ⟨?_, (pd e5).2, by simp [b5], by rw [(pd e5).1]; decide +kernel⟩
                unfold isPion
                rw [(pd e5).1]
                decide +kernel
            refine nnFromType_conj hc had hbd (fun t ht => (dd t ht).2.2) (fun t ht => (pp t ht).2.2.1)
              (fun t ht => .inr (deuteron_qn (dd t ht).1).1) (fun t ht => .inl (pp t ht).2.2.2) ?_ ?_
              hbr
            · intro t ht u hu I
              rw [matrix_dpi (dd t ht).1 (dd t ht).2.1 (pp u hu).1 (pp u hu).2.1,
                matrix_dpi (by rw [deuteron_bar hc]; exact (dd t ht).1) (good t (dd t ht).2.1)
                  (pion_bar hc (pp u hu).2.1 (pp u hu).1) (good u (pp u hu).2.1)]
              simp only [hc.mass, hc.width]
            · intro t u
              simp only [hc.mass]
          · exact absurd hbr List.not_mem_nil
        · exact absurd hbr List.not_mem_nil
    · rw [if_neg h2] at h h'
      rw [← ok_inj h] at hbr
      rw [← ok_inj h']
      unfold bbXx at hbr ⊢
      simp only [nn, delta_bar hc, signs ba bb] at hbr ⊢
      simp only [hc.pdg, nucleus_conj, hn.1, hn.2, Bool.or_self, Bool.not_false, Bool.and_true] at hbr ⊢
      split at hbr
      · exact absurd hbr List.not_mem_nil
      · rename_i hs
        have hs' : sign a = sign b := by simpa using hs
        rw [if_neg hs]
        have key : br ∈ barBarToNucNuc W a b (sign a == -1) →
            (⟨br.out.map bar, br.weight⟩ : Branch) ∈
              barBarToNucNuc W (bar a) (bar b) (sign (bar a) == -1) := by
          intro hm
          unfold barBarToNucNuc at hm ⊢
          refine nucPairs_conj hc had hbd ?_ ?_ ?_ hm
          · intro t ht
            rw [sign_bar hc (baryon_hadron ba).2]
            rcases sign_cases a with h | h
            · simp only [h] at ht ⊢
              simp at ht ⊢
              exact hc.nucleons t ht
            · simp only [h] at ht ⊢
              simp at ht ⊢
              exact hc.antiNucleons t ht
          · intro t ht
            split at ht
            · obtain ⟨g, n, _⟩ := hl.antiNucleons t ht
              exact nsb_hadron (nucleon_nsb g n)
            · obtain ⟨g, n, _⟩ := hl.nucleons t ht
              exact nsb_hadron (nucleon_nsb g n)
          · intro I
            exact matrix_bar hc (signs ba bb) I (pion_bar_eq hc ha) (pion_bar_eq hc hb)
        split at hbr
        · rename_i c1
          rw [if_pos c1]
          split at hbr
          · rename_i c2
            rw [if_pos c2]
            exact key hbr
          · exact absurd hbr List.not_mem_nil
        · rename_i c1
          rw [if_neg c1]
          split at hbr
          · rename_i c3
            rw [if_pos c3]
            split at hbr
            · rename_i c2
              rw [if_pos c2]
              exact key hbr
            · exact absurd hbr List.not_mem_nil
          · exact absurd hbr List.not_mem_nil
  · rw [if_neg h1] at h h'
    have ite_bar : ∀ (p : Prop) [Decidable p] (x y : PType),
        (if p then bar x else bar y) = bar (if p then x else y) := by
      intro p _ x y
      split_ifs <;> rfl
    have ite_good : ∀ (p : Prop) [Decidable p], Good (if p then a else b) ∧ Good (if p then b else a) := by
      intro p _
      split_ifs
      · exact ⟨ha, hb⟩
      · exact ⟨hb, ha⟩
    split at h
    · rename_i h2
      rw [if_pos h2] at h'
      split at h
      · rename_i h3
        rw [if_pos h3] at h'
        unfold nkXxList at h h'
        simp only [nn, hc.mass] at h'
        rw [ite_bar, ite_bar] at h'
        exact table_conj hc hd nk_codes nk_conj (ite_good _).1 (ite_good _).2 h h' hbr
      · rename_i h3
        rw [if_neg h3] at h'
        split at h
        · rename_i h4
          rw [if_pos h4] at h'
          unfold ypiXxList at h h'
          split at h
          · rename_i h5
            rw [if_pos h5] at h'
            simp only [hc.pdg, hyperon_conj] at h'
            rw [ite_bar, ite_bar] at h'
            exact table_conj hc hd ypi_codes ypi_conj (ite_good _).1 (ite_good _).2 h h' hbr
          · rw [← ok_inj h] at hbr; exact absurd hbr List.not_mem_nil
        · rename_i h4
          rw [if_neg h4] at h'
          split at h
          · rename_i h5
            rw [if_pos h5] at h'
            unfold deltakXxList at h h'
            split at h
            · rename_i h6
              rw [if_pos h6] at h'
              simp only [delta_bar hc] at h'
              rw [ite_bar, ite_bar] at h'
              exact table_conj hc hd deltak_codes deltak_conj (ite_good _).1 (ite_good _).2 h h' hbr
            · rw [← ok_inj h] at hbr; exact absurd hbr List.not_mem_nil
          · rw [← ok_inj h] at hbr; exact absurd hbr List.not_mem_nil
    · rw [hn.1, hn.2] at h
      simp only [Bool.or_self, Bool.false_eq_true, if_false] at h
      rw [← ok_inj h] at hbr; exact absurd hbr List.not_mem_nil

/-- **C111** (charge conjugation of strangeness production). -/
theorem C111_rare_conjugate (W : World) (bar : PType → PType) (hc : Conj W bar) (hd : Distinct W)
    (a b : PType) (ha : Good a) (hb : Good b) (l l' : List Branch)
    (h : rareTwoToTwo W a b = .ok l) (h' : rareTwoToTwo W (bar a) (bar b) = .ok l')
    (br : Branch) (hbr : br ∈ l) : (⟨br.out.map bar, br.weight⟩ : Branch) ∈ l' := by
  unfold rareTwoToTwo at h h'
  simp only [nucleon_bar hc, pion_bar_eq hc ha, pion_bar_eq hc hb] at h'
  split at h
  · rename_i h1
    rw [if_pos h1] at h'
    unfold npiYkList at h h'
    simp only [nucleon_bar hc] at h'
    have ite_bar : ∀ (p : Prop) [Decidable p] (x y : PType),
        (if p then bar x else bar y) = bar (if p then x else y) := by
      intro p _ x y
      split_ifs <;> rfl
    rw [ite_bar, ite_bar] at h'
    refine table_conj hc hd npi_codes npi_conj ?_ ?_ h h' hbr <;> split_ifs <;> assumption
  · rw [← ok_inj h] at hbr; exact absurd hbr List.not_mem_nil

/-! ### Non-vacuity -/

/-- The antiparticle of a type. -/
def antiT (t : PType) : PType := { t with pdg := conjPdg t.pdg }

/-- A world with protons, kaons, Deltas and their antiparticles. -/
noncomputable def conjWorld : World :=
  { kdWorld 1 with
    types := [protonT, kPlusT, kZeroT, deltaPPT, antiT protonT, antiT kPlusT, antiT kZeroT,
      antiT deltaPPT]
    nucleons := [protonT]
    antiNucleons := [antiT protonT]
    deltas := [deltaPPT]
    antiDeltas := [antiT deltaPPT] }

theorem antiT_antiT (t : PType) : antiT (antiT t) = t := by
  simp [antiT, conj_conj]

/-- The hypotheses of `C111_conjugate_partial` and `C111_order` hold for proton and kaon. -/
example : Conj conjWorld antiT ∧ Distinct conjWorld ∧ Lists conjWorld ∧ Good protonT ∧ Good kPlusT ∧
    Exchangeable conjWorld protonT kPlusT := by
  have g : ∀ t ∈ conjWorld.types, Good t := by
    intro t ht
    simp only [conjWorld, List.mem_cons, List.not_mem_nil, or_false] at ht
    rcases ht with rfl | rfl | rfl | rfl | rfl | rfl | rfl | rfl <;>
      exact good_of (by decide +kernel) (by decide +kernel)
  refine ⟨?_, ?_, ?_, g _ (by simp [conjWorld]), g _ (by simp [conjWorld]), ⟨fun _ _ _ => rfl, rfl,
    by norm_num [conjWorld, kdWorld, mkWorld]⟩⟩
  · constructor
    case mem =>
      intro t ht
      simp only [conjWorld, List.mem_cons, List.not_mem_nil, or_false] at ht ⊢
      rcases ht with rfl | rfl | rfl | rfl | rfl | rfl | rfl | rfl <;> simp [antiT_antiT]
    case nucleons => intro t ht; simp [conjWorld] at ht ⊢; rw [ht]
    case antiNucleons => intro t ht; simp [conjWorld] at ht ⊢; rw [ht, antiT_antiT]
    case deltas => intro t ht; simp [conjWorld] at ht ⊢; rw [ht]
    case antiDeltas => intro t ht; simp [conjWorld] at ht ⊢; rw [ht, antiT_antiT]
    all_goals intros; first | rfl | exact Iff.rfl
  · intro t ht u hu h
    simp only [conjWorld, List.mem_cons, List.not_mem_nil, or_false] at ht hu
    rcases ht with rfl | rfl | rfl | rfl | rfl | rfl | rfl | rfl <;>
      rcases hu with rfl | rfl | rfl | rfl | rfl | rfl | rfl | rfl <;>
      first | rfl | exact absurd h (by decide +kernel)
  · constructor
    · exact g
    all_goals
      intro t ht
      simp only [conjWorld, List.mem_singleton] at ht
      subst ht
      exact ⟨g _ (by simp [conjWorld]), by decide +kernel, by decide +kernel⟩

end Verif.Sec
