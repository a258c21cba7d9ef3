import Verif.Pdg.Quantum
/-!
C16 and C62: charge, isospin and flavour from the quark digits.
-/
set_option linter.unusedSimpArgs false
set_option linter.unusedVariables false
set_option linter.unnecessarySeqFocus false
namespace Verif.Pdg

/-! ### Specification: valence quarks by the PDG numbering convention -/

/-- Three times the charge of quark flavour `q` (1 = d, 2 = u, 3 = s, 4 = c, 5 = b, 6 = t). -/
def thrice (q : Nat) : Int := if q % 2 = 0 then 2 else -1

/-- The valence quarks of the hadron with quark digits `q1 q2 q3` (`q1 = 0` for a meson), as
pairs of flavour and `+1` (quark) or `-1` (antiquark). `s` is the sign of the code. In a
meson with positive code the heavier quark is a quark if it is up-type, an antiquark if
it is down-type (PDG Monte Carlo numbering scheme, rule 5). -/
def valence (s : Int) (q1 q2 q3 : Nat) : List (Nat × Int) :=
  if q1 ≠ 0 then [(q1, s), (q2, s), (q3, s)]
  else if max q2 q3 % 2 = 0 then [(max q2 q3, s), (min q2 q3, -s)]
  else [(max q2 q3, -s), (min q2 q3, s)]

/-- Number of quarks minus number of antiquarks of one flavour. -/
def netCount (l : List (Nat × Int)) (q : Nat) : Int :=
  (l.map fun x => if x.1 = q then x.2 else 0).sum

/-! ### The model's net quark numbers are those of the valence quarks -/

/-- `net_quark_number` of a hadron as a function of the three digits and the sign. -/
def net (s : Int) (q1 q2 q3 q : Nat) : Int :=
  if q1 ≠ q ∧ q2 ≠ q ∧ q3 ≠ q then 0
  else if q1 ≠ 0 then
    s * ((if q1 = q then 1 else 0) + (if q2 = q then 1 else 0) + (if q3 = q then 1 else 0))
  else if q3 = q ∧ q2 = q then 0
  else
    let other := if q2 = q then q3 else q2
    if q > other then (if q % 2 = 0 then 1 else -1) * s
    else (if other % 2 = 0 then -1 else 1) * s

theorem hadron_not_nucleus {d : Nat} (h : isHadron d = true) : isNucleus d = false := by
  unfold isHadron at h; simp at h; exact h.2

theorem baryon_ne_zero {d : Nat} (h : isHadron d = true) : baryonNumber d ≠ 0 ↔ nq1 d ≠ 0 := by
  unfold baryonNumber
  rw [if_neg (by simp [hadron_not_nucleus h])]
  by_cases h1 : nq1 d = 0
  · simp [h1]
  · rw [if_neg (by simp [h, h1])]
    unfold antiparticleSign
    split_ifs <;> simp [h1]

theorem baryon_hadron {d : Nat} (h : isHadron d = true) :
    baryonNumber d = if nq1 d ≠ 0 then antiparticleSign d else 0 := by
  unfold baryonNumber
  rw [if_neg (by simp [hadron_not_nucleus h])]
  by_cases h1 : nq1 d = 0
  · simp [h1]
  · rw [if_neg (by simp [h, h1]), if_pos h1]

theorem netQuark_net {d q : Nat} (h : isHadron d = true) (hq : 1 ≤ q ∧ q ≤ 6) :
    netQuark d q = net (antiparticleSign d) (nq1 d) (nq2 d) (nq3 d) q := by
  unfold netQuark netQuarkNumber net
  rw [if_neg (by omega), if_neg (by simp [hadron_not_nucleus h])]
  simp only [h, Bool.true_eq_false, false_or, ne_eq, Nat.cast_inj, baryon_ne_zero h]
  generalize nq1 d = q1
  generalize nq2 d = q2
  generalize nq3 d = q3
  by_cases c1 : ¬q1 = q ∧ ¬q2 = q ∧ ¬q3 = q
  · rw [if_pos c1, if_pos c1]; rfl
  rw [if_neg c1, if_neg c1]
  by_cases c2 : ¬ q1 = 0
  · rw [if_pos c2, if_pos c2]; rfl
  · rw [if_neg c2, if_neg c2]
    by_cases c3 : q3 = q ∧ q2 = q
    · rw [if_pos c3, if_pos c3]; rfl
    · rw [if_neg c3, if_neg c3]
      have e : (if q2 = q then (q3 : Int) else (q2 : Int)) = ((if q2 = q then q3 else q2 : Nat) : Int) := by
        split_ifs <;> rfl
      rw [e]
      generalize (if q2 = q then q3 else q2 : Nat) = o
      have e1 : ((q : Int) > o) ↔ q > o := by omega
      have e2 : ((q : Int) % 2 = 0) ↔ q % 2 = 0 := by omega
      have e3 : ((o : Int) % 2 = 0) ↔ o % 2 = 0 := by omega
      simp only [e1, e2, e3]
      by_cases c4 : q > o
      · rw [if_pos c4, if_pos c4]; rfl
      · rw [if_neg c4, if_neg c4]; rfl

/-- All digit combinations (six flavours, no quark digit above 6), both signs. -/
theorem net_table : ∀ (b : Bool) (q1 : Fin 7) (q2 q3 q : Fin 6),
    net (if b then -1 else 1) q1 (q2 + 1) (q3 + 1) (q + 1) =
      netCount (valence (if b then -1 else 1) q1 (q2 + 1) (q3 + 1)) (q + 1) := by decide +kernel

structure Digits (d : Nat) : Prop where
  hadron : isHadron d = true
  h1 : nq1 d ≤ 6
  h2 : nq2 d ≤ 6
  h3 : nq3 d ≤ 6

theorem Digits.pos {d : Nat} (h : Digits d) : 1 ≤ nq2 d ∧ 1 ≤ nq3 d := by
  have := h.hadron
  unfold isHadron at this
  simp at this
  omega

theorem sign_eq (d : Nat) : antiparticleSign d = if anti d = true then -1 else 1 := rfl

/-- Lift a statement about the digit table to codes. -/
theorem lift {P : Int → Nat → Nat → Nat → Prop}
    (H : ∀ (b : Bool) (q1 : Fin 7) (q2 q3 : Fin 6),
      P (if b then -1 else 1) q1 (q2 + 1) (q3 + 1)) {d : Nat} (h : Digits d) :
    P (antiparticleSign d) (nq1 d) (nq2 d) (nq3 d) := by
  have hp := h.pos
  have := H (anti d) ⟨nq1 d, by have := h.h1; omega⟩ ⟨nq2 d - 1, by have := h.h2; omega⟩
    ⟨nq3 d - 1, by have := h.h3; omega⟩
  simp only [Nat.sub_add_cancel hp.1, Nat.sub_add_cancel hp.2] at this
  rw [sign_eq]; exact this

theorem netQuark_valence {d q : Nat} (h : Digits d) (hq : 1 ≤ q ∧ q ≤ 6) :
    netQuark d q = netCount (valence (antiparticleSign d) (nq1 d) (nq2 d) (nq3 d)) q := by
  rw [netQuark_net h.hadron hq]
  refine lift (P := fun s q1 q2 q3 => net s q1 q2 q3 q = netCount (valence s q1 q2 q3) q) ?_ h
  intro b q1 q2 q3
  have := net_table b q1 q2 q3 ⟨q - 1, by omega⟩
  simpa only [Nat.sub_add_cancel hq.1] using this

/-! ### C16 -/

/-- **C16.** For a hadron whose quark digits are quark flavours: the net number of each
flavour, the charge and the baryon number are those of its valence quarks. -/
theorem C16_valence {d : Nat} (hd : isHadron d = true) (h1 : nq1 d ≤ 6) (h2 : nq2 d ≤ 6)
    (h3 : nq3 d ≤ 6) :
    let v := valence (antiparticleSign d) (nq1 d) (nq2 d) (nq3 d)
    (∀ q : Nat, 1 ≤ q → q ≤ 6 → netQuarkNumber d q = .ok (netCount v q)) ∧
    3 * charge d = (v.map fun x => thrice x.1 * x.2).sum ∧
    3 * baryonNumber d = (v.map fun x => x.2).sum := by
  have h : Digits d := ⟨hd, h1, h2, h3⟩
  refine ⟨?_, ?_, ?_⟩
  · intro q hq1 hq6
    rw [← netQuark_valence h ⟨hq1, hq6⟩]
    have : ∃ r, netQuarkNumber d q = .ok r := by
      unfold netQuarkNumber
      rw [if_neg (by omega)]
      simp only
      split_ifs <;> exact ⟨_, rfl⟩
    obtain ⟨r, hr⟩ := this
    unfold netQuark; rw [hr]; rfl
  · unfold charge
    rw [if_pos (by simp [hd])]
    have e (q : Nat) (hq : 1 ≤ q ∧ q ≤ 6) := netQuark_valence h hq
    have e1 := e 1 (by omega)
    have e2 := e 2 (by omega)
    have e3 := e 3 (by omega)
    have e4 := e 4 (by omega)
    have e5 := e 5 (by omega)
    have e6 := e 6 (by omega)
    simp only [Nat.cast_ofNat, Nat.cast_one] at e1 e2 e3 e4 e5 e6
    rw [e1, e2, e3, e4, e5, e6]
    exact lift (P := fun s q1 q2 q3 => 3 * Int.tdiv (-netCount (valence s q1 q2 q3) 1
      + 2 * netCount (valence s q1 q2 q3) 2 - netCount (valence s q1 q2 q3) 3
      + 2 * netCount (valence s q1 q2 q3) 4
      - netCount (valence s q1 q2 q3) 5 + 2 * netCount (valence s q1 q2 q3) 6) 3 =
      ((valence s q1 q2 q3).map fun x => thrice x.1 * x.2).sum) (by decide +kernel) h
  · rw [baryon_hadron hd]
    exact lift (P := fun s q1 q2 q3 => 3 * (if q1 ≠ 0 then s else 0) =
      ((valence s q1 q2 q3).map fun x => x.2).sum) (by decide +kernel) h

/-- **C16.** Gell-Mann–Nishijima for hadrons: `2 Q = 2 I₃ + B + S + C + B' + T`
(`isospin3` returns `2 I₃`). -/
theorem C16_gell_mann_nishijima {d : Nat} (hd : isHadron d = true) (h1 : nq1 d ≤ 6)
    (h2 : nq2 d ≤ 6) (h3 : nq3 d ≤ 6) :
    2 * charge d = isospin3 d + baryonNumber d + strangeness d + charmness d + bottomness d
      + netQuark d 6 := by
  have h : Digits d := ⟨hd, h1, h2, h3⟩
  unfold charge isospin3 strangeness charmness bottomness
  rw [if_pos (by simp [hd]), baryon_hadron hd]
  have e (q : Nat) (hq : 1 ≤ q ∧ q ≤ 6) := netQuark_valence h hq
  have e1 := e 1 (by omega)
  have e2 := e 2 (by omega)
  have e3 := e 3 (by omega)
  have e4 := e 4 (by omega)
  have e5 := e 5 (by omega)
  have e6 := e 6 (by omega)
  simp only [Nat.cast_ofNat, Nat.cast_one] at e1 e2 e3 e4 e5 e6
  rw [e1, e2, e3, e4, e5, e6]
  exact lift (P := fun s q1 q2 q3 => 2 * Int.tdiv (-netCount (valence s q1 q2 q3) 1
      + 2 * netCount (valence s q1 q2 q3) 2 - netCount (valence s q1 q2 q3) 3
      + 2 * netCount (valence s q1 q2 q3) 4
      - netCount (valence s q1 q2 q3) 5 + 2 * netCount (valence s q1 q2 q3) 6) 3 =
      netCount (valence s q1 q2 q3) 2 - netCount (valence s q1 q2 q3) 1
      + (if q1 ≠ 0 then s else 0) + -netCount (valence s q1 q2 q3) 3
      + netCount (valence s q1 q2 q3) 4 + -netCount (valence s q1 q2 q3) 5
      + netCount (valence s q1 q2 q3) 6) (by decide +kernel) h

/-- **C16**, nuclei: `Z` protons, `A - Z - L` neutrons and `L` Lambdas (or their
antiparticles) give charge `±Z`, baryon number `±A`, strangeness `∓L`, and the
Gell-Mann–Nishijima relation. -/
theorem C16_nucleus {d : Nat} (hd : isNucleus d = true) :
    charge d = antiparticleSign d * Z d ∧ baryonNumber d = antiparticleSign d * A d ∧
    strangeness d = -(antiparticleSign d * nLambda d) ∧
    2 * charge d = isospin3 d + baryonNumber d + strangeness d + charmness d + bottomness d
      + netQuark d 6 := by
  have e1 : netQuark d 1 = (2 * ((A d : Int) - Z d - nLambda d) + Z d + nLambda d)
      * antiparticleSign d := by
    unfold netQuark netQuarkNumber; rw [if_neg (by omega), if_pos hd]; rfl
  have e2 : netQuark d 2 = ((A d : Int) - Z d - nLambda d + 2 * Z d + nLambda d)
      * antiparticleSign d := by
    unfold netQuark netQuarkNumber; rw [if_neg (by omega), if_pos hd]; rfl
  have e3 : netQuark d 3 = nLambda d * antiparticleSign d := by
    unfold netQuark netQuarkNumber; rw [if_neg (by omega), if_pos hd]; rfl
  have e4 : netQuark d 4 = 0 := by
    unfold netQuark netQuarkNumber; rw [if_neg (by omega), if_pos hd]; rfl
  have e5 : netQuark d 5 = 0 := by
    unfold netQuark netQuarkNumber; rw [if_neg (by omega), if_pos hd]; rfl
  have e6 : netQuark d 6 = 0 := by
    unfold netQuark netQuarkNumber; rw [if_neg (by omega), if_pos hd]; rfl
  have hb : baryonNumber d = antiparticleSign d * A d := by
    unfold baryonNumber; rw [if_pos hd]; ring
  have hc : charge d = antiparticleSign d * Z d := by
    unfold charge; rw [if_pos (by simp [hd]), e1, e2, e3, e4, e5, e6]
    have : -((2 * ((A d : Int) - Z d - nLambda d) + Z d + nLambda d) * antiparticleSign d)
        + 2 * (((A d : Int) - Z d - nLambda d + 2 * Z d + nLambda d) * antiparticleSign d)
        - nLambda d * antiparticleSign d + 2 * 0 - 0 + 2 * 0 =
        antiparticleSign d * Z d * 3 := by ring
    rw [this, Int.mul_tdiv_cancel _ (by norm_num)]
  refine ⟨hc, hb, ?_, ?_⟩
  · unfold strangeness; rw [e3]; ring
  · unfold isospin3 strangeness charmness bottomness
    rw [hc, hb, e1, e2, e3, e4, e5, e6]; ring

/-! ### C62 -/

/-- Occurrences of flavour `q` minus occurrences of its antiquark in a triple as
`quark_content` returns it (negative entries are antiquarks). -/
def contentCount (t : Int × Int × Int) (q : Int) : Int :=
  ([t.1, t.2.1, t.2.2].map fun x => if x = q then 1 else if x = -q then -1 else 0).sum

/-- `quark_content` as a function of the digits. -/
def content (an : Bool) (q1 q2 q3 : Nat) : Int × Int × Int :=
  if q1 ≠ 0 then
    if an then (-(q1 : Int), -(q2 : Int), -(q3 : Int)) else ((q1 : Int), (q2 : Int), (q3 : Int))
  else if q2 = q3 then ((q1 : Int), (q2 : Int), -(q3 : Int))
  else
    let r : Int × Int := if an then (-(q2 : Int), (q3 : Int)) else ((q2 : Int), -(q3 : Int))
    if q2 % 2 = 1 then ((q1 : Int), -r.1, -r.2) else ((q1 : Int), r.1, r.2)

theorem content_table : ∀ (an : Bool) (q1 : Fin 7) (q2 q3 q : Fin 6), (q1 = 0 → q3 ≤ q2) →
    contentCount (content an q1 (q2 + 1) (q3 + 1)) ((q : Nat) + 1) =
      netCount (valence (if an then -1 else 1) q1 (q2 + 1) (q3 + 1)) (q + 1) := by decide +kernel

/-- **C62.** For every hadron the list returned by `quark_content` contains every flavour as
often as `net_quark_number` says, provided a meson's heavier quark is written first.
Missing: mesons written with the lighter quark first (`C62_kaon_inconsistent`). -/
theorem C62_content_partial {d q : Nat} (hd : isHadron d = true) (h1 : nq1 d ≤ 6)
    (h2 : nq2 d ≤ 6) (h3 : nq3 d ≤ 6) (ho : nq1 d = 0 → nq3 d ≤ nq2 d) (hq : 1 ≤ q ∧ q ≤ 6) :
    netQuarkNumber d q = .ok (contentCount (quarkContent d) q) := by
  have h : Digits d := ⟨hd, h1, h2, h3⟩
  have hp := h.pos
  rw [(C16_valence hd h1 h2 h3).1 q hq.1 hq.2]
  have e : quarkContent d = content (anti d) (nq1 d) (nq2 d) (nq3 d) := by
    unfold quarkContent content; rw [if_pos hd]
  rw [e]
  have := content_table (anti d) ⟨nq1 d, by omega⟩ ⟨nq2 d - 1, by omega⟩
    ⟨nq3 d - 1, by omega⟩ ⟨q - 1, by omega⟩ (by
      intro h0
      have h0' : nq1 d = 0 := by simpa [Fin.ext_iff] using h0
      have := ho h0'
      exact Fin.mk_le_mk.2 (by omega))
  simp only [Nat.sub_add_cancel hp.1, Nat.sub_add_cancel hp.2, Nat.sub_add_cancel hq.1] at this
  rw [sign_eq, ← this]
  congr 2
  omega

/-- For the K0_L the two functions disagree: one says one net strange antiquark, the
other one net strange quark. -/
theorem C62_kaon_inconsistent : ofInt 0x130 = .ok 0x130 ∧
    netQuarkNumber 0x130 3 = .ok (-1) ∧ contentCount (quarkContent 0x130) 3 = 1 := by
  decide +kernel

/-- Non-vacuity: D_s^+ (charm, anti-strange), and a carbon nucleus. -/
example : isHadron 0x431 = true ∧ nq1 0x431 ≤ 6 ∧ nq2 0x431 ≤ 6 ∧ nq3 0x431 ≤ 6 ∧
    (nq1 0x431 = 0 → nq3 0x431 ≤ nq2 0x431) ∧ charge 0x431 = 1 ∧
    quarkContent 0x431 = (0, 4, -3) := by decide +kernel
example : ∃ d, ofString "1000060120".toList = .ok d ∧ isNucleus d = true ∧ charge d = 6 ∧
    baryonNumber d = 12 := ⟨mkNuc 0 0 6 12 0, by decide +kernel⟩

/-! ### C63: classification -/

/-- **C63.** Every code is exactly one of: nucleus, hadron, anything else; a lepton is
neither nucleus nor hadron; a hadron is either a baryon or a meson; a hyperon is a baryon
and exactly one of Lambda, Sigma, Xi, Omega; only hyperons are any of these. -/
theorem C63_classes (d : Nat) :
    (isHadron d = true → isNucleus d = false) ∧
    (isLepton d = true → isHadron d = false ∧ isNucleus d = false) ∧
    (isHadron d = true ↔ isBaryon d = true ∨ isMeson d = true) ∧
    ¬ (isBaryon d = true ∧ isMeson d = true) ∧
    (isHyperon d = true → isBaryon d = true) ∧
    (isHyperon d = true ↔
      ([isLambda d, isSigma d, isXi d, isOmega d].count true = 1)) ∧
    (isHyperon d = false →
      ([isLambda d, isSigma d, isXi d, isOmega d].count true = 0)) := by
  unfold isLepton isBaryon isMeson isOmega isXi isSigma isLambda isHyperon isHadron
  generalize nq1 d = q1
  generalize nq2 d = q2
  generalize nq3 d = q3
  generalize isNucleus d = b
  refine ⟨?_, ?_, ?_, ?_, ?_, ?_, ?_⟩
  · simp
  · simp; intro h1 h2 h3 h4; simp [h1, h2, h3, h4]
  · by_cases h : q1 = 0 <;> simp [h]
  · by_cases h : q1 = 0 <;> simp [h]
  · simp; intro h1 h2 h3 h4; simp [h1, h2, h3, h4]
  all_goals
    simp only [bne]
    have hc : ((q2 == 3) && (q2 == 1)) = false := by
      by_cases h : q2 = 3 <;> simp [h]
    have he : ((q3 == 3) && (q3 == 2)) = false := by
      by_cases h : q3 = 3 <;> simp [h]
    generalize (q2 == 3) = x1 at *
    generalize (q2 == 1) = x2 at *
    generalize (q3 == 3) = x3 at *
    generalize (q3 == 2) = x4 at *
    generalize (q3 == 0) = x5 at *
    generalize (q2 == 0) = x6 at *
    generalize (q1 == 3) = x7 at *
    revert hc he
    revert x1 x2 x3 x4 x5 x6 x7 b
    decide +kernel

/-- Non-vacuity: Λ, Σ⁺, Ξ⁰, Ω⁻. -/
example : isLambda 0x3122 = true ∧ isSigma 0x3222 = true ∧ isXi 0x3322 = true ∧
    isOmega 0x3334 = true ∧ isLepton 0x11 = true := by decide +kernel

/-! ### C64: is_antiparticle_of -/

/-- **C64.** For codes made from numbers (hadrons, leptons, bosons; not the code 0):
`d.is_antiparticle_of(e)` exactly if `d` is the antiparticle code of `e`.
Missing: nuclei (`C64_nuclei_confused`). -/
theorem C64_antiparticle_of_partial {c c' : Int} {d e : Nat} (hd : ofInt c = .ok d)
    (he : ofInt c' = .ok e) (h0 : ucode d ≠ 0) :
    isAntiparticleOf d e = true ↔ d = getAntiparticle e := by
  have key {c : Int} {d : Nat} (hd : ofInt c = .ok d) :
      d = (if anti d then 2147483648 else 0) + ucode d ∧ ucode d < 268435456 := by
    have hs {b : Bool} {k d : Nat} (h : setFields b k = .ok d) :
        d = (if anti d then 2147483648 else 0) + ucode d ∧ ucode d < 268435456 := by
      rw [setFields_eq] at h
      split_ifs at h with h1 h2 h2 <;> try cases h
      all_goals
        obtain ⟨_, _, h⟩ := bind_ok.1 h
        have hdd := Except.ok.inj h
      · have : anti d = true := by rw [anti_iff, ← hdd]; omega
        rw [if_pos this]; unfold ucode bits; omega
      · have : ¬ anti d = true := by rw [anti_iff, ← hdd]; omega
        rw [if_neg this]; unfold ucode bits; omega
    unfold ofInt at hd
    split_ifs at hd <;> exact hs hd
  have kd := key hd
  have ke := key he
  rw [getAnti_eq]
  simp only [isAntiparticleOf, code, beq_iff_eq, antiparticleSign]
  generalize ucode d = u at *
  generalize ucode e = v at *
  clear hd he key
  cases h1 : anti d <;> cases h2 : anti e <;> simp only [h1, h2, if_true, if_false,
    Bool.false_eq_true] at kd ke ⊢ <;> omega

/-- Two different nuclei (excitation 0 and 4) are both taken for the antiparticle of the
same antinucleus. -/
theorem C64_nuclei_confused :
    ∃ d e f, ofString "1000010020".toList = .ok d ∧ ofString "1000010024".toList = .ok e ∧
      ofString "-1000010020".toList = .ok f ∧ d ≠ e ∧
      isAntiparticleOf d f = true ∧ isAntiparticleOf e f = true :=
  ⟨mkNuc 0 0 1 2 0, mkNuc 0 0 1 2 4, mkNuc 1 0 1 2 0, by decide +kernel⟩

/-- Non-vacuity: the antiproton and the proton. -/
example : ∃ d e, ofInt (-0x2212) = .ok d ∧ ofInt 0x2212 = .ok e ∧ ucode d ≠ 0 ∧
    isAntiparticleOf d e = true := ⟨0x80002212, 0x2212, by decide +kernel⟩

end Verif.Pdg
