import Mathlib.Tactic.Ring
import Mathlib.Tactic.Linarith
import Mathlib.Tactic.NormNum
import Mathlib.Tactic.Positivity
import Mathlib.Tactic.FieldSimp
import Verif.Ang.Model
import Verif.Act.Phase
import Verif.Rand.Props
import Verif.Em.Photon
/-!
C181: the scattering angles of 2 → 2 collisions.
-/
namespace Verif.Ang
open Verif Kin Real Act

/-- **C181**, integer powers by repeated squaring. -/
theorem C181_power (base : ℝ) (n : ℕ) : powInt base n = base ^ n := by
  induction n using Nat.strong_induction_on with
  | _ n ih =>
    unfold powInt
    split_ifs with h0 h2
    · rw [h0, pow_zero]
    · rw [ih (n / 2) (by omega), ← pow_add]; congr 1; omega
    · rw [ih (n - 1) (by omega), ← pow_succ']; congr 1; omega

theorem range_diff (E m1 m2 m3 m4 : ℝ) :
    (tRange E m1 m2 m3 m4).1 - (tRange E m1 m2 m3 m4).2 = 4 * pCM E m1 m2 * pCM E m3 m4 := by
  unfold tRange; ring

theorem power_rev {n x y u : ℝ} (h0 : x < 0) (hx : y ≤ x) (hu0 : 0 ≤ u) (hu1 : u < 1) {t : ℝ}
    (ht : Rand.power n x y u = some t) : y ≤ t ∧ t ≤ x := by
  have hM : y < 0 := lt_of_le_of_lt hx h0
  by_cases hn : |n + 1| < 1 / 1000
  · have hr0 : 0 < y / x := div_pos_of_neg_of_neg hM h0
    have hr : 1 ≤ y / x := (one_le_div_of_neg h0).2 hx
    rw [Rand.power_log hn hr0 h0.ne] at ht
    cases ht
    have a1 : 1 ≤ (y / x) ^ u := Real.one_le_rpow hr hu0
    have a2 : (y / x) ^ u ≤ (y / x) ^ (1 : ℝ) := Real.rpow_le_rpow_of_exponent_le hr hu1.le
    rw [Real.rpow_one] at a2
    constructor
    · calc y = x * (y / x) := by have := h0.ne; field_simp
        _ ≤ _ := by nlinarith
    · nlinarith
  · have hp : n + 1 ≠ 0 := by
      intro h; rw [h] at hn; norm_num at hn
    have ha : 0 < -x := by linarith
    have hb' : 0 < -y := by linarith
    have hb := Rand.uniform_between (a := (-x) ^ (n + 1)) (b := (-y) ^ (n + 1)) hu0 hu1
    obtain ⟨hw, hl, hr⟩ := Rand.rpow_inv_between ha (neg_le_neg hx) hp hb.1 hb.2
    have hs : Rand.sgn x = -1 := by
      unfold Rand.sgn; rw [if_pos h0, if_neg (not_lt.2 h0.le)]; norm_num
    unfold Rand.power at ht
    rw [if_neg hn, if_neg (fun h => absurd h.1 (not_le.2 h0)), abs_of_neg h0, abs_of_neg hM,
      Rand.pow_pos_eq ha, Rand.pow_pos_eq hb'] at ht
    simp only [Option.bind_some] at ht
    rw [Rand.pow_pos_eq hw, hs, Option.map_some, one_div] at ht
    cases ht
    constructor <;> linarith

theorem mirror_range {thr u t : ℝ} {tr : ℝ × ℝ} (h : tr.2 ≤ t ∧ t ≤ tr.1) :
    tr.2 ≤ mirror thr tr u t ∧ mirror thr tr u t ≤ tr.1 := by
  unfold mirror
  split_ifs <;> constructor <;> linarith [h.1, h.2]

/-- **C181**, the momentum transfer: whatever is drawn is between the values of backward and of forward scattering. -/
theorem C181_transfer_range {f : Flags} {s E m1 m2 m3 m4 v u t : ℝ} {us : List ℝ}
    (hr : (tRange E m1 m2 m3 m4).2 ≤ (tRange E m1 m2 m3 m4).1) (hneg : (tRange E m1 m2 m3 m4).1 < 0 ∨ f.aExcited = false)
    (hv : 0 ≤ v ∧ v < 1) (h : drawT f s E m1 m2 m3 m4 us v u = some (some t)) :
    (tRange E m1 m2 m3 m4).2 ≤ t ∧ t ≤ (tRange E m1 m2 m3 m4).1 := by
  unfold drawT at h
  simp only at h
  split_ifs at h with h1 h2 h3 h4
  · simp only [Option.some.injEq, Option.map_eq_some_iff] at h
    obtain ⟨x, hx, rfl⟩ := h
    obtain ⟨a, b⟩ := Rand.C55_expo_range hx
    exact mirror_range ⟨a.le, b⟩
  · simp only [Option.some.injEq, Option.map_eq_some_iff] at h
    obtain ⟨x, hx, rfl⟩ := h
    obtain ⟨a, b⟩ := Rand.C55_expo_range hx
    exact mirror_range ⟨a.le, b⟩
  · simp only [Option.some.injEq, Option.map_eq_some_iff] at h
    obtain ⟨x, hx, rfl⟩ := h
    rcases hneg with hneg | hneg
    · exact mirror_range (power_rev hneg hr hv.1 hv.2 hx)
    · simp [hneg] at h3
  · simp only [Option.some.injEq, Option.map_eq_some_iff] at h
    obtain ⟨x, rfl, rfl⟩ := h
    exact mirror_range ⟨hr, le_rfl⟩

/-- **C181**, the cosine of the scattering angle is between -1 and 1. -/
theorem C181_cos_range {f : Flags} {s E m1 m2 m3 m4 v u w c : ℝ} {us : List ℝ}
    (hi : 0 < pCM E m1 m2) (hf : 0 < pCM E m3 m4) (hneg : (tRange E m1 m2 m3 m4).1 < 0 ∨ f.aExcited = false)
    (hv : 0 ≤ v ∧ v < 1) (hw : -1 ≤ w ∧ w ≤ 1) (h : drawCos f s E m1 m2 m3 m4 us v u w = some c) :
    -1 ≤ c ∧ c ≤ 1 := by
  have hd := range_diff E m1 m2 m3 m4
  have hpos : 0 < 4 * pCM E m1 m2 * pCM E m3 m4 := by positivity
  unfold drawCos at h
  rcases ht : drawT f s E m1 m2 m3 m4 us v u with _ | _ | t
  · rw [ht] at h; cases h; exact hw
  · rw [ht] at h; cases h
  · rw [ht] at h; cases h
    obtain ⟨a, b⟩ := C181_transfer_range (by linarith) hneg hv ht
    have hn : (tRange E m1 m2 m3 m4).2 - (tRange E m1 m2 m3 m4).1 < 0 := by linarith
    unfold toCos
    have e1 : 0 ≤ 2 * (t - (tRange E m1 m2 m3 m4).1) / ((tRange E m1 m2 m3 m4).2 - (tRange E m1 m2 m3 m4).1) :=
      div_nonneg_of_nonpos (by linarith) hn.le
    have e2 : 2 * (t - (tRange E m1 m2 m3 m4).1) / ((tRange E m1 m2 m3 m4).2 - (tRange E m1 m2 m3 m4).1) ≤ 2 := by
      rw [div_le_iff_of_neg hn]; linarith
    constructor <;> linarith

/-- **C181**, the final state: the masses are those asked for and the momenta add up to zero, the energies to that of the collision. -/
theorem C181_final (q : V3) (E m3 m4 phi c : ℝ) (h3 : 0 ≤ m3) (h4 : 0 ≤ m4) (h0 : 0 < E) (h : m3 + m4 ≤ E)
    (hc : -1 ≤ c ∧ c ≤ 1) :
    HasMass (outgoing q E m3 m4 phi c).1 m3 ∧ HasMass (outgoing q E m3 m4 phi c).2 m4 ∧
      (outgoing q E m3 m4 phi c).1.add (outgoing q E m3 m4 phi c).2 = ⟨E, 0, 0, 0⟩ := by
  refine C34_two_body m3 m4 E _ h3 h4 h0 h ?_
  have h1 := Em.unit_angles phi c hc.1 hc.2
  have h2 := (C67_rotations (Angles.mk phi c).threevec (Angles.mk phi c).threevec q 0 0 0).2.2.2
  unfold Unit3 at *
  unfold inner3 at h2
  linarith

/-- The z axis is turned to the direction of `q` also if `q` lies along it. -/
theorem axis_dir (q : V3) (h0 : 0 < √(q.x ^ 2 + q.y ^ 2 + q.z ^ 2))
    (h : 1 / 1000000 ≤ |q.x| ∨ 1 / 1000000 ≤ |q.y| ∨ (q.x = 0 ∧ q.y = 0)) :
    (V3.mk 0 0 1).rotZTo q = ⟨q.x / √(q.x ^ 2 + q.y ^ 2 + q.z ^ 2), q.y / √(q.x ^ 2 + q.y ^ 2 + q.z ^ 2),
      q.z / √(q.x ^ 2 + q.y ^ 2 + q.z ^ 2)⟩ := by
  rcases h with h | h | ⟨hx, hy⟩
  · exact C67_z_axis_partial q (.inl h)
  · exact C67_z_axis_partial q (.inr h)
  · have hphi : q.phi = 0 := by
      unfold V3.phi; rw [if_pos (by rw [hx, hy]; norm_num)]
    have hr : q.abs = √(q.x ^ 2 + q.y ^ 2 + q.z ^ 2) := by
      unfold V3.abs V3.dot; ring_nf
    have hv : √(q.x ^ 2 + q.y ^ 2 + q.z ^ 2) = |q.z| := by
      rw [hx, hy, ← sqrt_sq_eq_abs]; norm_num
    rw [hv] at hr h0 ⊢
    have hth : q.theta = arccos (q.z / |q.z|) := by
      unfold V3.theta; simp only; rw [hr, if_pos h0]
    have hz : q.z ≠ 0 := abs_pos.1 h0
    unfold V3.rotZTo V3.rotY V3.rotZ
    rw [hphi, hth, hx, hy]
    rcases lt_or_gt_of_ne hz with hn | hp
    · have : q.z / |q.z| = -1 := by rw [abs_of_neg hn]; field_simp
      rw [this, arccos_neg_one]; simp
    · have : q.z / |q.z| = 1 := by rw [abs_of_pos hp]; field_simp
      rw [this, arccos_one]; simp

/-- **C181**, the momentum transfer of the final state is the one that was drawn, `(p₁ - p₃)² = t`. Missing: momenta `q` with
a transverse part that is not zero but below 10⁻⁶ GeV, where the code takes zero for the azimuth (`C67_tiny_vector`). -/
theorem C181_transfer_partial (q : V3) (E m1 m2 m3 m4 phi t : ℝ) (h1 : 0 ≤ m1) (h2 : 0 ≤ m2) (h3 : 0 ≤ m3) (h4 : 0 ≤ m4)
    (h0 : 0 < E) (hi : m1 + m2 ≤ E) (hf : m3 + m4 ≤ E)
    (hq : √(q.x ^ 2 + q.y ^ 2 + q.z ^ 2) = pCM E m1 m2) (hqt : 1 / 1000000 ≤ |q.x| ∨ 1 / 1000000 ≤ |q.y| ∨ (q.x = 0 ∧ q.y = 0))
    (hi0 : 0 < pCM E m1 m2) (hf0 : 0 < pCM E m3 m4) (ht : (tRange E m1 m2 m3 m4).2 ≤ t ∧ t ≤ (tRange E m1 m2 m3 m4).1) :
    let p1 : V4 := ⟨√(m1 ^ 2 + pCM E m1 m2 ^ 2), q.x, q.y, q.z⟩
    let p3 := (outgoing q E m3 m4 phi (toCos (tRange E m1 m2 m3 m4) t)).1
    minkowski (p1.sub p3) (p1.sub p3) = t := by
  intro p1 p3
  have hd := range_diff E m1 m2 m3 m4
  have hpos : 0 < 4 * pCM E m1 m2 * pCM E m3 m4 := by positivity
  set c := toCos (tRange E m1 m2 m3 m4) t with hc
  have hct : t = (tRange E m1 m2 m3 m4).1 - 2 * pCM E m1 m2 * pCM E m3 m4 * (1 - c) := by
    have hne : (tRange E m1 m2 m3 m4).2 - (tRange E m1 m2 m3 m4).1 ≠ 0 := by linarith
    rw [hc]; unfold toCos
    have : (tRange E m1 m2 m3 m4).2 = (tRange E m1 m2 m3 m4).1 - 4 * pCM E m1 m2 * pCM E m3 m4 := by linarith
    rw [this] at hne ⊢
    have hi1 := hi0.ne'
    have hf1 := hf0.ne'
    field_simp
    ring
  have hc1 : -1 ≤ c ∧ c ≤ 1 := by
    constructor <;> by_contra hh <;> push Not at hh <;> nlinarith [ht.1, ht.2]
  have hu := Em.unit_angles phi c hc1.1 hc1.2
  set d := (Angles.mk phi c).threevec with hdd
  have hz : d.z = c := rfl
  have r1 := (C67_rotations d d q 0 0 0).2.2.2
  have r2 := (C67_rotations ⟨0, 0, 1⟩ d q 0 0 0).2.2.2
  rw [axis_dir q (by rw [hq]; exact hi0) hqt, hq] at r2
  set e := d.rotZTo q with he
  unfold inner3 at r1 r2
  simp only at r2
  unfold Unit3 at hu
  have r1' : e.x ^ 2 + e.y ^ 2 + e.z ^ 2 = 1 := by linarith
  have r2' : q.x * e.x + q.y * e.y + q.z * e.z = pCM E m1 m2 * c := by
    have hi1 := hi0.ne'
    field_simp at r2
    rw [hz] at r2
    linarith
  have hq2 : q.x ^ 2 + q.y ^ 2 + q.z ^ 2 = pCM E m1 m2 ^ 2 := by
    rw [← hq, sq_sqrt (by positivity)]
  obtain ⟨t1, -, -⟩ := C68_t_range E m1 m2 m3 m4 c h1 h2 h3 h4 h0 hi hf hc1
  have e3 : p3 = ⟨√(pCM E m3 m4 ^ 2 + m3 ^ 2), e.x * pCM E m3 m4, e.y * pCM E m3 m4, e.z * pCM E m3 m4⟩ := by
    have : m3 * m3 + (e.smul (pCM E m3 m4)).dot (e.smul (pCM E m3 m4)) = pCM E m3 m4 ^ 2 + m3 ^ 2 := by
      unfold V3.smul V3.dot; linear_combination pCM E m3 m4 ^ 2 * r1'
    show onShell m3 (e.smul (pCM E m3 m4)) = _
    unfold onShell
    rw [this]; rfl
  have e1 : p1 = ⟨√(pCM E m1 m2 ^ 2 + m1 ^ 2), q.x, q.y, q.z⟩ := by rw [add_comm]
  rw [e1, e3, hct, t1]
  unfold minkowski V4.sub
  simp only
  generalize √(pCM E m1 m2 ^ 2 + m1 ^ 2) = A
  generalize √(pCM E m3 m4 ^ 2 + m3 ^ 2) = B
  linear_combination (-1) * hq2 - pCM E m3 m4 ^ 2 * r1' + 2 * pCM E m3 m4 * r2'

/-- Proton-neutron or antiproton-antineutron. -/
def MixedNN (f : Flags) : Prop := f.nn = true ∧ f.sameSign = true ∧ (f.charge = 1 ∨ f.charge = -1)

theorem mixed_iff (f : Flags) : (f.nn && f.sameSign && f.charge.natAbs == 1) = true ↔ MixedNN f := by
  unfold MixedNN
  simp only [Bool.and_eq_true, beq_iff_eq, and_assoc]
  constructor
  · rintro ⟨a, b, c⟩; exact ⟨a, b, by omega⟩
  · rintro ⟨a, b, c⟩; exact ⟨a, b, by omega⟩

/-- **C181**, slope and backward peak of elastic collisions: the slope is positive, the weight of the backward peak is between 0 and 1; only proton-neutron
pairs above 0.8 GeV have a weight below 1, so all others are symmetric. -/
theorem C181_slope (f : Flags) (plab : ℝ) :
    0 < (slope f plab).1 ∧ 0 < (slope f plab).2 ∧ (slope f plab).2 ≤ 1 ∧
      ((slope f plab).2 < 1 ↔ MixedNN f ∧ 8 / 10 < plab) := by
  have hs : (0 : ℝ) < small := by unfold small; norm_num
  by_cases hm : MixedNN f
  · have e := (mixed_iff f).2 hm
    unfold slope
    rw [if_pos e]
    refine ⟨lt_of_lt_of_le hs (le_max_right _ _), ?_⟩
    simp only
    by_cases hp : plab < 8 / 10
    · rw [if_pos hp]
      refine ⟨one_pos, le_rfl, by constructor <;> intro h <;> [exact absurd h (lt_irrefl _); linarith [h.2]]⟩
    · rw [if_neg hp]
      push Not at hp
      have hpp : 0 < plab * plab := by nlinarith
      refine ⟨by positivity, by rw [div_le_one hpp]; nlinarith, ?_⟩
      rw [div_lt_one hpp]
      constructor
      · intro h; exact ⟨hm, by nlinarith⟩
      · rintro ⟨-, h⟩; nlinarith
  · have e : ¬ (f.nn && f.sameSign && f.charge.natAbs == 1) = true := fun h => hm ((mixed_iff f).1 h)
    unfold slope
    rw [if_neg e]
    refine ⟨lt_of_lt_of_le hs (le_max_right _ _), one_pos, le_rfl, ?_⟩
    constructor
    · intro h; exact absurd h (lt_irrefl _)
    · rintro ⟨h, -⟩; exact absurd h hm

/-- **C181**, the slopes of the parametrisation: proton-proton and proton-neutron. -/
theorem C181_slope_values (plab : ℝ) :
    (plab < 2 → bpp plab = 5.5 * plab ^ 8 / (7.7 + plab ^ 8)) ∧
    (2 ≤ plab → bpp plab = min (7.6 + 0.66 * log (sFromPlab plab 0.938 0.938)) (5.334 + 0.67 * (plab - 2))) ∧
    (plab < 0.225 → bnp plab = 0) ∧ (0.225 ≤ plab → plab < 0.6 → bnp plab = 16.53 * (plab - 0.225)) ∧
    (0.6 ≤ plab → plab < 1.6 → bnp plab = 7.16 - 1.63 * plab) ∧ (1.6 ≤ plab → bnp plab = bpp plab) ∧
    0 ≤ bnp plab := by
  have hb : 0 ≤ bpp plab := by
    unfold bpp
    simp only [C181_power]
    split_ifs with h
    · positivity
    · push Not at h
      refine le_min ?_ (by linarith)
      unfold highBpp
      have : 1 ≤ sFromPlab plab mN mN := by
        unfold sFromPlab mN
        have : (938 / 1000 : ℝ) ≤ √(938 / 1000 * (938 / 1000) + plab * plab) := by
          apply le_sqrt_of_sq_le; nlinarith
        nlinarith
      have := log_nonneg this
      linarith
  refine ⟨?_, ?_, ?_, ?_, ?_, ?_, ?_⟩
  · intro h; unfold bpp; rw [if_pos h, C181_power]; norm_num
  · intro h; unfold bpp highBpp mN; rw [if_neg (not_lt.2 h)]; norm_num
  · intro h; unfold bnp; rw [if_pos (by norm_num at h ⊢; linarith)]
  · intro h1 h2; unfold bnp
    norm_num at h1 h2
    rw [if_neg (by norm_num; linarith), if_pos (by norm_num; linarith)]; norm_num
  · intro h1 h2; unfold bnp
    norm_num at h1 h2
    rw [if_neg (by norm_num; linarith), if_neg (by norm_num; linarith), if_pos (by norm_num; linarith)]; ring
  · intro h1; unfold bnp
    norm_num at h1
    rw [if_neg (by norm_num; linarith), if_neg (by norm_num; linarith), if_neg (by norm_num; linarith)]
  · unfold bnp
    split_ifs with a b c
    · exact le_rfl
    · push Not at a; nlinarith
    · nlinarith
    · exact hb

theorem toCos_mirror {tr : ℝ × ℝ} (h : tr.1 ≠ tr.2) (t : ℝ) : toCos tr (tr.1 + tr.2 - t) = -toCos tr t := by
  have : tr.2 - tr.1 ≠ 0 := sub_ne_zero.2 (Ne.symm h)
  unfold toCos; field_simp; ring

/-- **C181**, symmetric distributions: except for elastic proton-neutron collisions, the upper half of the random numbers of the last step gives the
opposite angle to the lower half. -/
theorem C181_symmetric {f : Flags} {s E m1 m2 m3 m4 v u u' w : ℝ} {us : List ℝ} (hi : 0 < pCM E m1 m2)
    (hf : 0 < pCM E m3 m4) (hm : f.elastic = true → ¬ MixedNN f)
    (hr : drawT f s E m1 m2 m3 m4 us v u ≠ none) (hu : u ≤ 1 / 2) (hu' : 1 / 2 < u') :
    drawCos f s E m1 m2 m3 m4 us v u' w = (drawCos f s E m1 m2 m3 m4 us v u w).map (fun c => -c) := by
  have hne : (tRange E m1 m2 m3 m4).1 ≠ (tRange E m1 m2 m3 m4).2 := by
    have := range_diff E m1 m2 m3 m4
    have hpos : 0 < 4 * pCM E m1 m2 * pCM E m3 m4 := by positivity
    intro h; linarith
  have key (o : Option ℝ) (thr : ℝ) (h : thr = 1 / 2) :
      (o.map (mirror thr (tRange E m1 m2 m3 m4) u')).map (toCos (tRange E m1 m2 m3 m4)) =
      ((o.map (mirror thr (tRange E m1 m2 m3 m4) u)).map (toCos (tRange E m1 m2 m3 m4))).map (fun c => -c) := by
    cases o with
    | none => rfl
    | some t =>
      simp only [Option.map_some]
      unfold mirror
      rw [if_pos (by rw [h]; exact hu'), if_neg (by rw [h]; exact not_lt.2 hu), toCos_mirror hne]
  unfold drawCos
  unfold drawT at hr ⊢
  simp only at hr ⊢
  split_ifs at hr ⊢ with h1 h2 h3 h4
  · refine key _ _ ?_
    have hel : f.elastic = true := by simp at h1; exact h1.1
    obtain ⟨-, -, a, b⟩ := C181_slope f (plabFromS (effectiveS f.nn s m1 m2) mN)
    have : ¬ (slope f (plabFromS (effectiveS f.nn s m1 m2) mN)).2 < 1 := fun h => hm hel (b.1 h).1
    rw [le_antisymm a (not_lt.1 this)]; norm_num
  · exact key _ _ rfl
  · exact key _ _ rfl
  · exact key (some _) _ rfl
  · exact absurd rfl hr

/-- **C181**, elastic collisions of nucleons: `t` follows an exponential law with the slope of the pair at its lab momentum, mirrored with probability
`a / (1 + a)`, where `a = 0.64 / p²` for proton-neutron pairs above 0.8 GeV and 1 otherwise. -/
theorem C181_elastic {f : Flags} {s E m1 m2 m3 m4 v u : ℝ} {us : List ℝ} (he : f.elastic = true) (hn : f.nn = true)
    (hiso : f.isotropic = false) :
    let p := plabFromS s 0.938
    let fwd := (tRange E m1 m2 m3 m4).1
    let bwd := (tRange E m1 m2 m3 m4).2
    (MixedNN f → 0.8 ≤ p → drawT f s E m1 m2 m3 m4 us v u = some ((Rand.expo (max (bnp p) 1e-6) fwd bwd us).map fun t =>
      if u ≤ 1 / (1 + 0.64 / p ^ 2) then t else fwd + bwd - t)) ∧
    (MixedNN f → p < 0.8 → drawT f s E m1 m2 m3 m4 us v u = some ((Rand.expo (max (bnp p) 1e-6) fwd bwd us).map fun t =>
      if u ≤ 1 / 2 then t else fwd + bwd - t)) ∧
    (¬ MixedNN f → drawT f s E m1 m2 m3 m4 us v u = some ((Rand.expo (max (bpp p) 1e-6) fwd bwd us).map fun t =>
      if u ≤ 1 / 2 then t else fwd + bwd - t)) := by
  intro p fwd bwd
  have hp : plabFromS (effectiveS f.nn s m1 m2) mN = p := by
    have : mN = 0.938 := by unfold mN; norm_num
    unfold effectiveS; rw [if_pos hn, this]
  have hsm : small = 1e-6 := by unfold small; norm_num
  have hmir (thr : ℝ) : mirror thr (tRange E m1 m2 m3 m4) u = fun t => if u ≤ thr then t else fwd + bwd - t := by
    funext t; unfold mirror
    by_cases h : u > thr
    · rw [if_pos h, if_neg (not_le.2 h)]
    · rw [if_neg h, if_pos (not_lt.1 h)]
  have h0 : drawT f s E m1 m2 m3 m4 us v u = some ((Rand.expo (slope f p).1 fwd bwd us).map
      (fun t => if u ≤ 1 / (1 + (slope f p).2) then t else fwd + bwd - t)) := by
    unfold drawT
    simp only [he, hiso, hp, hmir]
    rfl
  rw [h0]
  have half : (1 : ℝ) / (1 + 1) = 1 / 2 := by norm_num
  refine ⟨?_, ?_, ?_⟩
  · intro hm hx
    have : slope f p = (max (bnp p) 1e-6, 0.64 / p ^ 2) := by
      unfold slope
      rw [if_pos ((mixed_iff f).2 hm), if_neg (by norm_num at hx ⊢; exact hx), hsm]
      norm_num [sq]
    rw [this]
  · intro hm hx
    have : slope f p = (max (bnp p) 1e-6, 1) := by
      unfold slope
      rw [if_pos ((mixed_iff f).2 hm), if_pos (by norm_num at hx ⊢; exact hx), hsm]
    rw [this, half]
  · intro hm
    have : slope f p = (max (bpp p) 1e-6, 1) := by
      unfold slope
      rw [if_neg (fun h => hm ((mixed_iff f).1 h)), hsm]
    rw [this, half]

/-- **C181**, production of a resonance in a collision of nucleons: a Δ with a nucleon follows the exponential law of elastic proton-proton collisions, an
excited baryon a power law with an exponent that depends on its mass, and is emitted exactly forward or backward if this exponent is 30 or more. -/
theorem C181_resonance {f : Flags} {s E m1 m2 m3 m4 v u : ℝ} {us : List ℝ} (he : f.elastic = false) (hn : f.nn = true)
    (hiso : f.isotropic = false) (hb : f.bNucleon = true) :
    let fwd := (tRange E m1 m2 m3 m4).1
    let bwd := (tRange E m1 m2 m3 m4).2
    let sym (t : ℝ) : ℝ := if u ≤ 1 / 2 then t else fwd + bwd - t
    let a := 1.46434 + 5.80311 * m3 - 6.89358 * m3 ^ 2 + 1.94302 * m3 ^ 3
    (f.aDelta = true → f.sameSign = true → drawT f s E m1 m2 m3 m4 us v u =
      some ((Rand.expo (max (bpp (plabFromS s 0.938)) 1e-6) fwd bwd us).map sym)) ∧
    (f.aDelta = false → f.aExcited = true → a < 30 → drawT f s E m1 m2 m3 m4 us v u =
      some ((Rand.power (-a) fwd bwd v).map sym)) ∧
    (f.aDelta = false → f.aExcited = true → 30 ≤ a → drawT f s E m1 m2 m3 m4 us v u = some (some (sym fwd))) := by
  intro fwd bwd sym a
  have hN : mN = 0.938 := by unfold mN; norm_num
  have hsm : small = 1e-6 := by unfold small; norm_num
  have ha : (146434 / 100000 : ℝ) + m3 * (580311 / 100000 + m3 * (-(689358 / 100000) + m3 * (194302 / 100000))) = a := by
    show _ = 1.46434 + 5.80311 * m3 - 6.89358 * m3 ^ 2 + 1.94302 * m3 ^ 3
    norm_num; ring
  have hmir : mirror (1 / 2) (tRange E m1 m2 m3 m4) u = sym := by
    funext t; unfold mirror
    by_cases h : u > 1 / 2
    · rw [if_pos h]; exact (if_neg (not_le.2 h)).symm
    · rw [if_neg h]; exact (if_pos (not_lt.1 h)).symm
  unfold drawT
  simp only [ha, hmir, hN, hsm, he, hn, hiso, hb]
  refine ⟨?_, ?_, ?_⟩
  · intro h1 h2; simp [h1, h2, fwd, bwd]
  · intro h1 h2 h3; simp [h1, h2, h3, fwd, bwd]
  · intro h1 h2 h3; simp [h1, h2, not_lt.2 h3, fwd]

/-- **C181**, isotropic scattering on request: the angle does not depend on the kinematics. -/
theorem C181_isotropic {f : Flags} {s E m1 m2 m3 m4 v u w : ℝ} {us : List ℝ} (h : f.isotropic = true ∨
    (f.elastic = false ∧ (f.nn = false ∨ f.bNucleon = false ∨ (f.aDelta = false ∧ f.aExcited = false)))) :
    drawCos f s E m1 m2 m3 m4 us v u w = some w := by
  have : drawT f s E m1 m2 m3 m4 us v u = none := by
    unfold drawT
    simp only
    rw [if_neg, if_neg, if_neg]
    all_goals
      rcases h with h | ⟨h1, h | h | ⟨h, h'⟩⟩ <;> simp [*]
  unfold drawCos
  rw [this]

/-- **C181**, finding: at the threshold of the final state (equal ends of the range) the drawing of the momentum transfer of elastic collisions never ends. -/
theorem C181_threshold_false {f : Flags} {s E m1 m2 m3 m4 v u w : ℝ} (us : List ℝ) (he : f.elastic = true)
    (hiso : f.isotropic = false) (hf : pCM E m3 m4 = 0) : drawCos f s E m1 m2 m3 m4 us v u w = none := by
  have hd := range_diff E m1 m2 m3 m4
  rw [hf, mul_zero] at hd
  unfold drawCos drawT
  simp only [he, hiso]
  rw [if_pos (by rfl), Rand.C55_expo_empty_false (by linarith)]
  rfl

/-- **C181**, finding: for elastic collisions other than those of two nucleons, the squared energy at which the lab momentum is taken should give "the
original center-of-mass momentum when nucleon mass is assumed"; it does so at a single momentum only, `p² = 1 - m²`, as the square of the energy was
forgotten. -/
theorem C181_lab_false (s m1 m2 : ℝ) :
    pCMS (effectiveS false s m1 m2) 0.938 0.938 = pCMS s m1 m2 ↔ pCMS s m1 m2 ^ 2 = 1 - 0.938 ^ 2 := by
  have hp : 0 ≤ pCMS s m1 m2 := by
    unfold pCMS; simp only; split_ifs <;> positivity
  unfold effectiveS
  simp only [Bool.false_eq_true, if_false]
  generalize pCMS s m1 m2 = p at *
  have hE : √(p * p + mN * mN) ^ 2 = p ^ 2 + mN ^ 2 := by rw [sq_sqrt (by nlinarith [sq_nonneg p, sq_nonneg mN])]; ring
  have hE0 := sqrt_nonneg (p * p + mN * mN)
  have hN : mN = 0.938 := by unfold mN; norm_num
  rw [← hN]
  have hNv : mN = 938 / 1000 := rfl
  generalize √(p * p + mN * mN) = e at *
  have he : mN ≤ e := by
    rw [hNv] at *; nlinarith [sq_nonneg p]
  have he1 : 0 < e := by rw [hNv] at he; linarith
  have hsq : pCMsqrS (4 * e) mN mN = e - mN ^ 2 := by
    unfold pCMsqrS; simp only; field_simp; ring
  have hpos : 0 < e - mN ^ 2 := by rw [hNv] at *; linarith
  have h1 : pCMS (4 * e) mN mN = √(e - mN ^ 2) := by
    unfold pCMS; simp only [hsq]; rw [if_pos hpos]
  rw [h1, sqrt_eq_iff_mul_self_eq hpos.le hp]
  constructor
  · intro h
    have : e * (e - 1) = 0 := by nlinarith
    rcases mul_eq_zero.1 this with h' | h'
    · linarith
    · have : e = 1 := by linarith
      rw [this] at hE; linarith
  · intro h
    have : e ^ 2 = 1 := by linarith
    have : e = 1 := by nlinarith
    rw [this]; nlinarith

/-- The hypotheses can be met: two particles of mass 3 at an energy of 10 (momentum 4), moving along the x axis. -/
theorem ex_momentum : pCM 10 3 3 = 4 ∧ tRange 10 3 3 3 3 = (0, -64) := by
  have h : pCM 10 3 3 = 4 := by
    unfold pCM pCMS pCMsqrS
    norm_num
    rw [show (16 : ℝ) = 4 ^ 2 by norm_num]
    exact sqrt_sq (by norm_num)
  refine ⟨h, ?_⟩
  unfold tRange
  simp only [h]
  norm_num

example (phi : ℝ) : minkowski ((V4.mk √(3 ^ 2 + pCM 10 3 3 ^ 2) 4 0 0).sub (outgoing ⟨4, 0, 0⟩ 10 3 3 phi (toCos (tRange 10 3 3 3 3) (-16))).1)
    ((V4.mk √(3 ^ 2 + pCM 10 3 3 ^ 2) 4 0 0).sub (outgoing ⟨4, 0, 0⟩ 10 3 3 phi (toCos (tRange 10 3 3 3 3) (-16))).1) = -16 := by
  obtain ⟨h, hr⟩ := ex_momentum
  refine C181_transfer_partial ⟨4, 0, 0⟩ 10 3 3 3 3 phi (-16) (by norm_num) (by norm_num) (by norm_num) (by norm_num) (by norm_num)
    (by norm_num) (by norm_num) ?_ (.inl (by norm_num)) (by rw [h]; norm_num) (by rw [h]; norm_num) (by rw [hr]; norm_num)
  rw [h]
  norm_num
  rw [show (16 : ℝ) = 4 ^ 2 by norm_num]
  exact sqrt_sq (by norm_num)

/-- A proton-neutron collision. -/
example : MixedNN ⟨true, false, true, true, 1, false, false, true⟩ := ⟨rfl, rfl, .inl rfl⟩

/-- The property stated in the source fails for particles at rest in their centre of mass. -/
example : pCMS (effectiveS false 4 1 1) 0.938 0.938 ≠ pCMS 4 1 1 := by
  rw [Ne, C181_lab_false]
  have : pCMS 4 1 1 = 0 := by unfold pCMS pCMsqrS; norm_num
  rw [this]; norm_num

end Verif.Ang
