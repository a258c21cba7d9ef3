import Verif.Coll.Nuc
/-! C92: the requested collision energy is the one of the nuclei that are set up. -/
namespace Verif.Coll
open Verif.Kin Real

/-- The Lorentz factor of `M1` seen from `M2` at squared total energy `s`. -/
noncomputable def relGamma (s M1 M2 : ℝ) : ℝ := (s - M1 ^ 2 - M2 ^ 2) / (2 * M1 * M2)

theorem gamma_of {m p : ℝ} (hm : 0 < m) : let v := p / √(m * m + p * p)
    v ^ 2 < 1 ∧ m / √(1 - v ^ 2) = √(m * m + p * p) ∧ m * v / √(1 - v ^ 2) = p := by
  intro v
  have hq : 0 < m * m + p * p := by nlinarith [mul_self_nonneg p]
  have hE := sqrt_pos.2 hq
  have hE2 := sq_sqrt hq.le
  have hv : v = p / √(m * m + p * p) := rfl
  generalize √(m * m + p * p) = E at *
  have h1 : 1 - v ^ 2 = (m / E) ^ 2 := by
    rw [hv]; field_simp; nlinarith
  have hpos : 0 < m / E := by positivity
  have hs : √(1 - v ^ 2) = m / E := by rw [h1, sqrt_sq hpos.le]
  refine ⟨by nlinarith, ?_, ?_⟩
  · rw [hs]; field_simp
  · rw [hs, hv]; field_simp

/-- **C92**, velocities: for masses `ma`, `mb` and a squared energy above threshold, the nuclei move
towards each other below the speed of light with total invariant mass squared `s`, with opposite
velocities, with zero total momentum or with the target at rest, as the frame asks. -/
theorem C92_velocities (f : Frame) {s ma mb : ℝ} (ha : 0 < ma) (hb : 0 < mb) (hs : (ma + mb) ^ 2 < s) :
    let v := getVelocities f s ma mb
    0 < v.1 ∧ v.1 < 1 ∧ -1 < v.2 ∧ v.2 ≤ 0 ∧
    invMassSqr (ma / √(1 - v.1 ^ 2)) (ma * v.1 / √(1 - v.1 ^ 2)) (mb / √(1 - v.2 ^ 2))
      (mb * v.2 / √(1 - v.2 ^ 2)) = s ∧
    (f = .centerOfVelocity → v.2 = -v.1) ∧
    (f = .centerOfMass → ma * v.1 / √(1 - v.1 ^ 2) + mb * v.2 / √(1 - v.2 ^ 2) = 0) ∧
    (f = .fixedTarget → v.2 = 0) := by
  intro v
  have hs0 : 0 < s := lt_of_le_of_lt (sq_nonneg _) hs
  cases f with
  | centerOfVelocity =>
    obtain ⟨h0, h1, h2⟩ := C68_center_of_velocity s ma mb ha hb hs.le
    have hv : v = (centerOfVelocityV s ma mb, -centerOfVelocityV s ma mb) := rfl
    have hpos : 0 < centerOfVelocityV s ma mb := by
      unfold centerOfVelocityV
      apply sqrt_pos.2 (div_pos _ _)
      · nlinarith
      · nlinarith [mul_pos ha hb]
    rw [hv]
    simp only
    refine ⟨hpos, h1, by linarith, by linarith, ?_, by simp, by simp, by simp⟩
    rw [neg_sq, mul_neg, neg_div]
    exact h2
  | fixedTarget =>
    obtain ⟨h0, h1, h2⟩ := C68_fixed_target s ma mb ha hb hs.le
    have hv : v = (fixedTargetV s ma mb, 0) := rfl
    have hpos : 0 < fixedTargetV s ma mb := by
      unfold fixedTargetV
      apply sqrt_pos.2
      have hd : 2 * ma * mb < s - ma * ma - mb * mb := by nlinarith
      have hab : 0 < 2 * ma * mb := by positivity
      have hg : 2 * ma * mb / (s - ma * ma - mb * mb) < 1 := (div_lt_one (by linarith)).2 hd
      have hg0 : 0 < 2 * ma * mb / (s - ma * ma - mb * mb) := div_pos hab (by linarith)
      nlinarith
    rw [hv]
    simp only
    refine ⟨hpos, h1, by norm_num, le_refl _, ?_, by simp, by simp, by simp⟩
    simpa using h2
  | centerOfMass =>
    obtain ⟨p, hp⟩ : ∃ p, p = pCMS s ma mb := ⟨_, rfl⟩
    have hv : v = (p / √(ma * ma + p * p), -p / √(mb * mb + p * p)) := by rw [hp]; rfl
    have hr0 : 0 < √s := sqrt_pos.2 hs0
    have hle : ma + mb ≤ √s := Real.le_sqrt_of_sq_le hs.le
    have hpc : pCM (√s) ma mb = p := by unfold pCM; rw [mul_self_sqrt hs0.le, hp]
    have hbal := (C30_energy_balance (√s) ma mb ha.le hb.le hr0 hle).2
    rw [hpc] at hbal
    have hp0 : 0 < p := by
      rw [hp]
      unfold pCMS
      have : 0 < pCMsqrS s ma mb := by
        rw [pCMsqr_factor hs0.ne']
        apply div_pos (mul_pos _ _) (by positivity)
        · linarith
        · nlinarith [mul_pos ha hb]
      simp only
      rw [if_pos this]
      exact sqrt_pos.2 this
    obtain ⟨a1, a2, a3⟩ := gamma_of (p := p) ha
    obtain ⟨b1, b2, b3⟩ := gamma_of (p := -p) hb
    rw [neg_mul_neg] at b1 b2 b3
    have hA : 0 < √(ma * ma + p * p) := sqrt_pos.2 (by positivity)
    have hB : 0 < √(mb * mb + p * p) := sqrt_pos.2 (by positivity)
    rw [hv]
    simp only
    have v1 : 0 < p / √(ma * ma + p * p) := by positivity
    have v2 : -p / √(mb * mb + p * p) ≤ 0 := by
      rw [neg_div]
      have : 0 < p / √(mb * mb + p * p) := by positivity
      linarith
    refine ⟨v1, by nlinarith, by nlinarith, v2, ?_, by simp, ?_, by simp⟩
    · rw [a2, a3, b2, b3]
      unfold invMassSqr
      rw [show ma * ma + p * p = p ^ 2 + ma ^ 2 by ring, show mb * mb + p * p = p ^ 2 + mb ^ 2 by ring, hbal]
      rw [sq_sqrt hs0.le]; ring
    · intro _
      rw [a3, b3]; ring

example : ((1 : ℝ) + 1) ^ 2 < 9 := by norm_num

/-- **C92**, the options for fixed targets and the energy in the centre of mass of a nucleon pair: the
Lorentz factor between the nuclei is the one asked for, and it is the same for the nuclei and for a
pair of nucleons with their average masses. -/
theorem C92_options_partial {MA MB : ℝ} {na nb : Nat} (hA : 0 < MA) (hB : 0 < MB) (ha : 0 < na) (hb : 0 < nb)
    {e S E : ℝ} :
    let ma := MA / na
    let mb := MB / nb
    (energyOption MA MB na nb (.sqrtsNN e) = some (S, E) →
      E = e ∧ ma + mb < e ∧ relGamma S MA MB = relGamma (e ^ 2) ma mb) ∧
    (energyOption MA MB na nb (.eTot e) = some (S, E) →
      relGamma S MA MB = e / ma ∧ relGamma (E ^ 2) ma mb = e / ma) ∧
    (energyOption MA MB na nb (.eKin e) = some (S, E) →
      relGamma S MA MB = (ma + e) / ma ∧ relGamma (E ^ 2) ma mb = (ma + e) / ma) ∧
    (energyOption MA MB na nb (.pLab e) = some (S, E) →
      relGamma S MA MB = √(ma ^ 2 + e ^ 2) / ma ∧ relGamma (E ^ 2) ma mb = √(ma ^ 2 + e ^ 2) / ma) := by
  intro ma mb
  have hna : (0 : ℝ) < na := by exact_mod_cast ha
  have hnb : (0 : ℝ) < nb := by exact_mod_cast hb
  have hma : 0 < ma := div_pos hA hna
  have hmb : 0 < mb := div_pos hB hnb
  have eA : MA = ma * na := by show MA = MA / na * na; field_simp
  have eB : MB = mb * nb := by show MB = MB / nb * nb; field_simp
  refine ⟨?_, ?_, ?_, ?_⟩
  · unfold energyOption
    intro h
    change (if e ≤ ma + mb then none else some ((e * e - ma * ma - mb * mb) * MA * MB / (ma * mb) + MA * MA +
      MB * MB, e)) = some (S, E) at h
    split_ifs at h with hc
    simp only [Option.some.injEq, Prod.mk.injEq] at h
    obtain ⟨rfl, rfl⟩ := h
    refine ⟨rfl, not_le.1 hc, ?_⟩
    unfold relGamma
    field_simp
    ring
  · unfold energyOption
    intro h
    change (if e < 0 then none else some (sFromEtot (e * na) MA MB, √(sFromEtot e ma mb))) = some (S, E) at h
    split_ifs at h with hc
    simp only [Option.some.injEq, Prod.mk.injEq] at h
    obtain ⟨rfl, rfl⟩ := h
    have he : 0 ≤ e := not_lt.1 hc
    unfold relGamma
    constructor
    · unfold sFromEtot
      rw [eA, eB]
      field_simp
      ring
    · rw [sq_sqrt (by unfold sFromEtot; positivity)]
      unfold sFromEtot
      field_simp
      ring
  · unfold energyOption
    intro h
    change (if e < 0 then none else some (sFromEkin (e * na) MA MB, √(sFromEkin e ma mb))) = some (S, E) at h
    split_ifs at h with hc
    simp only [Option.some.injEq, Prod.mk.injEq] at h
    obtain ⟨rfl, rfl⟩ := h
    have he : 0 ≤ e := not_lt.1 hc
    unfold relGamma
    constructor
    · unfold sFromEkin sFromEtot
      rw [eA, eB]
      field_simp
      ring
    · rw [sq_sqrt (by unfold sFromEkin sFromEtot; positivity)]
      unfold sFromEkin sFromEtot
      field_simp
      ring
  · unfold energyOption
    intro h
    change (if e < 0 then none else some (sFromPlab (e * na) MA MB, √(sFromPlab e ma mb))) = some (S, E) at h
    split_ifs at h with hc
    simp only [Option.some.injEq, Prod.mk.injEq] at h
    obtain ⟨rfl, rfl⟩ := h
    have he : 0 ≤ e := not_lt.1 hc
    have hsq : √(MA * MA + e * na * (e * na)) = na * √(ma ^ 2 + e ^ 2) := by
      rw [show MA * MA + e * na * (e * na) = (na : ℝ) ^ 2 * (ma ^ 2 + e ^ 2) by rw [eA]; ring,
        Real.sqrt_mul (by positivity), Real.sqrt_sq hna.le]
    unfold relGamma
    constructor
    · unfold sFromPlab
      rw [hsq, eA, eB]
      field_simp
      ring
    · rw [sq_sqrt (by unfold sFromPlab; positivity)]
      unfold sFromPlab
      rw [show ma * ma + e * e = ma ^ 2 + e ^ 2 by ring]
      field_simp
      ring

/-- **C92**, total energies of two beams: the squared energy of the nuclei is the one of beams with
these energies per nucleon. Missing: the energy per nucleon pair, which is wrong
(`C92_total_energies_false`), and the options with kinetic energies and momenta of both beams, which use the
conversions shown wrong in C31. -/
theorem C92_two_beams_partial {MA MB : ℝ} {na nb : Nat} (ha : 0 < na) (hb : 0 < nb)
    {e1 e2 p q S E : ℝ} (hp : 0 ≤ p) (hq : 0 ≤ q) (h1 : OnShell e1 p (MA / na)) (h2 : OnShell e2 q (MB / nb))
    (h : energyOption MA MB na nb (.eTot2 e1 e2) = some (S, E)) :
    S = invMassSqr (na * e1) (na * p) (nb * e2) (-(nb * q)) := by
  have hna : (0 : ℝ) < na := by exact_mod_cast ha
  have hnb : (0 : ℝ) < nb := by exact_mod_cast hb
  unfold energyOption at h
  dsimp only at h
  rw [if_neg (by rintro (h | h) <;> linarith [h1.1, h2.1])] at h
  simp only [Option.some.injEq, Prod.mk.injEq] at h
  rw [← h.1, mul_comm e1, mul_comm e2]
  apply C31_two_beams _ _ _ _ _ _ (by positivity) (by positivity)
  · refine ⟨mul_nonneg hna.le h1.1, ?_⟩
    rw [mul_pow, h1.2]; field_simp
  · refine ⟨mul_nonneg hnb.le h2.1, ?_⟩
    rw [mul_pow, h2.2]; field_simp

/-- Two beams of nucleons of mass 3 with total energy 5: the momenta are 4 and the squared energy of a pair
is 100, but `sqrt(s_NN)` becomes 16. -/
theorem C92_total_energies_false :
    energyOption 3 3 1 1 (.eTot2 5 5) = some (100, 16) ∧ OnShell 5 4 3 ∧ invMassSqr 5 4 5 (-4) = 100 := by
  refine ⟨?_, ⟨by norm_num, by norm_num⟩, by unfold invMassSqr; norm_num⟩
  unfold energyOption sFromEkin2 sFromEtot2
  dsimp only
  rw [if_neg (by norm_num), show ((5 : ℝ) + 3 / (1 : Nat) + (5 + 3 / (1 : Nat))) ^ 2 = 16 ^ 2 by norm_num]
  simp only [sub_self, ne_eq, OfNat.ofNat_ne_zero, not_false_eq_true, zero_pow, sub_zero]
  rw [Real.sqrt_sq (by norm_num)]
  norm_num

/-- A total energy below the mass is not rejected: the nuclei cannot have the energy. -/
theorem C92_below_mass_false : energyOption 3 3 1 1 (.eTot 1) = some (24, √24) ∧ (24 : ℝ) < (3 + 3) ^ 2 := by
  refine ⟨?_, by norm_num⟩
  unfold energyOption sFromEtot
  dsimp only
  rw [if_neg (by norm_num)]
  norm_num

/-- **C92**, exactly one energy has to be given. -/
theorem C92_one_option (MA MB : ℝ) (na nb : Nat) (given : List Energy) (r : ℝ × ℝ) :
    collisionEnergy MA MB na nb given = some r ↔ ∃ e, given = [e] ∧ energyOption MA MB na nb e = some r := by
  match given with
  | [] => simp [collisionEnergy]
  | [e] => simp [collisionEnergy]
  | e :: e' :: l => simp [collisionEnergy]

/-! ### The whole system -/

theorem at_rest {m beta : ℝ} (hm : 0 ≤ m) (hb : beta ^ 2 < 1) :
    onShell m ⟨0, 0, 1 / √(1 - beta * beta) * (beta * m + 0)⟩ =
      ⟨m / √(1 - beta ^ 2), 0, 0, m * beta / √(1 - beta ^ 2)⟩ := by
  have hp : 0 < 1 - beta ^ 2 := by linarith
  have hs := sqrt_pos.2 hp
  have h2 := sq_sqrt hp.le
  rw [show beta * beta = beta ^ 2 by ring]
  generalize √(1 - beta ^ 2) = g at *
  unfold onShell V4.mk' V3.dot
  ext
  · simp only
    rw [show m * m + (0 * 0 + 0 * 0 + 1 / g * (beta * m + 0) * (1 / g * (beta * m + 0))) = (m / g) ^ 2 by
      field_simp
      rw [h2]; ring, sqrt_sq (by positivity)]
  · rfl
  · rfl
  · simp only; field_simp; ring

/-- The total four-momentum of a nucleus at rest after its boost. -/
theorem nucleus_momentum {beta : ℝ} (hb : beta ^ 2 < 1) (l : List Nuc) (z x t phi : ℝ)
    (hl : ∀ n ∈ l, 0 ≤ n.mass ∧ n.mom = ⟨n.mass, 0, 0, 0⟩) :
    sum4 ((rotatePlane phi (shift z x t (boostNucleus beta l))).map (·.mom)) =
      ⟨(l.map (·.mass)).sum / √(1 - beta ^ 2), 0, 0, (l.map (·.mass)).sum * beta / √(1 - beta ^ 2)⟩ := by
  have e : (rotatePlane phi (shift z x t (boostNucleus beta l))).map (·.mom) = l.map fun n =>
      (⟨n.mass / √(1 - beta ^ 2), 0, 0, n.mass * beta / √(1 - beta ^ 2)⟩ : V4) := by
    unfold rotatePlane shift boostNucleus
    simp only [List.map_map, Function.comp_def]
    apply List.map_congr_left
    intro n hn
    obtain ⟨hm, hp⟩ := hl n hn
    simp only [hp]
    rw [at_rest hm hb]
    simp [V4.mk', V4.vec, V3.rotZ]
  rw [e, sum4_comp]
  simp only [List.map_map, Function.comp_def]
  have c (k : ℝ) : (l.map fun n => n.mass * k).sum = (l.map (·.mass)).sum * k := List.sum_map_mul_right ..
  simp only [div_eq_mul_inv]
  rw [c]
  have c2 : (l.map fun n => n.mass * beta * (√(1 - beta ^ 2))⁻¹).sum =
      (l.map (·.mass)).sum * beta * (√(1 - beta ^ 2))⁻¹ := by
    rw [mul_assoc, ← c]
    simp only [mul_assoc]
  rw [c2]
  simp

theorem arrange_rest (draw : Nat → V3) (phi theta psi : ℝ) (l : List Nuc) (hl : ∀ n ∈ l, 0 < n.mass) :
    (∀ n ∈ arrange draw phi theta psi l, 0 ≤ n.mass ∧ n.mom = ⟨n.mass, 0, 0, 0⟩) ∧
    (arrange draw phi theta psi l).map (·.mass) = l.map (·.mass) := by
  by_cases h0 : l = []
  · subst h0
    simp [arrange, alignCenter, rotate]
  obtain ⟨h1, -, h3, -⟩ := C91_arrange draw phi theta psi l h0
  constructor
  · intro n hn
    obtain ⟨i, hi, rfl⟩ := List.getElem_of_mem hn
    have hi' : i < l.length := by rw [← h1]; exact hi
    obtain ⟨-, g2, -, g4, -⟩ := h3 i hi' hi
    have := hl _ (List.getElem_mem hi')
    rw [g2, g4 this.le]
    exact ⟨this.le, rfl⟩
  · apply List.ext_getElem (by simp [h1])
    intro i hi hi'
    simp only [List.getElem_map]
    simp only [List.length_map] at hi hi'
    exact (h3 i hi' hi).2.1

theorem massOf_rest {l : List Nuc} (t : Nat) (hl : ∀ n ∈ l, 0 ≤ n.mass ∧ n.mom = ⟨n.mass, 0, 0, 0⟩) :
    massOf l t = (l.map (·.mass)).sum / t := by
  unfold massOf
  congr 2
  apply List.map_congr_left
  intro n hn
  obtain ⟨hm, hp⟩ := hl n hn
  rw [hp]
  unfold V4.abs V4.sqr V4.dot V4.vec V3.dot
  simp only
  rw [show n.mass * n.mass - (0 * 0 + 0 * 0 + 0 * 0) = n.mass * n.mass by ring, sqrt_mul_self hm]

/-- **C92**, the whole system: without Fermi motion the total four-momentum of all particles that are set
up has the requested invariant mass, for every frame and all positions drawn (`t` test particles
carry `t` times the energy). -/
theorem C92_total_energy (f : Frame) {s : ℝ} {t : Nat} (ht : 0 < t) (a b : Nucleus) (dz impact : ℝ) (d : Draws)
    (ha : a.parts ≠ []) (hb : b.parts ≠ []) (hma : ∀ n ∈ a.parts, 0 < n.mass) (hmb : ∀ n ∈ b.parts, 0 < n.mass)
    (hs : ((a.parts.map (·.mass)).sum / t + (b.parts.map (·.mass)).sum / t) ^ 2 < s) :
    ∃ pa pb time, initialConditions f s t a b false dz impact d = .ok (pa, pb, time) ∧
      let P := sum4 ((pa ++ pb).map (·.mom))
      minkowski P P = t ^ 2 * s ∧ (f = .centerOfMass → P.x = 0 ∧ P.y = 0 ∧ P.z = 0) := by
  obtain ⟨ra, sa⟩ := arrange_rest d.posA d.euler.1 d.euler.2.1 d.euler.2.2 a.parts hma
  obtain ⟨rb, sb⟩ := arrange_rest d.posB d.euler'.1 d.euler'.2.1 d.euler'.2.2 b.parts hmb
  have pos (l : List Nuc) (h : l ≠ []) (hm : ∀ n ∈ l, 0 < n.mass) : 0 < (l.map (·.mass)).sum := by
    apply List.sum_pos
    · intro x hx
      obtain ⟨n, hn, rfl⟩ := List.mem_map.1 hx
      exact hm n hn
    · simpa using h
  have pA := pos _ ha hma
  have pB := pos _ hb hmb
  have htr : (0 : ℝ) < t := by exact_mod_cast ht
  have mA : 0 < (a.parts.map (·.mass)).sum / (t : ℝ) := by positivity
  have mB : 0 < (b.parts.map (·.mass)).sum / (t : ℝ) := by positivity
  obtain ⟨v0, v1, v2, v3, hinv, -, hcm, -⟩ := C92_velocities f mA mB hs
  have hmA := massOf_rest t ra
  have hmB := massOf_rest t rb
  rw [sa] at hmA
  rw [sb] at hmB
  unfold initialConditions
  simp only
  rw [hmA, hmB]
  generalize getVelocities f s ((a.parts.map (·.mass)).sum / t) ((b.parts.map (·.mass)).sum / t) = v at *
  rw [if_neg (by rintro (h | h) <;> linarith), if_neg v0.ne']
  refine ⟨_, _, _, rfl, ?_⟩
  have hv1 : v.1 ^ 2 < 1 := by nlinarith
  have hv2 : v.2 ^ 2 < 1 := by nlinarith
  simp only [Bool.false_eq_true, if_false]
  have hsplit (l l' : List Nuc) : sum4 ((l ++ l').map (·.mom)) =
      (sum4 (l.map (·.mom))).add (sum4 (l'.map (·.mom))) := by
    rw [sum4_comp, sum4_comp, sum4_comp]
    simp [V4.add]
  rw [hsplit, nucleus_momentum hv1 _ _ _ _ _ ra, nucleus_momentum hv2 _ _ _ _ _ rb, sa, sb]
  unfold V4.add minkowski
  simp only
  unfold invMassSqr at hinv
  have k1 : 0 < √(1 - v.1 ^ 2) := sqrt_pos.2 (by linarith)
  have k2 : 0 < √(1 - v.2 ^ 2) := sqrt_pos.2 (by linarith)
  generalize √(1 - v.1 ^ 2) = g1 at *
  generalize √(1 - v.2 ^ 2) = g2 at *
  generalize (a.parts.map (·.mass)).sum = A at *
  generalize (b.parts.map (·.mass)).sum = B at *
  constructor
  · rw [← hinv]
    field_simp
    ring
  · intro hf
    refine ⟨by ring, by ring, ?_⟩
    have := hcm hf
    field_simp at this ⊢
    linarith

end Verif.Coll
