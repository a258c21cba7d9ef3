import Verif.Coll.Energy
/-! C93: where and when the nuclei start; C94: impact parameters. -/
namespace Verif.Coll
open Verif.Kin Real

theorem fermi_pos (draw : Nat → V3) (l : List Nuc) : (fermi draw l).map (·.pos) = l.map (·.pos) := by
  obtain ⟨h1, -, h3, -⟩ := C91_fermi draw l
  apply List.ext_getElem (by simp [h1])
  intro i hi hi'
  simp only [List.getElem_map]
  simp only [List.length_map] at hi hi'
  exact (h3 i hi' hi).2.2.2.1

/-- Position of a particle after boost, shift and rotation. -/
noncomputable def placeAt (beta z x t phi : ℝ) (p : V4) : V4 :=
  ⟨t, cos phi * (p.x + x) - sin phi * p.y, sin phi * (p.x + x) + cos phi * p.y, p.z * √(1 - beta * beta) + z⟩

theorem place_pos (beta z x t phi : ℝ) (l : List Nuc) :
    (rotatePlane phi (shift z x t (boostNucleus beta l))).map (·.pos) =
      (l.map (·.pos)).map (placeAt beta z x t phi) := by
  unfold rotatePlane shift boostNucleus
  simp only [List.map_map, Function.comp_def]
  apply List.map_congr_left
  intro n _
  rfl

theorem center_eq (l : List Nuc) : center l =
    ⟨((l.map (·.pos)).map (·.t)).sum / l.length, ((l.map (·.pos)).map (·.x)).sum / l.length,
      ((l.map (·.pos)).map (·.y)).sum / l.length, ((l.map (·.pos)).map (·.z)).sum / l.length⟩ := by
  unfold center
  rw [sum4_comp]

theorem placed_center (beta z x t phi : ℝ) (l l0 : List Nuc) (h0 : l ≠ [])
    (hpos : l.map (·.pos) = l0.map (·.pos)) (hsum : sum3 (l0.map fun n => n.pos.vec) = ⟨0, 0, 0⟩) :
    center (rotatePlane phi (shift z x t (boostNucleus beta l))) = ⟨t, cos phi * x, sin phi * x, z⟩ := by
  have hn : (l.length : ℝ) ≠ 0 := by
    have := List.length_pos_iff.2 h0
    positivity
  have hlen : (rotatePlane phi (shift z x t (boostNucleus beta l))).length = l.length := by
    simp [rotatePlane, shift, boostNucleus]
  rw [center_eq, place_pos, hpos, hlen]
  have hl : l.length = l0.length := by
    have := congrArg List.length hpos
    simpa using this
  rw [hl] at hn ⊢
  rw [sum3_comp] at hsum
  simp only [List.map_map, Function.comp_def, V4.vec, V3.mk.injEq] at hsum
  obtain ⟨hx, hy, hz⟩ := hsum
  simp only [List.map_map, Function.comp_def, placeAt]
  have lin (a b c k : ℝ) : (l0.map fun n => a * n.pos.x + b * n.pos.y + c * n.pos.z + k).sum = l0.length * k := by
    have : (l0.map fun n => a * n.pos.x + b * n.pos.y + c * n.pos.z - (-k)).sum = _ := sum_sub_const ..
    rw [sum_lin3, hx, hy, hz] at this
    simp only [sub_neg_eq_add] at this
    rw [this]; ring
  ext
  · simp only
    have := lin 0 0 0 t
    simp only [zero_mul, zero_add] at this
    rw [this]; field_simp
  · simp only
    have := lin (cos phi) (-sin phi) 0 (cos phi * x)
    have e : (l0.map fun n => cos phi * (n.pos.x + x) - sin phi * n.pos.y) =
        l0.map fun n => cos phi * n.pos.x + -sin phi * n.pos.y + 0 * n.pos.z + cos phi * x := by
      apply List.map_congr_left; intro n _; ring
    rw [e, this]; field_simp
  · simp only
    have := lin (sin phi) (cos phi) 0 (sin phi * x)
    have e : (l0.map fun n => sin phi * (n.pos.x + x) + cos phi * n.pos.y) =
        l0.map fun n => sin phi * n.pos.x + cos phi * n.pos.y + 0 * n.pos.z + sin phi * x := by
      apply List.map_congr_left; intro n _; ring
    rw [e, this]; field_simp
  · simp only
    have := lin 0 0 (√(1 - beta * beta)) z
    have e : (l0.map fun n => n.pos.z * √(1 - beta * beta) + z) =
        l0.map fun n => 0 * n.pos.x + 0 * n.pos.y + √(1 - beta * beta) * n.pos.z + z := by
      apply List.map_congr_left; intro n _; ring
    rw [e, this]; field_simp

/-- **C93**: the nuclei start at the time `-dz/v_a`, which all particles carry as time and formation time.
Moving with the beam velocities, their centres are at time 0 at the distance where the contracted
spheres (radius plus diffusiveness) touch at z = 0, projectile on the left; the transverse
distance of the centres is the impact parameter, in the direction of the reaction plane. This holds for
all positions and momenta drawn, with and without Fermi motion. -/
theorem C93_start (f : Frame) {s : ℝ} {t : Nat} (ht : 0 < t) (a b : Nucleus) (useFermi : Bool) (dz impact : ℝ)
    (d : Draws) (ha : a.parts ≠ []) (hb : b.parts ≠ []) (hma : ∀ n ∈ a.parts, 0 < n.mass)
    (hmb : ∀ n ∈ b.parts, 0 < n.mass) (hda : 0 ≤ a.diffusiveness) (hdb : 0 ≤ b.diffusiveness)
    (hs : ((a.parts.map (·.mass)).sum / t + (b.parts.map (·.mass)).sum / t) ^ 2 < s) :
    let v := getVelocities f s ((a.parts.map (·.mass)).sum / t) ((b.parts.map (·.mass)).sum / t)
    ∃ pa pb time, initialConditions f s t a b useFermi dz impact d = .ok (pa, pb, time) ∧
      v.1 * time = -dz ∧ (∀ n ∈ pa ++ pb, n.pos.t = time ∧ n.form = time) ∧
      pa.length = a.parts.length ∧ pb.length = b.parts.length ∧
      (center pa).z - v.1 * time = -(√(1 - v.1 ^ 2) * (a.radius + a.diffusiveness)) ∧
      (center pb).z - v.2 * time = √(1 - v.2 ^ 2) * (b.radius + b.diffusiveness) ∧
      (center pa).x - (center pb).x = impact * cos d.phi ∧
      (center pa).y - (center pb).y = impact * sin d.phi ∧
      (center pa).x + (center pb).x = 0 ∧ (center pa).y + (center pb).y = 0 := by
  intro v
  obtain ⟨ra, sa⟩ := arrange_rest d.posA d.euler.1 d.euler.2.1 d.euler.2.2 a.parts hma
  obtain ⟨rb, sb⟩ := arrange_rest d.posB d.euler'.1 d.euler'.2.1 d.euler'.2.2 b.parts hmb
  have pos (l : List Nuc) (h : l ≠ []) (hm : ∀ n ∈ l, 0 < n.mass) : 0 < (l.map (·.mass)).sum := by
    apply List.sum_pos
    · intro x hx
      obtain ⟨n, hn, rfl⟩ := List.mem_map.1 hx
      exact hm n hn
    · simpa using h
  have pA := pos _ ha hma
  have pB := pos _ hb hmb
  have htr : (0 : ℝ) < t := by exact_mod_cast ht
  have mA : 0 < (a.parts.map (·.mass)).sum / (t : ℝ) := by positivity
  have mB : 0 < (b.parts.map (·.mass)).sum / (t : ℝ) := by positivity
  obtain ⟨v0, v1, v2, v3, -⟩ := C92_velocities f mA mB hs
  have hmA := massOf_rest t ra
  have hmB := massOf_rest t rb
  rw [sa] at hmA
  rw [sb] at hmB
  have hv : v = getVelocities f s ((a.parts.map (·.mass)).sum / t) ((b.parts.map (·.mass)).sum / t) := rfl
  rw [← hv] at v0 v1 v2 v3
  obtain ⟨la, ca, -⟩ := C91_arrange d.posA d.euler.1 d.euler.2.1 d.euler.2.2 a.parts ha
  obtain ⟨lb, cb, -⟩ := C91_arrange d.posB d.euler'.1 d.euler'.2.1 d.euler'.2.2 b.parts hb
  unfold initialConditions
  simp only
  rw [hmA, hmB, ← hv]
  generalize v = v at *
  rw [if_neg (by rintro (h | h) <;> linarith), if_neg v0.ne']
  generalize arrange d.posA d.euler.1 d.euler.2.1 d.euler.2.2 a.parts = A at *
  generalize arrange d.posB d.euler'.1 d.euler'.2.1 d.euler'.2.2 b.parts = B at *
  obtain ⟨A', hA', posA', lenA'⟩ : ∃ A', A' = (if useFermi then fermi d.fermiA A else A) ∧
      A'.map (·.pos) = A.map (·.pos) ∧ A'.length = A.length := by
    refine ⟨_, rfl, ?_, ?_⟩ <;> cases useFermi <;> simp [fermi_pos, (C91_fermi d.fermiA A).1]
  obtain ⟨B', hB', posB', lenB'⟩ : ∃ B', B' = (if useFermi then fermi d.fermiB B else B) ∧
      B'.map (·.pos) = B.map (·.pos) ∧ B'.length = B.length := by
    refine ⟨_, rfl, ?_, ?_⟩ <;> cases useFermi <;> simp [fermi_pos, (C91_fermi d.fermiB B).1]
  rw [← hA', ← hB']
  have neA : A' ≠ [] := by
    rw [← List.length_pos_iff, lenA', la]
    exact List.length_pos_iff.2 ha
  have neB : B' ≠ [] := by
    rw [← List.length_pos_iff, lenB', lb]
    exact List.length_pos_iff.2 hb
  refine ⟨_, _, _, rfl, ?_, ?_, ?_, ?_, ?_⟩
  · rw [abs_of_pos v0]; field_simp
  · intro n hn
    rcases List.mem_append.1 hn with h | h <;>
    · unfold rotatePlane shift at h
      simp only [List.map_map, List.mem_map, Function.comp_def] at h
      obtain ⟨m, -, rfl⟩ := h
      exact ⟨rfl, rfl⟩
  · simp [rotatePlane, shift, boostNucleus, lenA', la]
  · simp [rotatePlane, shift, boostNucleus, lenB', lb]
  · rw [placed_center _ _ _ _ _ A' A neA posA' ca, placed_center _ _ _ _ _ B' B neB posB' cb]
    simp only
    rw [abs_of_pos v0, max_eq_right hda, max_eq_right hdb, abs_of_nonpos (div_nonpos_of_nonpos_of_nonneg v3 v0.le)]
    have q1 : v.1 * v.1 = v.1 ^ 2 := by ring
    have q2 : v.2 * v.2 = v.2 ^ 2 := by ring
    rw [q1, q2]
    refine ⟨?_, ?_, ?_, ?_, ?_, ?_⟩
    · field_simp; ring
    · field_simp; ring
    · ring
    · ring
    · ring
    · ring

/-- With a projectile at rest in the frame of the target (kinetic energy 0) there is no start time. -/
theorem C93_at_rest_false : energyOption 3 3 1 1 (.eKin 0) = some (36, 6) ∧
    (getVelocities .fixedTarget 36 3 3).1 = 0 := by
  constructor
  · unfold energyOption sFromEkin sFromEtot
    dsimp only
    rw [if_neg (by norm_num), show (3 : ℝ) / (1 : Nat) * (3 / (1 : Nat)) + 3 / (1 : Nat) * (3 / (1 : Nat)) +
      2 * (3 / (1 : Nat)) * (0 + 3 / (1 : Nat)) = 6 ^ 2 by norm_num, Real.sqrt_sq (by norm_num)]
    norm_num
  · unfold getVelocities fixedTargetV
    norm_num

/-- Two nuclei that meet the hypotheses of `C92_total_energy` and `C93_start`. -/
example : let p := fillFromList [(.proton, 1, 79), (.neutron, 1, 118)] 20
    p ≠ [] ∧ ∀ n ∈ p, 0 < n.mass := by
  constructor
  · intro h
    have := (C91_counts [(.proton, 1, 79), (.neutron, 1, 118)] 20 (by decide)).2.1
    rw [h] at this
    simp [numberOfParticles] at this
  · intro n hn
    unfold fillFromList at hn
    simp only [List.mem_flatMap, List.mem_replicate] at hn
    obtain ⟨e, he, -, rfl⟩ := hn
    simp only [List.mem_cons, List.not_mem_nil, or_false] at he
    rcases he with rfl | rfl <;> exact one_pos

/-! ### C94 -/

/-- **C94**, quadratic sampling: the impact parameter is in its range, and the fraction of the area below
it is the random number. -/
theorem C94_quadratic {bmin bmax u : ℝ} (h0 : 0 ≤ bmin) (h1 : bmin ≤ bmax) (hu : 0 ≤ u) (hu1 : u ≤ 1) :
    let b := impactQuadratic bmin bmax u
    bmin ≤ b ∧ b ≤ bmax ∧ π * b ^ 2 - π * bmin ^ 2 = u * (π * bmax ^ 2 - π * bmin ^ 2) := by
  intro b
  have hd : 0 ≤ bmax * bmax - bmin * bmin := by nlinarith
  have hq : 0 ≤ bmin * bmin + u * (bmax * bmax - bmin * bmin) := by positivity
  have hb2 : b ^ 2 = bmin * bmin + u * (bmax * bmax - bmin * bmin) := sq_sqrt hq
  have hb0 : 0 ≤ b := sqrt_nonneg _
  refine ⟨?_, ?_, ?_⟩
  · refine (pow_le_pow_iff_left₀ h0 hb0 two_ne_zero).1 ?_
    rw [hb2]; nlinarith [mul_nonneg hu hd]
  · refine (pow_le_pow_iff_left₀ hb0 (h0.trans h1) two_ne_zero).1 ?_
    rw [hb2]; nlinarith
  · rw [hb2]; ring

/-- The bounds may also be given the other way round. -/
theorem C94_quadratic_reversed {bmin bmax u : ℝ} (h0 : 0 ≤ bmax) (h1 : bmax ≤ bmin) (hu : 0 ≤ u) (hu1 : u ≤ 1) :
    let b := impactQuadratic bmin bmax u
    bmax ≤ b ∧ b ≤ bmin := by
  intro b
  have e : b = impactQuadratic bmax bmin (1 - u) := by
    show impactQuadratic bmin bmax u = _
    unfold impactQuadratic
    congr 1; ring
  obtain ⟨g1, g2, -⟩ := C94_quadratic h0 h1 (by linarith : 0 ≤ 1 - u) (by linarith)
  rw [e]
  exact ⟨g1, g2⟩

/-- **C94**, custom sampling: an impact parameter that is returned was drawn from the range, and accepted
by its random number being at most its yield relative to the maximum; all draws before were refused. -/
theorem C94_custom_partial (f : ℝ → ℝ) (ymax : ℝ) (l : List (ℝ × ℝ)) (b : ℝ)
    (h : impactCustom f ymax l = some (some b)) :
    ∃ pre w post, l = pre ++ (b, w) :: post ∧ w ≤ f b / ymax ∧ f b / ymax < 1 ∧
      ∀ e ∈ pre, f e.1 / ymax < e.2 := by
  induction l with
  | nil => simp [impactCustom] at h
  | cons e l ih =>
    obtain ⟨c, w⟩ := e
    unfold impactCustom at h
    simp only at h
    split_ifs at h with h1 h2
    · obtain ⟨pre, w', post, rfl, g1, g2, g3⟩ := ih h
      refine ⟨(c, w) :: pre, w', post, rfl, g1, g2, ?_⟩
      intro e he
      rcases List.mem_cons.1 he with rfl | he
      · exact h2
      · exact g3 e he
    · simp only [Option.some.injEq] at h
      subst h
      exact ⟨[], w, l, rfl, not_lt.1 h2, h1, by simp⟩
    · simp at h

/-- At the impact parameter with the maximal yield the assertion fails (debug build); for yields that are the
same everywhere this happens with the first draw. -/
theorem C94_assertion_false (f : ℝ → ℝ) (ymax b w : ℝ) (l : List (ℝ × ℝ)) (h : ymax ≠ 0) (hb : f b = ymax) :
    impactCustom f ymax ((b, w) :: l) = some none := by
  unfold impactCustom
  simp only
  rw [hb, div_self h, if_neg (lt_irrefl _)]

example : impactCustom (fun b => b) 10 [(5, 3 / 4), (4, 1 / 4)] = some (some 4) := by
  norm_num [impactCustom]

end Verif.Coll
