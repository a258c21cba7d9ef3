import Verif.Ini.Place
import Mathlib.Tactic.NormNum
/-! C122: the initial state of a sphere. -/
namespace Verif.Ini
open Verif.Kin

/-- The squared distance from the centre. -/
def dist2 (v : V4) : ℝ := v.x ^ 2 + v.y ^ 2 + v.z ^ 2

theorem spherePos_dist {R : ℝ} {d : Draw} (hd : Drawn d) (t : ℝ) :
    dist2 (V4.mk' t (spherePos R d)) = (d.u.1 ^ ((1 : ℝ) / 3) * R) ^ 2 := by
  have h := C67_unit d.posDir hd.2.2.2.2
  unfold inner3 at h
  unfold dist2 V4.mk' spherePos V3.smul
  dsimp only
  generalize d.u.1 ^ ((1 : ℝ) / 3) * R = q
  linear_combination q ^ 2 * h

theorem cbrt_spec {u : ℝ} (h : 0 ≤ u) : 0 ≤ u ^ ((1 : ℝ) / 3) ∧ (u ^ ((1 : ℝ) / 3)) ^ 3 = u := by
  refine ⟨Real.rpow_nonneg h _, ?_⟩
  rw [← Real.rpow_natCast, ← Real.rpow_mul h]
  norm_num

/-- **C122** (uniform). A particle is put within a distance x from the centre exactly if the random number
is at most (x/R)³, the fraction of the volume within that distance. -/
theorem C122_uniform {R x : ℝ} (hR : 0 < R) (hx : 0 ≤ x) {d : Draw} (hd : Drawn d) (t : ℝ) :
    dist2 (V4.mk' t (spherePos R d)) ≤ x ^ 2 ↔ d.u.1 ≤ (x / R) ^ 3 := by
  obtain ⟨c0, c3⟩ := cbrt_spec hd.1.1
  rw [spherePos_dist hd]
  generalize d.u.1 ^ ((1 : ℝ) / 3) = c at *
  rw [← c3, pow_le_pow_iff_left₀ (by positivity) hx (by norm_num), ← le_div_iff₀ hR,
    pow_le_pow_iff_left₀ c0 (by positivity) (by norm_num)]

theorem flow_spec {v0 n R : ℝ} {p q : Part} (h : flow v0 n R p = .ok q) :
    q.pdg = p.pdg ∧ q.pos = p.pos ∧ q.form = p.form ∧
      ∃ v, flowVelocity v0 n R p = .ok v ∧ q.mom = boost p.mom v := by
  unfold flow at h
  obtain ⟨v, h1, h⟩ := bind_ok h
  cases h
  exact ⟨rfl, rfl, rfl, v, h1, rfl⟩

theorem flowAll_spec {v0 n R : ℝ} : ∀ {l r : List Part}, flowAll v0 n R l = .ok r →
    r.length = l.length ∧ r.map (·.pdg) = l.map (·.pdg) ∧ ∀ q ∈ r, ∃ p ∈ l, flow v0 n R p = .ok q := by
  intro l
  induction l with
  | nil =>
    intro r h
    cases h
    exact ⟨rfl, rfl, fun q hq => absurd hq List.not_mem_nil⟩
  | cons p l ih =>
    intro r h
    rw [flowAll] at h
    obtain ⟨q, h1, h⟩ := bind_ok h
    obtain ⟨qs, h2, h⟩ := bind_ok h
    cases h
    obtain ⟨a, b, c⟩ := ih h2
    refine ⟨by simp [a], by simp [b, (flow_spec h1).1], ?_⟩
    intro x hx
    rcases List.mem_cons.1 hx with rfl | hx
    · exact ⟨p, List.mem_cons_self, h1⟩
    · obtain ⟨y, hy, e⟩ := c x hx
      exact ⟨y, List.mem_cons_of_mem _ hy, e⟩

theorem boost_shell {m : ℝ} {p : V4} {v : V3} (hv : Subluminal v) (h : MassShell m p) :
    MassShell m (boost p v) := by
  have hi := C29_isometry p p v hv
  unfold minkowski at hi
  obtain ⟨h1, h2⟩ := h
  refine ⟨by linarith, ?_⟩
  rw [boost_t]
  have hg := (gamma_spec hv).1
  apply mul_nonneg hg.le
  have hc : (p.x * v.x + p.y * v.y + p.z * v.z) ^ 2 ≤
      (p.x ^ 2 + p.y ^ 2 + p.z ^ 2) * (v.x ^ 2 + v.y ^ 2 + v.z ^ 2) := by
    nlinarith [sq_nonneg (p.x * v.y - p.y * v.x), sq_nonneg (p.x * v.z - p.z * v.x),
      sq_nonneg (p.y * v.z - p.z * v.y)]
  have hq : (p.x ^ 2 + p.y ^ 2 + p.z ^ 2) * (v.x ^ 2 + v.y ^ 2 + v.z ^ 2) ≤
      (p.x ^ 2 + p.y ^ 2 + p.z ^ 2) * 1 :=
    mul_le_mul_of_nonneg_left hv.le (by positivity)
  have hm := sq_nonneg m
  have := abs_le_of_sq_le_sq (show (p.x * v.x + p.y * v.y + p.z * v.z) ^ 2 ≤ p.t ^ 2 by linarith) h2
  linarith [(abs_le.1 this).2]

/-- The velocity of the flow at a place: `v0 (r/R)^n` away from the centre. -/
def Flow (v0 n R : ℝ) (x : V4) (w : V3) : Prop :=
  let r := Real.sqrt (dist2 x)
  w = ⟨v0 * (r / R) ^ n * (x.x / r), v0 * (r / R) ^ n * (x.y / r), v0 * (r / R) ^ n * (x.z / r)⟩

theorem flowVelocity_spec {v0 n R : ℝ} {p : Part} {v : V3} (h : flowVelocity v0 n R p = .ok v) :
    0 < Real.sqrt (dist2 p.pos) ∧ Flow v0 n R p.pos v.neg := by
  have hd : p.pos.vec.sqr = dist2 p.pos := by
    unfold V4.vec V3.sqr V3.dot dist2; dsimp only; ring
  unfold flowVelocity at h
  rw [hd] at h
  dsimp only at h
  split at h
  · cases h
  · rename_i hr
    cases h
    refine ⟨lt_of_le_of_ne (Real.sqrt_nonneg _) (Ne.symm hr), ?_⟩
    unfold Flow V3.neg V3.smul V3.div V3.smul V4.vec
    dsimp only
    congr 1 <;> ring

theorem flow_speed {v0 n R : ℝ} {x : V4} {w : V3} (h : Flow v0 n R x w) (hr : 0 < Real.sqrt (dist2 x)) :
    w.x ^ 2 + w.y ^ 2 + w.z ^ 2 = (v0 * (Real.sqrt (dist2 x) / R) ^ n) ^ 2 := by
  have hs : Real.sqrt (dist2 x) ^ 2 = dist2 x := Real.sq_sqrt (by unfold dist2; positivity)
  unfold Flow at h
  rw [h]
  dsimp only
  generalize v0 * (Real.sqrt (dist2 x) / R) ^ n = k
  generalize Real.sqrt (dist2 x) = r at *
  unfold dist2 at hs
  field_simp
  rw [hs]

theorem sub_of_neg {v : V3} (h : Subluminal v.neg) : Subluminal v := by
  unfold Subluminal V3.neg at *
  simpa using h

/-- **C122** (flow). With flow, a particle at rest at a place moves away from the centre with the velocity
`v0 (r/R)^n`, and every particle keeps its mass, if that velocity is below the speed of light. -/
theorem C122_flow {v0 n R : ℝ} {p q : Part} (h : flow v0 n R p = .ok q) :
    q.pdg = p.pdg ∧ q.pos = p.pos ∧ q.form = p.form ∧
    (|v0 * (Real.sqrt (dist2 p.pos) / R) ^ n| < 1 →
      (∀ m, MassShell m p.mom → MassShell m q.mom) ∧
      (∀ m, 0 < m → p.mom = ⟨m, 0, 0, 0⟩ → 0 < q.mom.t ∧ Flow v0 n R p.pos q.mom.velocity)) := by
  obtain ⟨a, b, c, v, hv, e⟩ := flow_spec h
  refine ⟨a, b, c, ?_⟩
  intro hs
  obtain ⟨hr, hf⟩ := flowVelocity_spec hv
  have hsub : Subluminal v := by
    apply sub_of_neg
    unfold Subluminal
    rw [flow_speed hf hr]
    have h1 := abs_lt.1 hs
    nlinarith [h1.1, h1.2]
  refine ⟨fun m hm => by rw [e]; exact boost_shell hsub hm, ?_⟩
  intro m hm hp
  obtain ⟨hg, _⟩ := gamma_spec hsub
  have hb : boost ⟨m, 0, 0, 0⟩ v = ⟨gamma v * m, -(gamma v * m * v.x), -(gamma v * m * v.y),
      -(gamma v * m * v.z)⟩ := by
    unfold boost V4.mk' V3.sub V3.smul V4.vec V3.dot
    simp only
    have : gamma v + 1 ≠ 0 := by linarith
    ext <;> simp only <;> field_simp <;> ring
  rw [e, hp, hb]
  refine ⟨by positivity, ?_⟩
  have hvel : (V4.mk (gamma v * m) (-(gamma v * m * v.x)) (-(gamma v * m * v.y))
      (-(gamma v * m * v.z))).velocity = v.neg := by
    have : gamma v ≠ 0 := hg.ne'
    unfold V4.velocity V3.div V3.smul V4.vec V3.neg
    ext <;> simp only <;> field_simp
  rw [hvel]
  exact hf

/-- **C122** (number, places, masses). The initial state of a sphere holds the configured number of every
species times the number of test particles (or the numbers drawn), all of them formed, at the starting time
inside the sphere, and on their mass shells, if the flow is slower than light everywhere. -/
theorem C122_sphere (C : Cfg) (v0 n : ℝ) (ds : List Draw) (l : List Part) (t : ℝ) (hds : ∀ d ∈ ds, Drawn d)
    (hR : 0 < C.size) (hm : ∀ s, 0 ≤ C.mass s) (hw : ∀ d ∈ ds, 0 ≤ d.mass)
    (hv : v0 < 1) (hn : 0 ≤ n) (h : sphere C v0 n none ds = .ok (l, t)) :
    t = C.start ∧
    (∀ s, (l.map (·.pdg)).count s =
      if C.thermalMult then asked C.drawn s else asked C.mults s * C.testparticles) ∧
    (∀ p ∈ l, p.form = C.start ∧ p.pos.t = C.start ∧ dist2 p.pos < C.size ^ 2 ∧
      ∃ m, GivenMass C ds p.pdg m ∧ MassShell m p.mom) := by
  unfold sphere at h
  obtain ⟨l0, h0, h⟩ := bind_ok h
  obtain ⟨⟨l1, tot⟩, h1, h⟩ := bind_ok h
  obtain ⟨l2, h2, h⟩ := bind_ok h
  simp only [sphereJets, List.append_nil, Except.ok.injEq, Prod.mk.injEq] at h
  obtain ⟨rfl, rfl⟩ := h
  obtain ⟨e0, k0⟩ := fill_spec (fun s d p hp => (place_spec hp).1) h0
  obtain ⟨_, e2, k2, _⟩ := recenter_spec h2
  have first : ∀ p ∈ l0, p.form = C.start ∧ p.pos.t = C.start ∧ dist2 p.pos < C.size ^ 2 ∧
      ∃ m, 0 ≤ m ∧ GivenMass C ds p.pdg m ∧ MassShell m p.mom := by
    intro p hp
    obtain ⟨dr, hdr, hpl⟩ := k0 p hp
    obtain ⟨_, i, j, m, r, hr, hmom⟩ := place_spec hpl
    have hmm := radial_mass hr
    refine ⟨j, by rw [i]; rfl, ?_, m, ?_, ?_, ?_⟩
    · rw [i, spherePos_dist (hds dr hdr)]
      obtain ⟨c0, c3⟩ := cbrt_spec (hds dr hdr).1.1
      have hu := (hds dr hdr).1.2
      have : dr.u.1 ^ ((1 : ℝ) / 3) < 1 := by
        by_contra hc
        have h3 : (1 : ℝ) ^ 3 ≤ (dr.u.1 ^ ((1 : ℝ) / 3)) ^ 3 := pow_le_pow_left₀ zero_le_one (not_lt.1 hc) 3
        rw [c3] at h3
        linarith
      apply pow_lt_pow_left₀ _ (by positivity) (by norm_num)
      nlinarith
    · rw [hmm]
      split
      · exact hw dr hdr
      · exact hm _
    · unfold GivenMass
      split
      · rename_i hc
        rw [if_pos hc] at hmm
        exact ⟨dr, hdr, hmm⟩
      · rename_i hc
        rw [if_neg hc] at hmm
        exact hmm
    · rw [hmom]; exact (onShell_spec _ _).1
  have second : l1.map (·.pdg) = l0.map (·.pdg) ∧
      ∀ p ∈ l1, p.form = C.start ∧ p.pos.t = C.start ∧ dist2 p.pos < C.size ^ 2 ∧
      ∃ m, 0 ≤ m ∧ GivenMass C ds p.pdg m ∧ MassShell m p.mom := by
    split at h1
    · rename_i hv0
      obtain ⟨l', h3, h1⟩ := bind_ok h1
      simp only [Except.ok.injEq, Prod.mk.injEq] at h1
      obtain ⟨rfl, _⟩ := h1
      obtain ⟨_, ep, k3⟩ := flowAll_spec h3
      refine ⟨ep, ?_⟩
      intro q hq
      obtain ⟨p, hp, hfl⟩ := k3 q hq
      obtain ⟨f1, f2, f3, m, f4, f5, f6⟩ := first p hp
      obtain ⟨a, b, c, d⟩ := C122_flow hfl
      refine ⟨c.trans f1, by rw [b]; exact f2, by rw [b]; exact f3, m, f4, by rw [a]; exact f5, ?_⟩
      refine (d ?_).1 m f6
      have hq : Real.sqrt (dist2 p.pos) / C.size ≤ 1 := by
        rw [div_le_one hR]
        exact Real.sqrt_le_iff.2 ⟨hR.le, f3.le⟩
      have h0 : 0 ≤ Real.sqrt (dist2 p.pos) / C.size := by positivity
      have h5 := Real.rpow_le_one h0 hq hn
      have h6 := Real.rpow_nonneg h0 n
      rw [abs_of_nonneg (by positivity)]
      nlinarith
    · simp only [Except.ok.injEq, Prod.mk.injEq] at h1
      obtain ⟨rfl, _⟩ := h1
      exact ⟨rfl, first⟩
  refine ⟨rfl, ?_, ?_⟩
  · intro s
    rw [e2, second.1, e0, count_species]
  · intro q hq
    obtain ⟨p, hp, a, b, c, d⟩ := k2 q hq
    obtain ⟨f1, f2, f3, m, f4, f5, f6⟩ := second.2 p hp
    exact ⟨c.trans f1, by rw [b]; exact f2, by rw [b]; exact f3, m, by rw [a]; exact f5, d m f4 f6⟩

/-- **C122** (momentum). Without flow the total momentum is zero. -/
theorem C122_total_partial (C : Cfg) (v0 n : ℝ) (ds : List Draw) (l : List Part) (t : ℝ) (hv : v0 ≤ 0)
    (h : sphere C v0 n none ds = .ok (l, t)) : totalMom l = (0, 0, 0) := by
  unfold sphere at h
  obtain ⟨l0, h0, h⟩ := bind_ok h
  dsimp only at h
  rw [if_neg (show ¬ v0 > 0 from not_lt.2 hv)] at h
  obtain ⟨lt, h1, h⟩ := bind_ok h
  cases h1
  obtain ⟨l2, h2, h⟩ := bind_ok h
  simp only [sphereJets, List.append_nil, Except.ok.injEq, Prod.mk.injEq] at h
  obtain ⟨rfl, _⟩ := h
  obtain ⟨_, e2, _, s2⟩ := recenter_spec h2
  by_cases hl : l0 = []
  · subst hl
    have : l2 = [] := by simpa using e2
    subst this
    simp [totalMom]
  · rw [s2 hl]
    have := sum4_total l0
    simp only [Prod.ext_iff] at this
    obtain ⟨a, b, c⟩ := this
    rw [← a, ← b, ← c]
    simp

/-- With flow, the total momentum is minus the one the particles had before they were boosted: it is not
subtracted once but twice. -/
theorem C122_flow_total (C : Cfg) (v0 n : ℝ) (ds : List Draw) (l l0 : List Part) (t : ℝ) (hv : 0 < v0)
    (h0 : fill (place spherePos C) (species C) ds = .ok l0) (h : sphere C v0 n none ds = .ok (l, t)) :
    totalMom l = (-(totalMom l0).1, -(totalMom l0).2.1, -(totalMom l0).2.2) := by
  unfold sphere at h
  rw [h0] at h
  obtain ⟨l0', e, h⟩ := bind_ok h
  cases e
  dsimp only at h
  rw [if_pos (show v0 > 0 from hv)] at h
  obtain ⟨⟨l1, tot⟩, h1, h⟩ := bind_ok h
  obtain ⟨l', h3, h1⟩ := bind_ok h1
  simp only [Except.ok.injEq, Prod.mk.injEq] at h1
  obtain ⟨rfl, rfl⟩ := h1
  obtain ⟨l2, h2, h⟩ := bind_ok h
  simp only [sphereJets, List.append_nil, Except.ok.injEq, Prod.mk.injEq] at h
  obtain ⟨rfl, _⟩ := h
  obtain ⟨_, e2, _, s2⟩ := recenter_spec h2
  obtain ⟨hlen, _, _⟩ := flowAll_spec h3
  by_cases hl : l' = []
  · subst hl
    have : l0 = [] := by simpa using hlen.symm
    subst this
    have : l2 = [] := by simpa using e2
    subst this
    simp [totalMom]
  · rw [s2 hl]
    have a := sum4_total l0
    have b := sum4_total l'
    simp only [Prod.ext_iff] at a b
    obtain ⟨a1, a2, a3⟩ := a
    obtain ⟨b1, b2, b3⟩ := b
    rw [← a1, ← a2, ← a3, ← b1, ← b2, ← b3]
    unfold V4.add
    dsimp only
    refine Prod.ext ?_ (Prod.ext ?_ ?_) <;> dsimp only <;> ring

theorem sphere_flow_ok {C : Cfg} {v0 n : ℝ} {ds : List Draw} {l0 l' : List Part} (hv : 0 < v0)
    (h0 : fill (place spherePos C) (species C) ds = .ok l0) (h1 : flowAll v0 n C.size l0 = .ok l')
    (h2 : ∀ p ∈ l', ∃ m, MassShell m p.mom) : ∃ r, sphere C v0 n none ds = .ok (r, C.start) := by
  obtain ⟨r, hr⟩ := recenter_ok ((Coll.sum4 (l0.map (·.mom))).add (Coll.sum4 (l'.map (·.mom)))) l' h2
  refine ⟨r, ?_⟩
  unfold sphere
  simp only [h0, h1, hr, bind, Except.bind, if_pos (show v0 > 0 from hv), sphereJets, List.append_nil]

/-- One massless particle in a sphere of 5 fm. -/
noncomputable def sampleSphere : Cfg :=
  ⟨1, 5, 0, .es, false, false, [(0x111, 1)], [], 1, fun _ => 0, fun _ => 0, fun _ => ⟨0, 0⟩, fun _ => 0⟩

/-- Momentum 3 and place R/2, both along z. -/
noncomputable def upwards : Draw :=
  ⟨0, [], [], (Real.exp (-1), Real.exp (-1), Real.exp (-1), Real.exp (-1)), ⟨0, 1⟩, (1 / 8, 0, 0), ⟨0, 1⟩⟩

theorem upwards_drawn : Drawn upwards := by
  have := Real.pi_pos
  unfold Drawn upwards InRange
  norm_num
  linarith

theorem fill_upwards : fill (place spherePos sampleSphere) (species sampleSphere) [upwards] =
    .ok [⟨0x111, Coll.onShell 0 (upwards.dir.threevec.smul (sampleES 1 upwards.es)),
      V4.mk' 0 (spherePos 5 upwards), 0⟩] := by
  have : species sampleSphere = [0x111] := by
    unfold species sampleSphere
    simp
  rw [this]
  rfl

theorem upwards_mom : (Coll.onShell 0 (upwards.dir.threevec.smul (sampleES 1 upwards.es))).z = 3 := by
  unfold Coll.onShell V4.mk' upwards V3.smul Angles.threevec sampleES
  simp only [Real.log_exp]
  norm_num

theorem upwards_pos : (V4.mk' 0 (spherePos 5 upwards)) = ⟨0, 0, 0, 5 / 2⟩ := by
  have h : ((1 : ℝ) / 8) ^ ((1 : ℝ) / 3) = 1 / 2 := by
    rw [show (1 : ℝ) / 8 = (1 / 2) ^ (3 : ℝ) by norm_num, ← Real.rpow_mul (by norm_num)]
    norm_num
  unfold V4.mk' spherePos upwards V3.smul Angles.threevec
  simp only [h]
  norm_num

/-- **C122** fails with flow: there is an accepted configuration whose initial total momentum is not zero. -/
theorem C122_total_false : ∃ (C : Cfg) (v0 n : ℝ) (ds : List Draw) (l : List Part) (t : ℝ),
    accepts v0 n C.T ∧ (∀ d ∈ ds, Drawn d) ∧ v0 < 1 ∧ sphere C v0 n none ds = .ok (l, t) ∧
      totalMom l ≠ (0, 0, 0) := by
  obtain ⟨q, hq⟩ : ∃ q, flow (1 / 2) 1 5 ⟨0x111, Coll.onShell 0 (upwards.dir.threevec.smul
      (sampleES 1 upwards.es)), V4.mk' 0 (spherePos 5 upwards), 0⟩ = .ok q := by
    unfold flow flowVelocity
    rw [if_neg]
    · exact ⟨_, rfl⟩
    · dsimp only
      rw [upwards_pos]
      unfold V4.vec V3.sqr V3.dot
      dsimp only
      rw [Real.sqrt_eq_zero']
      norm_num
  have hshell : MassShell 0 q.mom := by
    refine ((C122_flow hq).2.2.2 ?_).1 0 (onShell_spec _ _).1
    dsimp only
    rw [upwards_pos]
    unfold dist2
    dsimp only
    rw [show (0 : ℝ) ^ 2 + 0 ^ 2 + (5 / 2) ^ 2 = (5 / 2) ^ 2 by norm_num, Real.sqrt_sq (by norm_num)]
    norm_num
  have hall : flowAll (1 / 2) 1 5 [⟨0x111, Coll.onShell 0 (upwards.dir.threevec.smul
      (sampleES 1 upwards.es)), V4.mk' 0 (spherePos 5 upwards), 0⟩] = .ok [q] := by
    rw [flowAll, hq]
    rfl
  obtain ⟨r, hs⟩ := sphere_flow_ok (C := sampleSphere) (v0 := 1 / 2) (n := 1) (by norm_num) fill_upwards hall (by
    intro p hp
    rw [List.mem_singleton] at hp
    subst hp
    exact ⟨0, hshell⟩)
  refine ⟨sampleSphere, 1 / 2, 1, [upwards], r, _, ?_, ?_, by norm_num, hs, ?_⟩
  · unfold accepts sampleSphere; norm_num
  · intro d hd
    rw [List.mem_singleton] at hd
    rw [hd]
    exact upwards_drawn
  · rw [C122_flow_total sampleSphere (1 / 2) 1 [upwards] r _ _ (by norm_num) fill_upwards hs]
    intro hc
    have := congrArg (fun x => x.2.2) hc
    unfold totalMom at this
    simp only [List.map_cons, List.map_nil, List.sum_cons, List.sum_nil, add_zero, upwards_mom] at this
    norm_num at this

/-- **C122** fails at the speed of light, which the constructor accepts: with velocity 1 everywhere no
particle with a mass keeps it. -/
theorem C122_lightspeed_false (R T m : ℝ) (hT : 0 < T) (hm : 0 < m) (p q : Part)
    (hp : MassShell m p.mom) (h : flow 1 0 R p = .ok q) :
    accepts 1 0 T ∧ q.mom.t = 0 ∧ ¬ MassShell m q.mom := by
  obtain ⟨_, _, _, v, hv, e⟩ := flow_spec h
  obtain ⟨hr, hf⟩ := flowVelocity_spec hv
  have hn : ¬ Subluminal v := by
    intro hs
    have h2 := flow_speed hf hr
    rw [Real.rpow_zero] at h2
    unfold Subluminal at hs
    unfold V3.neg at h2
    dsimp only at h2
    nlinarith
  have hb := C29_not_subluminal p.mom v hn
  rw [e, hb]
  refine ⟨by unfold accepts; constructor <;> [skip; constructor] <;> linarith, rfl, ?_⟩
  rintro ⟨h1, _⟩
  dsimp only at h1
  nlinarith [sq_nonneg p.mom.x, sq_nonneg p.mom.y, sq_nonneg p.mom.z, pow_pos hm 2]

example : ∃ q, flow 1 0 5 ⟨0x2212, ⟨1, 0, 0, 0⟩, ⟨0, 0, 0, 1⟩, 0⟩ = .ok q ∧
    MassShell 1 (⟨1, 0, 0, 0⟩ : V4) := by
  have h : ∃ q, flow 1 0 5 ⟨0x2212, ⟨1, 0, 0, 0⟩, ⟨0, 0, 0, 1⟩, 0⟩ = .ok q := by
    unfold flow flowVelocity
    rw [if_neg]
    · exact ⟨_, rfl⟩
    · unfold V4.vec V3.sqr V3.dot
      rw [Real.sqrt_eq_zero']
      norm_num
  obtain ⟨q, hq⟩ := h
  exact ⟨q, hq, by unfold MassShell; norm_num⟩

/-- **C122** (jets). One jet carries its momentum along x from its place; two of them are a particle and
its antiparticle, with opposite momenta, separated by the given distance around that place. Nothing else is
changed. -/
theorem C122_jets (C : Cfg) (v0 n : ℝ) (ds : List Draw) (r : List Part) (t : ℝ) (j : Jet)
    (h : sphere C v0 n none ds = .ok (r, t)) :
    ∃ a, a.pdg = j.pdg ∧ a.form = C.start ∧ a.pos.t = C.start ∧ MassShell (C.mass j.pdg) a.mom ∧
      a.mom.vec = ⟨j.mom, 0, 0⟩ ∧
      (j.back = false → sphere C v0 n (some j) ds = .ok (r ++ [a], t) ∧ a.pos.vec = j.pos) ∧
      (j.back = true → ∃ b, sphere C v0 n (some j) ds = .ok (r ++ [a, b], t) ∧
        b.pdg = (if Pdg.hasAntiparticle j.pdg then Pdg.getAntiparticle j.pdg else j.pdg) ∧
        b.form = C.start ∧ b.pos.t = C.start ∧ MassShell (C.mass b.pdg) b.mom ∧
        a.mom.x + b.mom.x = 0 ∧ a.mom.y + b.mom.y = 0 ∧ a.mom.z + b.mom.z = 0 ∧
        a.pos.x - b.pos.x = j.separation ∧ a.pos.x + b.pos.x = 2 * j.pos.x ∧
        a.pos.y = j.pos.y ∧ b.pos.y = j.pos.y ∧ a.pos.z = j.pos.z ∧ b.pos.z = j.pos.z) := by
  have key : sphere C v0 n (some j) ds = .ok (r ++ sphereJets C (some j), t) := by
    unfold sphere at h
    obtain ⟨l0, h0, h⟩ := bind_ok h
    obtain ⟨lt, h1, h⟩ := bind_ok h
    obtain ⟨l2, h2, h⟩ := bind_ok h
    simp only [sphereJets, List.append_nil, Except.ok.injEq, Prod.mk.injEq] at h
    obtain ⟨rfl, rfl⟩ := h
    unfold sphere
    rw [h0]
    refine (congrArg (fun e : Except Err (List Part × V4) => e >>= fun lt =>
      (recenter lt.2 lt.1 >>= fun l => Except.ok (l ++ sphereJets C (some j), C.start))) h1).trans ?_
    show (recenter lt.2 lt.1 >>= _) = _
    rw [h2]
    rfl
  rw [key, sphereJets]
  dsimp only
  refine ⟨⟨j.pdg, Coll.onShell (C.mass j.pdg) ⟨j.mom, 0, 0⟩, V4.mk' C.start (j.pos.add
    ⟨(if j.back then j.separation else 0) / 2, 0, 0⟩), C.start⟩, rfl, rfl, rfl, (onShell_spec _ _).1, rfl,
    ?_, ?_⟩
  · intro hb
    rw [hb]
    refine ⟨rfl, ?_⟩
    unfold V4.vec V4.mk' V3.add
    ext <;> simp
  · intro hb
    rw [hb]
    refine ⟨_, rfl, rfl, rfl, rfl, (onShell_spec _ _).1, ?_, ?_, ?_, ?_, ?_, ?_, ?_, ?_, ?_⟩ <;>
      simp only [Coll.onShell, V4.mk', V3.add, V3.sub, if_true] <;> ring

end Verif.Ini
