import Verif.Deform.Shape

/-! Configuration and orientation of deformed nuclei: C163. -/

namespace Verif.Deform
open Verif.Kin Real

/-- The nuclei with known deformation: A, Z, β₂, β₄. -/
noncomputable def known : List ((ℕ × ℕ) × (ℝ × ℝ)) :=
  [((238, 92), 0.28, 0.093), ((208, 82), 0, 0), ((197, 79), -0.131, -0.031), ((129, 54), 0.162, -0.003),
    ((63, 29), 0.162, -0.006), ((96, 40), 0, 0), ((96, 44), 0.158, 0)]

theorem deformation_eq (A Z : ℕ) (b : ℝ × ℝ) : deformation A Z = some b ↔ ((A, Z), b) ∈ known := by
  unfold deformation known
  obtain ⟨b2, b4⟩ := b
  simp only [List.mem_cons, List.not_mem_nil, or_false, Prod.mk.injEq]
  constructor
  · intro h
    split_ifs at h <;> simp only [Option.some.injEq, Prod.mk.injEq, reduceCtorEq] at h <;> obtain ⟨rfl, rfl⟩ := h <;>
      subst_vars <;> norm_num
  · rintro (⟨⟨rfl, rfl⟩, rfl, rfl⟩ | ⟨⟨rfl, rfl⟩, rfl, rfl⟩ | ⟨⟨rfl, rfl⟩, rfl, rfl⟩ | ⟨⟨rfl, rfl⟩, rfl, rfl⟩ |
      ⟨⟨rfl, rfl⟩, rfl, rfl⟩ | ⟨⟨rfl, rfl⟩, rfl, rfl⟩ | ⟨⟨rfl, rfl⟩, rfl, rfl⟩) <;> norm_num

/-- **C163.** A deformed nucleus is created exactly if Diffusiveness, Radius and Saturation_Density are given all or
not at all, an automatic deformation comes without parameters and for a known nucleus, and a manual one with some β, and
with β₂ if γ is given. -/
theorem C163_accepted (s : Section) (t : ℕ) :
    (∃ n, create s t = .ok n) ↔
      (s.diff.isSome = s.radius.isSome ∧ s.radius.isSome = s.sat.isSome) ∧
      (s.automatic = true → s.beta2 = none ∧ s.beta3 = none ∧ s.beta4 = none ∧ s.gamma = none ∧
        ∃ b, ((s.A, s.Z), b) ∈ known) ∧
      (s.automatic = false → ¬(s.beta2 = none ∧ s.beta3 = none ∧ s.beta4 = none) ∧
        (s.gamma ≠ none → s.beta2 ≠ none)) := by
  have hd : (∃ b, ((s.A, s.Z), b) ∈ known) ↔ deformation s.A s.Z ≠ none := by
    constructor
    · rintro ⟨b, hb⟩
      rw [(deformation_eq _ _ b).2 hb]
      simp
    · intro h
      obtain ⟨b, hb⟩ := Option.ne_none_iff_exists'.1 h
      exact ⟨b, (deformation_eq _ _ b).1 hb⟩
  rw [hd]
  obtain ⟨A, Z, d, r, rho, au, b2, b3, b4, g⟩ := s
  unfold create construct
  cases hx : deformation A Z <;> cases au <;> cases d <;> cases r <;> cases rho <;> cases b2 <;> cases b3 <;> cases b4 <;>
    cases g <;> simp [base, hx]

/-- **C163.** The nucleus has the parameters of the configuration: radius and diffusiveness as given, manual deformation
parameters as given and 0 otherwise, automatic ones from the table of known nuclei without triaxiality and β₃. -/
theorem C163_parameters {s : Section} {t : ℕ} {n : Nucleus} (h : create s t = .ok n) :
    n.A = s.A ∧
    (∀ r d, s.radius = some r → s.diff = some d → n.radius = r ∧ n.diff = d) ∧
    (s.radius = none → (n.radius, n.diff) = woodsSaxon s.A s.Z t) ∧
    (s.automatic = true → ((s.A, s.Z), n.beta2, n.beta4) ∈ known ∧ n.beta3 = 0 ∧ n.gamma = 0) ∧
    (s.automatic = false → n.beta2 = s.beta2.getD 0 ∧ n.beta3 = s.beta3.getD 0 ∧ n.beta4 = s.beta4.getD 0 ∧
      n.gamma = s.gamma.getD 0) := by
  have hb : ∀ m, base s t = .ok m → m.A = s.A ∧
      (∀ r d, s.radius = some r → s.diff = some d → m.radius = r ∧ m.diff = d) ∧
      (s.radius = none → (m.radius, m.diff) = woodsSaxon s.A s.Z t) ∧ m.beta2 = 0 ∧ m.beta3 = 0 ∧ m.beta4 = 0 ∧
      m.gamma = 0 := by
    intro m hm
    unfold base at hm
    split at hm
    · rename_i d r rho h1 h2 h3
      cases hm
      refine ⟨rfl, ?_, ?_, rfl, rfl, rfl, rfl⟩
      · intro r' d' hr hd
        rw [h2] at hr; rw [h1] at hd
        cases hr; cases hd
        exact ⟨rfl, rfl⟩
      · intro hr; rw [h2] at hr; cases hr
    · rename_i h1 h2 h3
      cases hm
      refine ⟨rfl, ?_, fun _ => rfl, rfl, rfl, rfl, rfl⟩
      intro r d hr
      rw [h2] at hr; cases hr
    · cases hm
  unfold create at h
  simp only at h
  split_ifs at h
  unfold construct at h
  cases hm : base s t with
  | error e => rw [hm] at h; cases h
  | ok m =>
    rw [hm] at h
    obtain ⟨h1, h2, h3, h4, h5, h6, h7⟩ := hb m hm
    simp only at h
    split_ifs at h with ha
    · cases hd : deformation s.A s.Z with
      | none => rw [hd] at h; cases h
      | some b =>
        rw [hd] at h
        cases h
        exact ⟨h1, h2, h3, fun _ => ⟨(deformation_eq _ _ _).1 hd, h5, h7⟩, fun hc => (by rw [ha] at hc; cases hc)⟩
    · cases h
      refine ⟨h1, h2, h3, fun hc => absurd hc ha, fun _ => ?_⟩
      simp [h4, h5, h6, h7]

/-- A uranium nucleus whose deformation is set automatically. -/
noncomputable def uranium : Section := ⟨238, 92, none, none, none, true, none, none, none, none⟩

example : ∃ n, create uranium 1 = .ok n ∧ n.radius = 6.86 ∧ n.beta2 = 0.28 := by
  obtain ⟨n, hn⟩ := (C163_accepted uranium 1).2 (by
    refine ⟨⟨rfl, rfl⟩, fun _ => ⟨rfl, rfl, rfl, rfl, (0.28, 0.093), ?_⟩, fun h => ?_⟩
    · simp [known, uranium]
    · cases h)
  obtain ⟨-, -, h3, h4, -⟩ := C163_parameters hn
  have e := h3 rfl
  have k := (h4 rfl).1
  refine ⟨n, hn, ?_, ?_⟩
  · have : n.radius = (woodsSaxon 238 92 1).1 := congrArg Prod.fst e
    rw [this]
    norm_num [woodsSaxon]
  · have : deformation 238 92 = some (n.beta2, n.beta4) := (deformation_eq _ _ _).2 k
    unfold deformation at this
    simp only [if_true] at this
    have : (28 / 100 : ℝ) = n.beta2 := congrArg Prod.fst (Option.some.inj this)
    rw [← this]
    norm_num

/-- **C163.** A saturation density given by the user has no effect if the deformation is automatic: it is overwritten.
-/
theorem C163_overwritten_false (r d : ℝ) (rho : ℝ) :
    ∃ n, create ⟨238, 92, some d, some r, some rho, true, none, none, none, none⟩ 1 = .ok n ∧
      create ⟨238, 92, some d, some r, some (rho + 1), true, none, none, none, none⟩ 1 = .ok n := by
  simp only [create, construct, base, deformation, Option.isSome_none, Bool.or_self, Bool.and_false,
    Bool.false_eq_true, if_false, Bool.not_true, Bool.false_and, if_true]
  exact ⟨_, rfl, rfl⟩

/-! ### Orientation -/

/-- Rotation about the x axis. -/
noncomputable def rotX (a : V3) (t : ℝ) : V3 := ⟨a.x, cos t * a.y - sin t * a.z, sin t * a.y + cos t * a.z⟩

/-- Rotation about the z axis. -/
noncomputable def rotZ (a : V3) (t : ℝ) : V3 := ⟨cos t * a.x - sin t * a.y, sin t * a.x + cos t * a.y, a.z⟩

/-- **C163.** Angles together with a random rotation are refused. Given angles, 0 by default, turn the nucleus by Phi
about the z axis, by Theta about the rotated x axis and by Psi about the rotated z axis. For a random rotation the axis
of the nucleus points into a direction whose cosine is uniform in [-1, 1] and whose azimuth is uniform: all
directions are equally likely. -/
theorem C163_orientation (o : Orientation) (u v w : ℝ) (hv : 0 ≤ v) (hv1 : v ≤ 1) :
    ((∃ e, orient o = .error e) ↔ o.random = true ∧ ¬(o.theta = none ∧ o.phi = none ∧ o.psi = none)) ∧
    (∀ r, orient o = .ok r →
      (o.random = false → ∀ a : V3, a.rotate (angles r u v w).1 (angles r u v w).2.1 (angles r u v w).2.2 =
        rotZ (rotX (rotZ a (o.psi.getD 0)) (o.theta.getD 0)) (o.phi.getD 0)) ∧
      (o.random = true → (V3.mk 0 0 1).rotate (angles r u v w).1 (angles r u v w).2.1 (angles r u v w).2.2 =
        ⟨√(1 - (2 * v - 1) ^ 2) * cos (2 * π * u - π / 2), √(1 - (2 * v - 1) ^ 2) * sin (2 * π * u - π / 2),
          2 * v - 1⟩)) := by
  constructor
  · obtain ⟨b, t, p, q⟩ := o
    unfold orient
    cases b <;> cases t <;> cases p <;> cases q <;> simp
  · intro r hr
    have hr' : r = (o.random, o.theta.getD 0, o.phi.getD 0, o.psi.getD 0) := by
      unfold orient at hr
      split_ifs at hr
      exact (Except.ok.inj hr).symm
    subst hr'
    constructor
    · intro h0 a
      unfold angles
      simp only [h0, Bool.false_eq_true, if_false]
      unfold V3.rotate rotZ rotX
      ext <;> simp only <;> ring
    · intro h1
      unfold angles
      simp only [h1, if_true]
      unfold eulerAngles V3.rotate
      have hc : cos (arccos (2 * v - 1)) = 2 * v - 1 := cos_arccos (by linarith) (by linarith)
      have hs : sin (arccos (2 * v - 1)) = √(1 - (2 * v - 1) ^ 2) := sin_arccos _
      simp only [hc, hs, cos_sub_pi_div_two, sin_sub_pi_div_two]
      ext <;> simp only <;> ring

example : ∃ r, orient ⟨false, some 1, none, none⟩ = .ok r ∧ angles r 0 0 0 = (0, 1, 0) := ⟨_, rfl, rfl⟩

end Verif.Deform
