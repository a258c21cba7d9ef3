import Verif.Ini.Model
import Verif.Coll.Nuc
import Mathlib.Tactic.Linarith
import Mathlib.Tactic.Ring
import Mathlib.Tactic.Positivity
import Mathlib.Tactic.LinearCombination
/-! C121, C122: particles in box and sphere are set up as configured. -/
namespace Verif.Ini
open Verif.Kin

theorem bind_ok {ε α β : Type} {x : Except ε α} {f : α → Except ε β} {y : β} (h : (x >>= f) = .ok y) :
    ∃ a, x = .ok a ∧ f a = .ok y := by
  cases x with
  | error e => cases h
  | ok a => exact ⟨a, rfl, h⟩

/-! ### Specification -/

/-- Sum of the three-momenta. -/
def totalMom (l : List Part) : ℝ × ℝ × ℝ :=
  ((l.map (·.mom.x)).sum, (l.map (·.mom.y)).sum, (l.map (·.mom.z)).sum)

/-- On the mass shell with positive energy. -/
def MassShell (m : ℝ) (p : V4) : Prop := p.t ^ 2 = m ^ 2 + p.x ^ 2 + p.y ^ 2 + p.z ^ 2 ∧ 0 ≤ p.t

/-- The number of particles of a species the user asked for. -/
def asked (mults : List (Nat × Nat)) (pdg : Nat) : Nat :=
  ((mults.filter fun e => e.1 = pdg).map (·.2)).sum

/-- Random numbers as the generator gives them. -/
def Drawn (d : Draw) : Prop :=
  (0 ≤ d.u.1 ∧ d.u.1 < 1) ∧ (0 ≤ d.u.2.1 ∧ d.u.2.1 < 1) ∧ (0 ≤ d.u.2.2 ∧ d.u.2.2 < 1) ∧
    InRange d.dir ∧ InRange d.posDir

/-! ### Lemmas -/

theorem onShell_spec (m : ℝ) (v : V3) : MassShell m (Coll.onShell m v) ∧ (Coll.onShell m v).vec = v := by
  unfold MassShell Coll.onShell V4.mk' V3.dot V4.vec
  dsimp only
  refine ⟨⟨?_, Real.sqrt_nonneg _⟩, rfl⟩
  have h : 0 ≤ m * m + (v.x * v.x + v.y * v.y + v.z * v.z) := by
    have h1 := mul_self_nonneg m
    have h2 := mul_self_nonneg v.x
    have h3 := mul_self_nonneg v.y
    have h4 := mul_self_nonneg v.z
    linarith
  rw [Real.sq_sqrt h]
  ring

theorem shell_sqr {m : ℝ} {p : V4} (h : MassShell m p) : p.sqr = m ^ 2 := by
  unfold V4.sqr V4.dot V4.vec V3.dot
  have := h.1
  dsimp only
  linarith

theorem fill_spec {f : Nat → Draw → Except Err Part} (hf : ∀ s d p, f s d = .ok p → p.pdg = s) :
    ∀ {ss : List Nat} {ds : List Draw} {ps : List Part}, fill f ss ds = .ok ps →
      ps.map (·.pdg) = ss ∧ ∀ p ∈ ps, ∃ d ∈ ds, f p.pdg d = .ok p := by
  intro ss
  induction ss with
  | nil =>
    intro ds ps h
    cases h
    exact ⟨rfl, fun p hp => absurd hp List.not_mem_nil⟩
  | cons s ss ih =>
    intro ds ps h
    cases ds with
    | nil => cases h
    | cons d ds =>
      rw [fill] at h
      obtain ⟨p, h1, h⟩ := bind_ok h
      obtain ⟨qs, h2, h⟩ := bind_ok h
      cases h
      obtain ⟨e, k⟩ := ih h2
      have hp := hf _ _ _ h1
      refine ⟨by rw [List.map_cons, e, hp], ?_⟩
      intro q hq
      rcases List.mem_cons.1 hq with rfl | hq
      · exact ⟨d, List.mem_cons_self, by rw [hp]; exact h1⟩
      · obtain ⟨d', hd', e'⟩ := k q hq
        exact ⟨d', List.mem_cons_of_mem _ hd', e'⟩

theorem place_spec {pos : ℝ → Draw → V3} {C : Cfg} {pdg : Nat} {d : Draw} {p : Part}
    (h : place pos C pdg d = .ok p) :
    p.pdg = pdg ∧ p.pos = V4.mk' C.start (pos C.size d) ∧ p.form = C.start ∧
      ∃ m q, radial C pdg d = .ok (m, q) ∧ p.mom = Coll.onShell m (d.dir.threevec.smul q) := by
  unfold place at h
  obtain ⟨⟨m, q⟩, h1, h⟩ := bind_ok h
  cases h
  exact ⟨rfl, rfl, rfl, m, q, h1, rfl⟩

theorem radial_mass {C : Cfg} {pdg : Nat} {d : Draw} {m q : ℝ} (h : radial C pdg d = .ok (m, q)) :
    m = if C.distr = .boltzmann ∧ C.widths = true then d.mass else C.mass pdg := by
  unfold radial at h
  cases hd : C.distr <;> rw [hd] at h <;> dsimp only at h
  · cases h; rw [if_neg (by simp)]
  · obtain ⟨p, _, h⟩ := bind_ok h
    cases h
    simp
  · obtain ⟨p, _, h⟩ := bind_ok h
    cases h; rw [if_neg (by simp)]
  · cases h; rw [if_neg (by simp)]
  · obtain ⟨p, _, h⟩ := bind_ok h
    cases h; rw [if_neg (by simp)]
  · obtain ⟨p, _, h⟩ := bind_ok h
    cases h; rw [if_neg (by simp)]
  · obtain ⟨p, _, h⟩ := bind_ok h
    cases h; rw [if_neg (by simp)]

theorem count_asked (mults : List (Nat × Nat)) (t pdg : Nat) :
    (mults.flatMap fun e => List.replicate (e.2 * t) e.1).count pdg = asked mults pdg * t := by
  unfold asked
  induction mults with
  | nil => simp
  | cons e l ih =>
    rw [List.flatMap_cons, List.count_append, ih, List.filter_cons, List.count_replicate]
    by_cases h : e.1 = pdg
    · simp only [h, beq_self_eq_true, if_true, decide_true, List.map_cons, List.sum_cons]; ring
    · simp [h]

theorem count_species (C : Cfg) (pdg : Nat) : (species C).count pdg =
    if C.thermalMult then asked C.drawn pdg else asked C.mults pdg * C.testparticles := by
  unfold species
  split
  · have := count_asked C.drawn 1 pdg
    simp only [Nat.mul_one] at this
    exact this
  · exact count_asked ..

/-- Everything the shift of the momenta does. -/
theorem recenter_spec {total : V4} {l r : List Part} (h : recenter total l = .ok r) :
    r.length = l.length ∧ r.map (·.pdg) = l.map (·.pdg) ∧
    (∀ q ∈ r, ∃ p ∈ l, q.pdg = p.pdg ∧ q.pos = p.pos ∧ q.form = p.form ∧
      (∀ m, 0 ≤ m → MassShell m p.mom → MassShell m q.mom)) ∧
    (l ≠ [] → totalMom r = ((totalMom l).1 - total.x, (totalMom l).2.1 - total.y,
      (totalMom l).2.2 - total.z)) := by
  unfold recenter at h
  split at h
  · cases h
  · cases h
    refine ⟨by simp, by simp [Function.comp_def], ?_, ?_⟩
    · intro q hq
      obtain ⟨p, hp, rfl⟩ := List.mem_map.1 hq
      refine ⟨p, hp, rfl, rfl, rfl, ?_⟩
      intro m hm hs
      have : Real.sqrt |p.mom.sqr| = m := by
        rw [shell_sqr hs, abs_of_nonneg (sq_nonneg m), Real.sqrt_sq hm]
      rw [this]
      exact (onShell_spec m _).1
    · intro hl
      have hn : (l.length : ℝ) ≠ 0 := by
        have : l.length ≠ 0 := by simpa using hl
        exact_mod_cast this
      unfold totalMom
      simp only [List.map_map, Function.comp_def, Coll.onShell, V4.mk', V3.sub, V3.div, V3.smul, V4.vec]
      refine Prod.ext ?_ (Prod.ext ?_ ?_) <;> dsimp only <;> rw [Coll.sum_sub_const] <;> field_simp

theorem sum4_total (l : List Part) : let s := Coll.sum4 (l.map (·.mom))
    (s.x, s.y, s.z) = totalMom l := by
  dsimp only
  rw [Coll.sum4_comp]
  simp only [List.map_map, Function.comp_def, totalMom]

/-! ### C121 -/

/-- The mass a particle was given: its pole mass, or the mass drawn for it. -/
def GivenMass (C : Cfg) (ds : List Draw) (pdg : Nat) (m : ℝ) : Prop :=
  if C.distr = .boltzmann ∧ C.widths = true then ∃ d ∈ ds, m = d.mass else m = C.mass pdg

/-- **C121** (box). The initial state of a box holds the configured number of every species times the
number of test particles (or the numbers drawn), all of them at the starting time at a place in the box and
formed, on their mass shells, and with total momentum zero. -/
theorem C121_box (C : Cfg) (ds : List Draw) (l : List Part) (t : ℝ) (hds : ∀ d ∈ ds, Drawn d)
    (hL : 0 < C.size) (hm : ∀ s, 0 ≤ C.mass s) (hw : ∀ d ∈ ds, 0 ≤ d.mass)
    (h : box C none ds = .ok (l, t)) :
    t = C.start ∧
    (∀ s, (l.map (·.pdg)).count s =
      if C.thermalMult then asked C.drawn s else asked C.mults s * C.testparticles) ∧
    (∀ p ∈ l, p.form = C.start ∧ p.pos.t = C.start ∧ 0 ≤ p.pos.x ∧ p.pos.x < C.size ∧
      0 ≤ p.pos.y ∧ p.pos.y < C.size ∧ 0 ≤ p.pos.z ∧ p.pos.z < C.size ∧
      ∃ m, GivenMass C ds p.pdg m ∧ MassShell m p.mom) ∧
    totalMom l = (0, 0, 0) := by
  unfold box at h
  obtain ⟨l0, h0, h⟩ := bind_ok h
  obtain ⟨l1, h1, h⟩ := bind_ok h
  simp only [boxJet, List.append_nil, Except.ok.injEq, Prod.mk.injEq] at h
  obtain ⟨rfl, rfl⟩ := h
  obtain ⟨e0, k0⟩ := fill_spec (fun s d p hp => (place_spec hp).1) h0
  obtain ⟨_, e1, k1, s1⟩ := recenter_spec h1
  refine ⟨rfl, ?_, ?_, ?_⟩
  · intro s
    rw [e1, e0, count_species]
  · intro q hq
    obtain ⟨p, hp, a, b, c, d⟩ := k1 q hq
    obtain ⟨dr, hdr, hpl⟩ := k0 p hp
    obtain ⟨_, i, j, m, r, hr, hmom⟩ := place_spec hpl
    obtain ⟨⟨u1, u2⟩, ⟨u3, u4⟩, ⟨u5, u6⟩, _⟩ := hds dr hdr
    rw [b, c, j, i]
    unfold boxPos V4.mk' Rand.uniform
    dsimp only
    refine ⟨rfl, rfl, by nlinarith, by nlinarith, by nlinarith, by nlinarith, by nlinarith, by nlinarith,
      m, ?_, ?_⟩
    · have := radial_mass hr
      unfold GivenMass
      split
      · rename_i hc
        rw [if_pos hc] at this
        exact ⟨dr, hdr, this⟩
      · rename_i hc
        rw [if_neg hc] at this
        rw [a, this]
    · refine d m ?_ (by rw [hmom]; exact (onShell_spec _ _).1)
      rw [radial_mass hr]
      split
      · exact hw dr hdr
      · exact hm _
  · by_cases hl : l0 = []
    · subst hl
      have : l1 = [] := by simpa using e1
      subst this
      simp [totalMom]
    · rw [s1 hl]
      have := sum4_total l0
      simp only [Prod.ext_iff] at this
      obtain ⟨a, b, c⟩ := this
      rw [← a, ← b, ← c]
      simp

theorem fill_ok {f : Nat → Draw → Except Err Part} (hf : ∀ s d, ∃ p, f s d = .ok p) :
    ∀ {ss : List Nat} {ds : List Draw}, ss.length ≤ ds.length → ∃ ps, fill f ss ds = .ok ps := by
  intro ss
  induction ss with
  | nil => intro ds _; exact ⟨[], rfl⟩
  | cons s ss ih =>
    intro ds h
    cases ds with
    | nil => simp at h
    | cons d ds =>
      obtain ⟨p, hp⟩ := hf s d
      obtain ⟨ps, hps⟩ := ih (ds := ds) (by simpa using h)
      refine ⟨p :: ps, ?_⟩
      rw [fill, hp]
      show (fill f ss ds >>= _) = _
      rw [hps]
      rfl

/-- Shifting the momenta never throws for particles on their mass shells. -/
theorem recenter_ok (total : V4) (l : List Part) (h : ∀ p ∈ l, ∃ m, MassShell m p.mom) :
    ∃ r, recenter total l = .ok r := by
  unfold recenter
  rw [if_neg]
  · exact ⟨_, rfl⟩
  · rintro ⟨p, hp, hs⟩
    obtain ⟨m, hm⟩ := h p hp
    rw [shell_sqr hm] at hs
    have := sq_nonneg m
    linarith

/-- **C121** (defined). The initial state is always found if all momenta are: the shift of the momenta
does not throw. -/
theorem C121_defined (C : Cfg) (ds : List Draw) (l0 : List Part) (jet : Option (Nat × ℝ))
    (h : fill (place boxPos C) (species C) ds = .ok l0) : ∃ l, box C jet ds = .ok (l, C.start) := by
  obtain ⟨_, k0⟩ := fill_spec (fun s d p hp => (place_spec hp).1) h
  obtain ⟨r, hr⟩ := recenter_ok (Coll.sum4 (l0.map (·.mom))) l0 (by
    intro p hp
    obtain ⟨d, _, hd⟩ := k0 p hp
    obtain ⟨_, _, _, m, q, _, e⟩ := place_spec hd
    exact ⟨m, by rw [e]; exact (onShell_spec _ _).1⟩)
  refine ⟨r ++ boxJet C jet, ?_⟩
  unfold box
  rw [h]
  show (recenter _ l0 >>= _) = _
  rw [hr]
  rfl

/-- **C121** (peaked momenta). With this configuration the box is set up with one draw per particle. -/
theorem C121_peaked (C : Cfg) (hC : C.distr = .peaked) (ds : List Draw)
    (hn : (species C).length ≤ ds.length) (jet : Option (Nat × ℝ)) :
    ∃ l, box C jet ds = .ok (l, C.start) := by
  obtain ⟨l0, h0⟩ := fill_ok (f := place boxPos C) (by
    intro s d
    unfold place radial
    rw [hC]
    exact ⟨_, rfl⟩) hn
  exact C121_defined C ds l0 jet h0

/-- A box of 10 fm with two pi0 and one proton, three test particles each. -/
noncomputable def sampleBox : Cfg :=
  ⟨15 / 100, 10, 0, .peaked, false, false, [(0x111, 2), (0x2212, 1)], [], 3,
    fun s => if s = 0x111 then 138 / 1000 else 938 / 1000, fun _ => 0, fun _ => ⟨0, 0⟩, fun _ => 0⟩

/-- A draw in the middle of everything. -/
noncomputable def middle : Draw := ⟨0, [], [], (1, 1, 1, 1), ⟨0, 0⟩, (1 / 2, 1 / 2, 1 / 2), ⟨0, 0⟩⟩

theorem middle_drawn : Drawn middle := by
  have := Real.pi_pos
  unfold Drawn middle InRange
  norm_num
  linarith

example : ∃ l, box sampleBox none (List.replicate 9 middle) = .ok (l, 0) ∧
    (l.map (·.pdg)).count 0x111 = 6 ∧ (l.map (·.pdg)).count 0x2212 = 3 ∧ totalMom l = (0, 0, 0) := by
  obtain ⟨l, hl⟩ := C121_peaked sampleBox rfl (List.replicate 9 middle) (by decide) none
  have hd : ∀ d ∈ List.replicate 9 middle, d = middle := fun d hd => List.eq_of_mem_replicate hd
  obtain ⟨_, a, _, c⟩ := C121_box sampleBox _ l _ (fun d h => by rw [hd d h]; exact middle_drawn)
    (by norm_num [sampleBox]) (by intro s; unfold sampleBox; dsimp only; split <;> norm_num)
    (fun d h => by rw [hd d h]; norm_num [middle]) hl
  exact ⟨l, hl, a _, a _, c⟩

/-- **C121** (jet). A jet adds one particle, which carries the configured momentum along x. The total
momentum is then that of the jet. -/
theorem C121_jet (C : Cfg) (ds : List Draw) (l : List Part) (t : ℝ) (s : Nat) (pj : ℝ) :
    box C (some (s, pj)) ds = .ok (l, t) ↔ ∃ r j, box C none ds = .ok (r, t) ∧ l = r ++ [j] ∧
      j.pdg = s ∧ j.form = C.start ∧ j.pos = ⟨C.start, 0, 0, 0⟩ ∧
      j.mom = ⟨Real.sqrt (C.mass s ^ 2 + pj ^ 2), pj, 0, 0⟩ := by
  have hj : Coll.onShell (C.mass s) ⟨pj, 0, 0⟩ = ⟨Real.sqrt (C.mass s ^ 2 + pj ^ 2), pj, 0, 0⟩ := by
    unfold Coll.onShell V4.mk' V3.dot
    dsimp only
    congr 2
    ring
  constructor
  · intro h
    unfold box at h
    obtain ⟨l0, h0, h⟩ := bind_ok h
    obtain ⟨l1, h1, h⟩ := bind_ok h
    simp only [boxJet, Except.ok.injEq, Prod.mk.injEq] at h
    obtain ⟨rfl, rfl⟩ := h
    refine ⟨l1, _, ?_, rfl, rfl, rfl, rfl, hj⟩
    unfold box
    rw [h0]
    show (recenter _ l0 >>= _) = _
    rw [h1]
    show Except.ok _ = _
    rw [boxJet, List.append_nil]
  · rintro ⟨r, ⟨j1, j2, j3, j4⟩, h, rfl, e1, e2, e3, e4⟩
    simp only at e1 e2 e3 e4
    subst e1 e2 e3 e4
    unfold box at h ⊢
    obtain ⟨l0, h0, h⟩ := bind_ok h
    obtain ⟨l1, h1, h⟩ := bind_ok h
    simp only [boxJet, List.append_nil, Except.ok.injEq, Prod.mk.injEq] at h
    obtain ⟨rfl, rfl⟩ := h
    rw [h0]
    show (recenter _ l0 >>= _) = _
    rw [h1]
    show Except.ok _ = _
    rw [boxJet, hj]

/-- **C121**, not as announced: the jet is said to be added in the middle of the box; it starts in a
corner. -/
theorem C121_jet_place_false (C : Cfg) (ds : List Draw) (l : List Part) (t : ℝ) (s : Nat) (pj : ℝ)
    (hL : 0 < C.size) (h : box C (some (s, pj)) ds = .ok (l, t)) :
    ∃ j ∈ l, j.pdg = s ∧ j.pos.vec = ⟨0, 0, 0⟩ ∧ j.pos.vec ≠ ⟨C.size / 2, C.size / 2, C.size / 2⟩ := by
  obtain ⟨r, j, _, rfl, e1, _, e3, _⟩ := (C121_jet C ds l t s pj).1 h
  refine ⟨j, by simp, e1, by rw [e3]; rfl, ?_⟩
  rw [e3]
  unfold V4.vec
  intro hc
  have := congrArg V3.x hc
  simp only at this
  linarith

end Verif.Ini
