import Verif.Coll.Model
import Verif.Kin.Props
import Mathlib.Algebra.BigOperators.Group.List.Basic
import Mathlib.Algebra.BigOperators.Ring.List
import Mathlib.Tactic.Linarith
import Mathlib.Tactic.Ring
import Mathlib.Tactic.FieldSimp
import Mathlib.Tactic.Positivity
import Mathlib.Tactic.LinearCombination
/-! C91: nuclei are set up as configured. -/
namespace Verif.Coll
open Verif.Kin Real

theorem sum4_comp (l : List V4) : sum4 l =
    ⟨(l.map (·.t)).sum, (l.map (·.x)).sum, (l.map (·.y)).sum, (l.map (·.z)).sum⟩ := by
  induction l with
  | nil => rfl
  | cons a l ih =>
    rw [show sum4 (a :: l) = a.add (sum4 l) from rfl, ih]
    simp [V4.add]

theorem sum3_comp (l : List V3) : sum3 l = ⟨(l.map (·.x)).sum, (l.map (·.y)).sum, (l.map (·.z)).sum⟩ := by
  induction l with
  | nil => rfl
  | cons a l ih =>
    rw [show sum3 (a :: l) = a.add (sum3 l) from rfl, ih]
    simp [V3.add]

theorem sum_sub_const {α : Type} (l : List α) (f : α → ℝ) (c : ℝ) :
    (l.map fun a => f a - c).sum = (l.map f).sum - l.length * c := by
  induction l with
  | nil => simp
  | cons a l ih => simp only [List.map_cons, List.sum_cons, ih, List.length_cons]; push_cast; ring

theorem sum_lin3 {α : Type} (l : List α) (f g h : α → ℝ) (a b c : ℝ) :
    (l.map fun x => a * f x + b * g x + c * h x).sum =
      a * (l.map f).sum + b * (l.map g).sum + c * (l.map h).sum := by
  induction l with
  | nil => simp
  | cons x l ih => simp only [List.map_cons, List.sum_cons, ih]; ring

/-- The requested numbers of one species. -/
def requested (s : Species) (list : List (Species × ℝ × Nat)) : Nat :=
  ((list.filter fun e => e.1 = s).map fun e => e.2.2).sum

/-- **C91**, numbers: a nucleus contains the requested number of every species times the number of
test particles, and reports the requested numbers of particles and protons. -/
theorem C91_counts (list : List (Species × ℝ × Nat)) (t : Nat) (ht : 0 < t) :
    (∀ s, ((fillFromList list t).filter fun n => n.species = s).length = t * requested s list) ∧
    numberOfParticles (fillFromList list t) t = some (list.map fun e => e.2.2).sum ∧
    numberOfProtons (fillFromList list t) t = some (requested .proton list) := by
  have h2 : (fillFromList list t).length = (list.map fun e => e.2.2).sum * t := by
    unfold fillFromList
    induction list with
    | nil => simp
    | cons e l ih =>
      rw [List.flatMap_cons, List.length_append, ih]
      simp only [List.length_replicate, List.map_cons, List.sum_cons]; ring
  have h1 : ∀ s, ((fillFromList list t).filter fun n => n.species = s).length = t * requested s list := by
    intro s
    clear h2
    unfold fillFromList requested
    induction list with
    | nil => simp
    | cons e l ih =>
      rw [List.flatMap_cons, List.filter_append, List.length_append, ih, List.filter_replicate,
        List.filter_cons]
      by_cases h : e.1 = s
      · have h' : decide ((fresh e.1 e.2.1).species = s) = true := decide_eq_true h
        rw [h']
        simp only [if_true, h, decide_true, List.map_cons, List.sum_cons, List.length_replicate]
        ring
      · have h' : decide ((fresh e.1 e.2.1).species = s) = false := decide_eq_false h
        rw [h']
        simp [h]
  refine ⟨h1, ?_, ?_⟩
  · unfold numberOfParticles
    rw [h2]
    dsimp only
    rw [Nat.mul_div_cancel _ ht, if_neg (by simp)]
  · unfold numberOfProtons
    rw [h1 .proton]
    dsimp only
    rw [Nat.mul_div_cancel_left _ ht, if_neg (by simp [Nat.mul_comm])]

example : numberOfParticles (fillFromList [(.proton, 1, 79), (.neutron, 1, 118)] 20) 20 = some 197 :=
  (C91_counts _ 20 (by decide)).2.1

/-- The squared distance of two points. -/
def dist2 (a b : V3) : ℝ := (a.x - b.x) ^ 2 + (a.y - b.y) ^ 2 + (a.z - b.z) ^ 2

theorem rotate_dist (a b : V3) (p t q : ℝ) : dist2 (a.rotate p t q) (b.rotate p t q) = dist2 a b := by
  have h := (C67_rotations (a.sub b) (a.sub b) ⟨0, 0, 0⟩ p t q).1
  unfold inner3 V3.rotate V3.sub at h
  unfold dist2 V3.rotate
  simp only at h ⊢
  linear_combination h

theorem rotate_sum_zero {l : List Nuc} (p t q : ℝ) (h : sum3 (l.map fun n => n.pos.vec) = ⟨0, 0, 0⟩) :
    sum3 ((rotate p t q l).map fun n => n.pos.vec) = ⟨0, 0, 0⟩ := by
  unfold rotate
  split_ifs
  · rw [sum3_comp] at h ⊢
    simp only [List.map_map, Function.comp_def, V3.mk.injEq] at h ⊢
    obtain ⟨hx, hy, hz⟩ := h
    simp only [V4.vec, V4.mk', V3.rotate] at hx hy hz ⊢
    refine ⟨?_, ?_, ?_⟩ <;> rw [sum_lin3, hx, hy, hz] <;> ring
  · exact h

theorem rotate_get (p t q : ℝ) (l : List Nuc) : (rotate p t q l).length = l.length ∧
    ∀ i (h : i < l.length) (h' : i < (rotate p t q l).length),
      (rotate p t q l)[i].species = l[i].species ∧ (rotate p t q l)[i].mass = l[i].mass ∧
      (rotate p t q l)[i].mom = l[i].mom ∧ (rotate p t q l)[i].pos.t = l[i].pos.t ∧
      (rotate p t q l)[i].label = l[i].label ∧ (rotate p t q l)[i].form = l[i].form := by
  unfold rotate
  split_ifs
  · refine ⟨by simp, ?_⟩
    intro i h h'
    simp only [List.getElem_map]
    refine ⟨?_, ?_, ?_, ?_, ?_, ?_⟩ <;> first | trivial | rfl
  · exact ⟨rfl, fun i h h' => ⟨rfl, rfl, rfl, rfl, rfl, rfl⟩⟩

theorem rotate_get_dist (p t q : ℝ) (l : List Nuc) (i j : Nat) (hi : i < l.length) (hj : j < l.length)
    (hi' : i < (rotate p t q l).length) (hj' : j < (rotate p t q l).length) :
    dist2 (rotate p t q l)[i].pos.vec (rotate p t q l)[j].pos.vec = dist2 l[i].pos.vec l[j].pos.vec := by
  unfold rotate at *
  split_ifs at *
  · simp only [List.getElem_map]
    exact rotate_dist ..
  · rfl

/-- What `arrange_nucleons` puts in front of rotation and centering. -/
noncomputable def placed (draw : Nat → V3) (l : List Nuc) : List Nuc := l.mapIdx fun i n =>
    { n with mom := onShell n.mass ⟨0, 0, 0⟩, pos := V4.mk' 0 (draw i) }

/-- **C91**, positions: after arranging the nucleons, whatever was drawn, the nucleus contains the same
particles in the same order, all at rest with their pole masses and at time zero, their centre is
at the origin, and their distances are those of the positions drawn, for every orientation. -/
theorem C91_arrange (draw : Nat → V3) (phi theta psi : ℝ) (l : List Nuc) (hl : l ≠ []) :
    let r := arrange draw phi theta psi l
    r.length = l.length ∧ sum3 (r.map fun n => n.pos.vec) = ⟨0, 0, 0⟩ ∧
    (∀ i (h : i < l.length) (h' : i < r.length), r[i].species = l[i].species ∧ r[i].mass = l[i].mass ∧
      r[i].label = l[i].label ∧ (0 ≤ l[i].mass → r[i].mom = ⟨l[i].mass, 0, 0, 0⟩) ∧ r[i].pos.t = 0) ∧
    ∀ i j (hi : i < r.length) (hj : j < r.length),
      dist2 r[i].pos.vec r[j].pos.vec = dist2 (draw i) (draw j) := by
  intro r
  have hlen0 : (placed draw l).length = l.length := by simp [placed]
  have hlen1 : (alignCenter (placed draw l)).length = l.length := by simp [alignCenter, hlen0]
  have hn : (l.length : ℝ) ≠ 0 := by
    have : 0 < l.length := List.length_pos_iff.2 hl
    positivity
  have hr : r = rotate phi theta psi (alignCenter (placed draw l)) := rfl
  have hlen : r.length = l.length := by rw [hr, (rotate_get ..).1, hlen1]
  have hct : (center (placed draw l)).t = 0 := by
    unfold center
    rw [sum4_comp]
    simp only [List.map_map]
    have : ((placed draw l).map ((fun x : V4 => x.t) ∘ fun x : Nuc => x.pos)) =
        (placed draw l).map fun _ => (0 : ℝ) := by
      apply List.map_congr_left
      intro n hn
      unfold placed at hn
      rw [List.mem_mapIdx] at hn
      obtain ⟨i, hi, rfl⟩ := hn
      rfl
    rw [this]
    simp
  refine ⟨hlen, ?_, ?_, ?_⟩
  · rw [hr]
    apply rotate_sum_zero
    unfold alignCenter
    rw [sum3_comp]
    simp only [List.map_map, Function.comp_def, V4.vec, V4.sub]
    have e (f : Nuc → ℝ) : ((placed draw l).map fun n => f n -
        ((placed draw l).map f).sum / (placed draw l).length).sum = 0 := by
      rw [sum_sub_const, hlen0]
      field_simp
      ring
    unfold center
    rw [sum4_comp]
    simp only [List.map_map, Function.comp_def, V3.mk.injEq]
    exact ⟨e _, e _, e _⟩
  · intro i h h'
    have g := (rotate_get phi theta psi (alignCenter (placed draw l))).2 i (by rw [hlen1]; exact h)
      (by rw [(rotate_get ..).1, hlen1]; exact h)
    have e : ∀ hh, (alignCenter (placed draw l))[i]'hh =
        { l[i] with mom := onShell l[i].mass ⟨0, 0, 0⟩,
                    pos := (V4.mk' 0 (draw i)).sub (center (placed draw l)) } := by
      intro hh
      simp only [alignCenter, List.getElem_map]
      simp [placed]
    rw [e] at g
    obtain ⟨g1, g2, g3, g4, g5, -⟩ := g
    refine ⟨g1, g2, g5, ?_, ?_⟩
    · intro hm
      refine g3.trans ?_
      unfold onShell V4.mk' V3.dot
      simp [hm]
    · refine g4.trans ?_
      simp only [V4.sub, V4.mk', hct, sub_zero]
  · intro i j hi hj
    have hi0 : i < l.length := by rw [← hlen]; exact hi
    have hj0 : j < l.length := by rw [← hlen]; exact hj
    have g := rotate_get_dist phi theta psi (alignCenter (placed draw l)) i j (by rw [hlen1]; exact hi0)
      (by rw [hlen1]; exact hj0) hi hj
    refine g.trans ?_
    simp only [alignCenter, List.getElem_map]
    simp only [placed, List.getElem_mapIdx, dist2, V4.vec, V4.sub, V4.mk']
    ring

example : (fillFromList [(.proton, 1, 79), (.neutron, 1, 118)] 20) ≠ [] := by
  intro h
  have := (C91_counts [(.proton, 1, 79), (.neutron, 1, 118)] 20 (by decide)).2.1
  rw [h] at this
  simp [numberOfParticles] at this

/-! ### Fermi momenta -/

theorem filter_count (l : List Nuc) : (l.filter fun n => n.species = .neutron).length +
    (l.filter fun n => n.species = .proton).length = (l.filter (·.isNucleon)).length := by
  induction l with
  | nil => rfl
  | cons n l ih =>
    simp only [List.filter_cons, Nuc.isNucleon] at ih ⊢
    cases h : n.species <;> simp only [h, reduceCtorEq, decide_false, decide_true, or_false, or_true, false_or,
      Bool.false_eq_true, if_true, if_false, List.length_cons] <;> omega

/-- After the momenta are drawn. -/
def drawn (draw : Nat → V3) (l : List Nuc) : List Nuc :=
  l.mapIdx fun i n => if n.isNucleon then { n with mom := V4.mk' n.mom.t (draw i) } else n

theorem drawn_count (draw : Nat → V3) (l : List Nuc) :
    ((drawn draw l).filter (·.isNucleon)).length = (l.filter (·.isNucleon)).length := by
  unfold drawn
  induction l generalizing draw with
  | nil => rfl
  | cons n l ih =>
    rw [List.mapIdx_cons]
    simp only [List.filter_cons]
    have := ih (fun i => draw (i + 1))
    by_cases h : n.isNucleon = true
    · have h2 : ({ n with mom := V4.mk' n.mom.t (draw 0) } : Nuc).isNucleon = true := h
      simp only [h, if_true, h2, List.length_cons]
      exact congrArg (· + 1) this
    · simp only [h, Bool.false_eq_true, if_false]
      exact this

theorem fermi_eq (draw : Nat → V3) (l : List Nuc) : fermi draw l =
    if (l.filter (·.isNucleon)).length = 0 then drawn draw l
    else (drawn draw l).map fun n => if n.isNucleon then { n with mom := onShell n.mass (n.mom.vec.sub
      ((sum3 (((drawn draw l).filter (·.isNucleon)).map fun n => n.mom.vec)).div
        ((l.filter (·.isNucleon)).length : ℝ))) } else n := by
  unfold fermi
  simp only
  rw [filter_count]
  rfl

/-- **C91**, Fermi momenta: whatever was drawn, the nucleons of a nucleus have total momentum zero,
each is on its mass shell, their relative momenta are those drawn, and nothing else changes: other
particles keep their momenta, and positions, masses and labels stay. -/
theorem C91_fermi (draw : Nat → V3) (l : List Nuc) :
    let r := fermi draw l
    r.length = l.length ∧
    sum3 ((r.filter (·.isNucleon)).map fun n => n.mom.vec) = ⟨0, 0, 0⟩ ∧
    (∀ i (h : i < l.length) (h' : i < r.length), r[i].species = l[i].species ∧ r[i].mass = l[i].mass ∧
      r[i].label = l[i].label ∧ r[i].pos = l[i].pos ∧ (l[i].isNucleon = false → r[i] = l[i]) ∧
      (l[i].isNucleon = true → 0 ≤ r[i].mom.t ∧ minkowski r[i].mom r[i].mom = l[i].mass ^ 2)) ∧
    ∀ i j (hi : i < l.length) (hj : j < l.length) (hi' : i < r.length) (hj' : j < r.length),
      l[i].isNucleon = true → l[j].isNucleon = true →
      r[i].mom.vec.sub r[j].mom.vec = (draw i).sub (draw j) := by
  intro r
  have hd : (drawn draw l).length = l.length := by simp [drawn]
  have gd : ∀ i (h : i < l.length) (h' : i < (drawn draw l).length), (drawn draw l)[i] =
      if l[i].isNucleon then { l[i] with mom := V4.mk' l[i].mom.t (draw i) } else l[i] := by
    intro i h h'
    simp [drawn]
  by_cases h0 : (l.filter (·.isNucleon)).length = 0
  · have hr : r = drawn draw l := by
      show fermi draw l = _
      rw [fermi_eq, if_pos h0]
    have hno : ∀ i (h : i < l.length), l[i].isNucleon = false := by
      intro i h
      rw [List.length_eq_zero_iff, List.filter_eq_nil_iff] at h0
      have := h0 _ (List.getElem_mem h)
      simpa using this
    have hid : drawn draw l = l := by
      apply List.ext_getElem hd
      intro i h h'
      rw [gd i h' h, hno i h']
      simp
    rw [hid] at hr
    refine ⟨by rw [hr], ?_, ?_, ?_⟩
    · rw [hr, List.length_eq_zero_iff.1 h0]; rfl
    · intro i h h'
      have e : r[i] = l[i] := by simp only [hr]
      rw [e]
      refine ⟨rfl, rfl, rfl, rfl, fun _ => rfl, ?_⟩
      rw [hno i h]; simp
    · intro i j hi hj _ _ h
      rw [hno i hi] at h; simp at h
  · obtain ⟨c, hc⟩ : ∃ c, c = (sum3 (((drawn draw l).filter (·.isNucleon)).map fun n => n.mom.vec)).div
        ((l.filter (·.isNucleon)).length : ℝ) := ⟨_, rfl⟩
    have hr : r = (drawn draw l).map fun n =>
        if n.isNucleon then { n with mom := onShell n.mass (n.mom.vec.sub c) } else n := by
      show fermi draw l = _
      rw [fermi_eq, if_neg h0, hc]
    have hlen : r.length = l.length := by rw [hr, List.length_map, hd]
    have gr : ∀ i (h : i < l.length) (h' : i < r.length), r[i] =
        if l[i].isNucleon then { l[i] with mom := onShell l[i].mass ((draw i).sub c) } else l[i] := by
      intro i h h'
      simp only [hr, List.getElem_map]
      rw [gd i h]
      by_cases hn : l[i].isNucleon = true
      · have h2 : ({ l[i] with mom := V4.mk' l[i].mom.t (draw i) } : Nuc).isNucleon = true := hn
        simp only [hn, if_true, h2]
        rfl
      · simp [hn]
    refine ⟨hlen, ?_, ?_, ?_⟩
    · have hf : (r.filter (·.isNucleon)).map (fun n => n.mom.vec) =
          ((drawn draw l).filter (·.isNucleon)).map fun n => n.mom.vec.sub c := by
        rw [hr]
        generalize drawn draw l = d
        induction d with
        | nil => rfl
        | cons n d ih =>
          simp only [List.map_cons, List.filter_cons]
          by_cases hn : n.isNucleon = true
          · have h2 : ({ n with mom := onShell n.mass (n.mom.vec.sub c) } : Nuc).isNucleon = true := hn
            simp only [hn, if_true, h2, List.map_cons, ih]
            rfl
          · simp only [hn, Bool.false_eq_true, if_false]
            exact ih
      rw [hf]
      have hk : (((drawn draw l).filter (·.isNucleon)).length : ℝ) = ((l.filter (·.isNucleon)).length : ℝ) := by
        rw [drawn_count]
      have hk0 : ((l.filter (·.isNucleon)).length : ℝ) ≠ 0 := by exact_mod_cast h0
      generalize (drawn draw l).filter (·.isNucleon) = d at hc hk
      rw [sum3_comp] at hc ⊢
      simp only [List.map_map, Function.comp_def, V3.sub, V3.div, V3.smul] at hc ⊢
      rw [V3.mk.injEq]
      refine ⟨?_, ?_, ?_⟩ <;> rw [sum_sub_const, hk, hc] <;> field_simp <;> ring
    · intro i h h'
      rw [gr i h h']
      by_cases hn : l[i].isNucleon = true
      · simp only [hn, if_true]
        refine ⟨trivial, trivial, trivial, trivial, by simp, fun _ => ⟨Real.sqrt_nonneg _, ?_⟩⟩
        have hq : 0 ≤ l[i].mass * l[i].mass + ((draw i).sub c).dot ((draw i).sub c) := by
          unfold V3.dot
          have := mul_self_nonneg l[i].mass
          have := mul_self_nonneg ((draw i).sub c).x
          have := mul_self_nonneg ((draw i).sub c).y
          have := mul_self_nonneg ((draw i).sub c).z
          linarith
        have := Real.mul_self_sqrt hq
        unfold onShell minkowski V4.mk'
        simp only
        unfold V3.dot at *
        linear_combination this
      · simp [hn]
    · intro i j hi hj hi' hj' h1 h2
      rw [gr i hi hi', gr j hj hj']
      simp only [h1, h2, if_true]
      unfold onShell V4.mk' V4.vec V3.sub
      simp only [V3.mk.injEq]
      refine ⟨?_, ?_, ?_⟩ <;> ring

/-- **C91**, the size of a Fermi momentum: with density `rho` of all nucleons and `n` of `a` nucleons of
the same kind, the Fermi sphere of radius `ħc (3 π² ρ n/a)^(1/3)` is filled uniformly: the volume
fraction below the drawn momentum is the random number. -/
theorem C91_fermi_draw {rho u : ℝ} (n a : Nat) (hr : 0 ≤ rho) (hu : 0 ≤ u) (h1 : u ≤ 1) :
    0 ≤ fermiDraw rho u n a ∧ fermiDraw rho u n a ≤ fermiDraw rho 1 n a ∧
    fermiDraw rho u n a ^ 3 = u * fermiDraw rho 1 n a ^ 3 ∧
    fermiDraw rho 1 n a ^ 3 = (197327053 / 1000000000) ^ 3 * (3 * π ^ 2 * (rho * n / a)) := by
  have hc : (0 : ℝ) ≤ 3 * π * π * (rho * n / a) := by
    have := pi_pos
    positivity
  have hh : (0 : ℝ) ≤ hbarc := by unfold hbarc; norm_num
  have cube : ∀ u : ℝ, 0 ≤ u → fermiDraw rho u n a ^ 3 = hbarc ^ 3 * (3 * π * π * (rho * n / a) * u) := by
    intro u hu
    unfold fermiDraw
    rw [mul_pow, ← Real.rpow_natCast ((3 * π * π * (rho * n / a) * u) ^ ((1 : ℝ) / 3)) 3,
      ← Real.rpow_mul (mul_nonneg hc hu)]
    norm_num
  refine ⟨?_, ?_, ?_, ?_⟩
  · unfold fermiDraw
    exact mul_nonneg hh (Real.rpow_nonneg (mul_nonneg hc hu) _)
  · unfold fermiDraw
    exact mul_le_mul_of_nonneg_left (Real.rpow_le_rpow (mul_nonneg hc hu)
      (mul_le_mul_of_nonneg_left h1 hc) (by norm_num)) hh
  · rw [cube u hu, cube 1 (by norm_num)]; ring
  · rw [cube 1 (by norm_num)]; unfold hbarc; ring

/-- **C91**, boost: the boost of a nucleus with a velocity along the z-axis Lorentz-boosts every momentum
on its mass shell and contracts all distances along the z-axis by the Lorentz factor. -/
theorem C91_boost {beta : ℝ} (hb : beta ^ 2 < 1) (l : List Nuc)
    (hl : ∀ n ∈ l, 0 ≤ n.mom.t ∧ minkowski n.mom n.mom = n.mass ^ 2) :
    boostNucleus beta l = l.map fun n => { n with
      pos := ⟨n.pos.t, n.pos.x, n.pos.y, n.pos.z * √(1 - beta ^ 2)⟩
      mom := boost n.mom ⟨0, 0, -beta⟩ } := by
  unfold boostNucleus
  simp only
  apply List.map_congr_left
  intro n hn
  obtain ⟨ht, hm⟩ := hl n hn
  have hsub : Subluminal ⟨0, 0, -beta⟩ := by unfold Subluminal; simpa using hb
  have hbb : beta * beta = beta ^ 2 := by ring
  have hg : gamma ⟨0, 0, -beta⟩ = 1 / √(1 - beta ^ 2) := by
    unfold gamma V3.sqr V3.dot
    simp only [mul_zero, zero_add, neg_mul_neg, hbb]
    rw [if_pos hb]
  have hpos : 0 < 1 - beta ^ 2 := by linarith
  have hs := Real.sqrt_pos.2 hpos
  have hss := Real.sq_sqrt hpos.le
  have hiso := C29_isometry n.mom n.mom _ hsub
  have ht' : 0 ≤ (boost n.mom ⟨0, 0, -beta⟩).t := by
    rw [boost_t, hg]
    apply mul_nonneg (by positivity)
    simp only [mul_zero, zero_add, mul_neg, sub_neg_eq_add]
    have hz : n.mom.z ^ 2 ≤ n.mom.t ^ 2 := by
      unfold minkowski at hm
      nlinarith [sq_nonneg n.mom.x, sq_nonneg n.mom.y, sq_nonneg n.mass]
    have hz' : |n.mom.z| ≤ n.mom.t := abs_le_of_sq_le_sq hz ht
    have hb' : |beta| ≤ 1 := by
      rw [abs_le_one_iff_mul_self_le_one]; linarith
    have : |n.mom.z * beta| ≤ n.mom.t := by
      rw [abs_mul]
      calc |n.mom.z| * |beta| ≤ n.mom.t * 1 := mul_le_mul hz' hb' (abs_nonneg _) ht
        _ = n.mom.t := mul_one _
    linarith [neg_abs_le (n.mom.z * beta)]
  have hvec : (boost n.mom ⟨0, 0, -beta⟩).vec =
      ⟨n.mom.x, n.mom.y, 1 / √(1 - beta * beta) * (beta * n.mom.t + n.mom.z)⟩ := by
    unfold boost
    rw [hg, hbb]
    simp only [V4.vec, V4.mk', V3.sub, V3.smul, V3.dot, V3.mk.injEq]
    refine ⟨by ring, by ring, ?_⟩
    generalize √(1 - beta ^ 2) = s at *
    have hs1 : s + 1 ≠ 0 := by positivity
    have hb2 : beta ^ 2 = 1 - s ^ 2 := by linarith
    field_simp
    ring_nf
    rw [hb2]
    ring
  have hmom : onShell n.mass ⟨n.mom.x, n.mom.y, 1 / √(1 - beta * beta) * (beta * n.mom.t + n.mom.z)⟩ =
      boost n.mom ⟨0, 0, -beta⟩ := by
    rw [← hvec]
    generalize boost n.mom ⟨0, 0, -beta⟩ = p at *
    unfold onShell V4.mk' V4.vec V3.dot
    rw [hm] at hiso
    unfold minkowski at hiso
    ext
    · simp only
      have hq : n.mass * n.mass + (p.x * p.x + p.y * p.y + p.z * p.z) = p.t * p.t := by linarith
      rw [hq, Real.sqrt_mul_self ht']
    · rfl
    · rfl
    · rfl
  rw [hmom, hbb]

end Verif.Coll
