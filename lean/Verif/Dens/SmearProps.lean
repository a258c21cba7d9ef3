import Verif.Dens.Smear
import Mathlib.Tactic.Ring
import Mathlib.Tactic.FieldSimp
import Mathlib.Tactic.Linarith
import Mathlib.Tactic.NormNum
import Mathlib.Tactic.Positivity
import Mathlib.Tactic.LinearCombination
import Mathlib.Algebra.BigOperators.Group.List.Basic

/-
C108: the charge on the lattice.
-/
namespace Verif.Dens
open Verif.Lattice

/-- The charge (or flow) on the lattice: the sum of the net currents of all nodes times the volume
of a cell. -/
def total (L : Lat Node) : ℚ :=
  (L.data.map Node.net).sum * (L.cell.x * L.cell.y * L.cell.z)

/-- Same lattice, other contents. -/
def SameShape (L M : Lat Node) : Prop :=
  M.n = L.n ∧ M.cell = L.cell ∧ M.origin = L.origin ∧ M.periodic = L.periodic ∧
    M.sizes = L.sizes ∧ M.data.length = L.data.length

theorem SameShape.refl (L : Lat Node) : SameShape L L := ⟨rfl, rfl, rfl, rfl, rfl, rfl⟩

theorem SameShape.trans {L M N : Lat Node} (h : SameShape L M) (h' : SameShape M N) :
    SameShape L N := by
  obtain ⟨a, b, c, d, e, f⟩ := h
  obtain ⟨a', b', c', d', e', f'⟩ := h'
  exact ⟨a'.trans a, b'.trans b, c'.trans c, d'.trans d, e'.trans e, f'.trans f⟩

theorem net_add (n : Node) (vel w : ℚ) : (n.addParticle vel w).net = n.net + vel * w := by
  unfold Node.addParticle Node.net
  split <;> simp only <;> ring

theorem sum_set (l : List Node) (k : Nat) (h : k < l.length) (n : Node) :
    ((l.set k n).map Node.net).sum = (l.map Node.net).sum - (l[k]).net + n.net := by
  induction l generalizing k with
  | nil => simp at h
  | cons a l ih =>
    cases k with
    | zero => simp only [List.set_cons_zero, List.map_cons, List.sum_cons, List.getElem_cons_zero]; ring
    | succ k =>
      simp only [List.set_cons_succ, List.map_cons, List.sum_cons, List.getElem_cons_succ]
      rw [ih k (by simpa using h)]; ring

/-- Depositing valid weights adds their sum. -/
theorem deposit_sum (vel : ℚ) (ws : List (Int × ℚ)) (L : Lat Node)
    (h : ∀ w ∈ ws, 0 ≤ w.1 ∧ w.1 < L.data.length) :
    ∃ M, deposit vel ws L = .ok M ∧ SameShape L M ∧
      (M.data.map Node.net).sum = (L.data.map Node.net).sum + vel * (ws.map Prod.snd).sum := by
  induction ws generalizing L with
  | nil => exact ⟨L, rfl, SameShape.refl L, by simp⟩
  | cons w ws ih =>
    obtain ⟨i, q⟩ := w
    have hi := h (i, q) (by simp)
    simp only at hi
    have hk : i.toNat < L.data.length := by omega
    have hg : L.get i = .ok L.data[i.toNat] := by
      unfold Lat.get
      rw [if_neg (by omega)]
      simp [hk]
    have hp : ∀ v, L.put i v = .ok { L with data := L.data.set i.toNat v } := by
      intro v
      unfold Lat.put
      rw [if_pos hi]
    let M : Lat Node := { L with data := L.data.set i.toNat (L.data[i.toNat].addParticle vel q) }
    have hM : SameShape L M := ⟨rfl, rfl, rfl, rfl, rfl, by simp [M]⟩
    obtain ⟨N, h1, h2, h3⟩ := ih M (by
      intro w hw
      have := h w (by simp [hw])
      rw [hM.2.2.2.2.2]; exact this)
    refine ⟨N, ?_, hM.trans h2, ?_⟩
    · unfold deposit
      rw [hg, ok_bind, hp, ok_bind]
      exact h1
    · rw [h3]
      simp only [M, List.map_cons, List.sum_cons]
      rw [sum_set _ _ hk, net_add]; ring

/-! ### The discrete smearing -/

/-- The particle is in a cell of the lattice none of whose six neighbours is the cell itself: on a
periodic lattice with at least two cells in each direction every cell, on a plain lattice every
cell that does not touch the border. -/
def Interior (L : Lat Node) (p : V3 ℚ) : Prop :=
  ∃ ix iy iz : Int, InLat L ix iy iz ∧ InCell L.origin.x L.cell.x p.x ix ∧
    InCell L.origin.y L.cell.y p.y iy ∧ InCell L.origin.z L.cell.z p.z iz ∧
    (if L.periodic then 2 ≤ L.n.x ∧ 2 ≤ L.n.y ∧ 2 ≤ L.n.z
     else (0 < ix ∧ ix < L.n.x - 1) ∧ (0 < iy ∧ iy < L.n.y - 1) ∧ 0 < iz ∧ iz < L.n.z - 1)

structure Valid (L : Lat Node) : Prop where
  wf : WF L
  cx : 0 < L.cell.x
  cy : 0 < L.cell.y
  cz : 0 < L.cell.z

theorem stepTo_ne {per : Bool} {n i δ : Int} (hδ : δ = -1 ∨ δ = 1) (hi : 0 ≤ i ∧ i < n)
    (h : if per then 2 ≤ n else 0 < i ∧ i < n - 1) :
    stepTo per n i δ ≠ i ∧ 0 ≤ stepTo per n i δ ∧ stepTo per n i δ < n := by
  unfold stepTo
  cases per
  · simp only [Bool.false_eq_true, if_false] at h ⊢
    rcases hδ with rfl | rfl <;> omega
  · simp only [if_true] at h ⊢
    rcases hδ with rfl | rfl
    · rcases eq_or_ne i 0 with rfl | h0
      · have : (0 + -1) % n = n - 1 := by
          rw [← Int.add_emod_right, Int.emod_eq_of_lt] <;> omega
        omega
      · have : (i + -1) % n = i - 1 := by rw [Int.emod_eq_of_lt] <;> omega
        omega
    · rcases eq_or_ne i (n - 1) with rfl | h0
      · have : (n - 1 + 1) % n = 0 := by rw [Int.sub_add_cancel, Int.emod_self]
        omega
      · have : (i + 1) % n = i + 1 := by rw [Int.emod_eq_of_lt] <;> omega
        omega

theorem index_inj {T : Type} {L : Lat T} (h : WF L) {c c' : V3 Int} (hc : InLat L c.x c.y c.z)
    (hc' : InLat L c'.x c'.y c'.z)
    (he : index1d L c.x c.y c.z = index1d L c'.x c'.y c'.z) : c = c' := by
  have hr := wf_index h hc
  obtain ⟨u, -, hu⟩ := (C18_index_bijection h).2.1 _ hr.1 hr.2
  have h1 := hu (c.x, c.y, c.z) ⟨hc, rfl⟩
  have h2 := hu (c'.x, c'.y, c'.z) ⟨hc', he.symm⟩
  have h3 := h1.trans h2.symm
  simp only [Prod.mk.injEq] at h3
  cases c; cases c'
  simp only at h3
  rw [h3.1, h3.2.1, h3.2.2]

theorem discrete_sum (P : Par) {L : Lat Node} (hv : Valid L) {c : Charge} (hi : Interior L c.pos)
    (hn : 0 < P.ntest) (he : 0 < P.nens) :
    ∃ ws, discreteWeights P L c = .ok ws ∧ (∀ w ∈ ws, 0 ≤ w.1 ∧ w.1 < L.data.length) ∧
      (ws.map Prod.snd).sum * (L.cell.x * L.cell.y * L.cell.z)
        = c.factor / (P.ntest * P.nens) := by
  obtain ⟨ix, iy, iz, hin, hx, hy, hz, hb⟩ := hi
  have h := hv.wf
  have hC := C66_nearest_partial h hv.cx hv.cy hv.cz hx hy hz hin
  have hbx : if L.periodic then 2 ≤ L.n.x else 0 < ix ∧ ix < L.n.x - 1 := by
    by_cases hp : L.periodic = true
    · simp only [hp, if_true] at hb ⊢; exact hb.1
    · simp only [hp] at hb ⊢; exact hb.1
  have hby : if L.periodic then 2 ≤ L.n.y else 0 < iy ∧ iy < L.n.y - 1 := by
    by_cases hp : L.periodic = true
    · simp only [hp, if_true] at hb ⊢; exact hb.2.1
    · simp only [hp] at hb ⊢; exact hb.2.1
  have hbz : if L.periodic then 2 ≤ L.n.z else 0 < iz ∧ iz < L.n.z - 1 := by
    by_cases hp : L.periodic = true
    · simp only [hp, if_true] at hb ⊢; exact hb.2.2
    · simp only [hp] at hb ⊢; exact hb.2.2
  have nx1 := stepTo_ne (Or.inl rfl) hin.1 hbx
  have nx2 := stepTo_ne (Or.inr rfl) hin.1 hbx
  have ny1 := stepTo_ne (Or.inl rfl) hin.2.1 hby
  have ny2 := stepTo_ne (Or.inr rfl) hin.2.1 hby
  have nz1 := stepTo_ne (Or.inl rfl) hin.2.2 hbz
  have nz2 := stepTo_ne (Or.inr rfl) hin.2.2 hbz
  have ne : ∀ a b d : Int, InLat L a b d → (a, b, d) ≠ (ix, iy, iz) →
      index1d L a b d ≠ index1d L ix iy iz := by
    intro a b d hab hne he
    have := index_inj h (c := ⟨a, b, d⟩) (c' := ⟨ix, iy, iz⟩) hab hin he
    simp only [V3.mk.injEq] at this
    exact hne (by rw [this.1, this.2.1, this.2.2])
  have i1 : InLat L (stepTo L.periodic L.n.x ix (-1)) iy iz := ⟨nx1.2, hin.2.1, hin.2.2⟩
  have i2 : InLat L (stepTo L.periodic L.n.x ix 1) iy iz := ⟨nx2.2, hin.2.1, hin.2.2⟩
  have i3 : InLat L ix (stepTo L.periodic L.n.y iy (-1)) iz := ⟨hin.1, ny1.2, hin.2.2⟩
  have i4 : InLat L ix (stepTo L.periodic L.n.y iy 1) iz := ⟨hin.1, ny2.2, hin.2.2⟩
  have i5 : InLat L ix iy (stepTo L.periodic L.n.z iz (-1)) := ⟨hin.1, hin.2.1, nz1.2⟩
  have i6 : InLat L ix iy (stepTo L.periodic L.n.z iz 1) := ⟨hin.1, hin.2.1, nz2.2⟩
  have e1 := ne _ _ _ i1 (fun e => nx1.1 (Prod.mk.inj e).1)
  have e2 := ne _ _ _ i2 (fun e => nx2.1 (Prod.mk.inj e).1)
  have e3 := ne _ _ _ i3 (fun e => ny1.1 (Prod.mk.inj (Prod.mk.inj e).2).1)
  have e4 := ne _ _ _ i4 (fun e => ny2.1 (Prod.mk.inj (Prod.mk.inj e).2).1)
  have e5 := ne _ _ _ i5 (fun e => nz1.1 (Prod.mk.inj (Prod.mk.inj e).2).2)
  have e6 := ne _ _ _ i6 (fun e => nz2.1 (Prod.mk.inj (Prod.mk.inj e).2).2)
  refine ⟨_, by unfold discreteWeights; rw [hC, ok_bind]; rfl, ?_, ?_⟩
  · intro w hw
    simp only [List.map_cons, List.map_nil, List.mem_cons, List.not_mem_nil, or_false] at hw
    rcases hw with rfl | rfl | rfl | rfl | rfl | rfl | rfl
    · exact wf_index h hin
    · exact wf_index h i1
    · exact wf_index h i2
    · exact wf_index h i3
    · exact wf_index h i4
    · exact wf_index h i5
    · exact wf_index h i6
  · have hx0 := hv.cx
    have hy0 := hv.cy
    have hz0 := hv.cz
    have h3 : (0 : ℚ) < P.ntest := by exact_mod_cast hn
    have h4 : (0 : ℚ) < P.nens := by exact_mod_cast he
    simp only [List.map_cons, List.map_nil, List.sum_cons, List.sum_nil, if_neg e1, if_neg e2,
      if_neg e3, if_neg e4, if_neg e5, if_neg e6, if_true]
    field_simp
    ring

/-- Specification of the particles that count: those with a density factor that is not negligible,
whatever its sign, and, if only participants are wanted, with at least one collision. -/
def counts (P : Par) (c : Charge) : Bool :=
  decide (1 / 1000000 ≤ |c.factor|) && (!P.onlyParticipants || decide (1 ≤ c.collisions))

theorem counts_eq (P : Par) (c : Charge) : contributes P c = counts P c := by
  rw [Bool.eq_iff_iff]
  simp only [contributes, counts, Bool.and_eq_true, Bool.or_eq_true, Bool.not_eq_true',
    Bool.and_eq_false_iff, decide_eq_true_eq, decide_eq_false_iff_not, not_lt, beq_eq_false_iff_ne]
  have : c.collisions ≠ 0 ↔ 1 ≤ c.collisions := by omega
  rw [this]
  exact and_comm

/-- The charge that the particles should deposit. -/
def chargeOf (P : Par) (cs : List Charge) : ℚ :=
  ((cs.filter (counts P)).map fun c => c.vel * c.factor / ((P.ntest : ℚ) * (P.nens : ℚ))).sum

theorem update_total {weights : Lat Node → Charge → Except Err (List (Int × ℚ))} {P : Par}
    (ok : Lat Node → Charge → Prop)
    (hok : ∀ L c, ok L c → ∃ ws, weights L c = .ok ws ∧
      (∀ w ∈ ws, 0 ≤ w.1 ∧ w.1 < L.data.length) ∧
      (ws.map Prod.snd).sum * (L.cell.x * L.cell.y * L.cell.z) = c.factor / (P.ntest * P.nens))
    (hshape : ∀ L M c, SameShape L M → ok L c → ok M c) (cs : List Charge) (L : Lat Node)
    (hcs : ∀ c ∈ cs, counts P c = true → ok L c) :
    ∃ M, update weights P cs L = .ok M ∧ SameShape L M ∧ total M = total L + chargeOf P cs := by
  induction cs generalizing L with
  | nil => exact ⟨L, rfl, SameShape.refl L, by simp [chargeOf]⟩
  | cons c cs ih =>
    by_cases hc : counts P c = true
    · obtain ⟨ws, h1, h2, h3⟩ := hok L c (hcs c (by simp) hc)
      obtain ⟨M, h4, h5, h6⟩ := deposit_sum c.vel ws L h2
      obtain ⟨N, h7, h8, h9⟩ := ih M (fun d hd hcd => hshape L M d h5 (hcs d (by simp [hd]) hcd))
      refine ⟨N, ?_, h5.trans h8, ?_⟩
      · unfold update
        rw [counts_eq, if_pos hc, h1, ok_bind, h4, ok_bind]
        exact h7
      · rw [h9]
        simp only [chargeOf, List.filter_cons, hc, if_true, List.map_cons, List.sum_cons]
        have : total M = total L + c.vel * c.factor / (P.ntest * P.nens) := by
          unfold total
          rw [h6, h5.2.1]
          rw [add_mul, mul_assoc c.vel, h3]
          ring
        rw [this]; ring
    · obtain ⟨N, h7, h8, h9⟩ := ih L (fun d hd hcd => hcs d (by simp [hd]) hcd)
      refine ⟨N, ?_, h8, ?_⟩
      · unfold update
        rw [counts_eq, if_neg hc]
        exact h7
      · rw [h9]
        have hc' : counts P c = false := by simpa using hc
        simp only [chargeOf, List.filter_cons, hc', Bool.false_eq_true, if_false]

theorem SameShape.valid {L M : Lat Node} (h : SameShape L M) (hv : Valid L) : Valid M := by
  obtain ⟨a, b, c, d, e, f⟩ := h
  have hw := hv.wf
  refine ⟨⟨?_, ?_, ?_, ?_, ?_, ?_⟩, ?_, ?_, ?_⟩
  · rw [a]; exact hw.nx
  · rw [a]; exact hw.ny
  · rw [a]; exact hw.nz
  · rw [a, f]; exact hw.len
  · rw [a]; exact hw.fits
  · rw [a, b, e]; exact hw.cell
  · rw [b]; exact hv.cx
  · rw [b]; exact hv.cy
  · rw [b]; exact hv.cz

/-- **C108 (discrete smearing).** For particles in cells that do not touch the border (on periodic
lattices with at least two cells in each direction: for all particles on the lattice) the update
never fails, and the lattice gains exactly their charge divided by the numbers of test particles
and ensembles, for every central weight. Missing: particles in border cells
(`C108_border_false`). -/
theorem C108_discrete_partial (P : Par) {L : Lat Node} (hv : Valid L) (hn : 0 < P.ntest)
    (he : 0 < P.nens) (cs : List Charge)
    (hcs : ∀ c ∈ cs, counts P c = true → Interior L c.pos) :
    ∃ M, update (discreteWeights P) P cs L = .ok M ∧ SameShape L M ∧
      total M = total L + chargeOf P cs := by
  refine update_total (fun L c => Valid L ∧ Interior L c.pos) ?_ ?_ cs L ?_
  · intro L c h
    exact discrete_sum P h.1 h.2 hn he
  · rintro L M c hs ⟨h1, ix, iy, iz, h2, h3, h4, h5, h6⟩
    refine ⟨hs.valid h1, ix, iy, iz, ?_, ?_, ?_, ?_, ?_⟩
    all_goals
      obtain ⟨a, b, c, d, e, f⟩ := hs
      first
        | (unfold InLat; rw [a]; exact h2)
        | (rw [b, c]; assumption)
        | (rw [a, d]; exact h6)
  · intro c hc hcc
    exact ⟨hv, hcs c hc hcc⟩

end Verif.Dens
