import Verif.Grid.Calls
/-
Lemmas about the callbacks of the periodic grid.
-/
namespace Verif.Grid

/-- Box lengths by which the search cell is shifted. -/
def kOf : Wrap → Int
  | .plus => 1
  | .no => 0
  | .minus => -1

def applyX (n : V3 Int) (s : St) (e : NL) : St :=
  match e.wrap with
      | .minus => { s with w := { s.w with x := -1 }, v := { s.v with x := -1 } }
      | .plus => { s with w := { s.w with x := 1 }, v := { s.v with x := n.x } }
      | .no => s

def out (n : V3 Int) (i j : Int) (v w : V3 Int) : List Call :=
  if j ≤ makeIndex n v then [] else [.neighbor i w j]

theorem dxLoop_cons (n : V3 Int) (i : Int) (dz dy e : NL) (rest : List NL) (s : St)
    (h : s.off = s.cur) : ∃ s' : St, s'.v = (applyX n s e).v ∧ s'.w = (applyX n s e).w ∧
      s'.off = s'.cur ∧
      dxLoop n i dz dy (e :: rest) s =
        (out n i (makeIndex n ⟨e.index, dy.index, dz.index⟩) s'.v s'.w ++
          (dxLoop n i dz dy rest s').1, (dxLoop n i dz dy rest s').2) := by
  have happ : (applyX n s e).off = (applyX n s e).cur := by
    unfold applyX; split <;> exact h
  have hunf : dxLoop n i dz dy (e :: rest) s =
      (let t := applyX n s e
       let j := makeIndex n ⟨e.index, dy.index, dz.index⟩
       if j ≤ makeIndex n t.v then dxLoop n i dz dy rest t
       else
        let t := if t.w ≠ t.cur then
          { t with
            off := ⟨t.off.x + (t.w.x - t.cur.x), t.off.y + (t.w.y - t.cur.y),
              t.off.z + (t.w.z - t.cur.z)⟩
            cur := t.w }
          else t
        let r := dxLoop n i dz dy rest t
        (.neighbor i t.off j :: r.1, r.2)) := rfl
  rw [hunf]
  generalize applyX n s e = t at happ
  simp only
  split
  · rename_i hle
    exact ⟨t, rfl, rfl, happ, by simp [out, hle]⟩
  · rename_i hgt
    split
    · rename_i hne
      have eoff : (⟨t.off.x + (t.w.x - t.cur.x), t.off.y + (t.w.y - t.cur.y),
              t.off.z + (t.w.z - t.cur.z)⟩ : V3 Int) = t.w := by rw [happ]; ext <;> simp
      rw [eoff]
      exact ⟨⟨t.v, t.w, t.w, t.w⟩, rfl, rfl, rfl, by simp [out, hgt]⟩
    · rename_i heq
      simp only [ne_eq, not_not] at heq
      refine ⟨t, rfl, rfl, happ, ?_⟩
      simp [out, hgt, happ, heq]

/-- The virtual search coordinate belonging to a wrap flag. -/
def virt (n a : Int) : Wrap → Int
  | .plus => n
  | .no => a
  | .minus => -1

theorem dxLoop_spec (n : V3 Int) (i : Int) (dz dy e0 e1 e2 : NL) (s : St) (a : Int)
    (h : s.off = s.cur) (h0 : e0.wrap = .no) (h1 : e1.wrap = .no) (hv : s.v.x = a)
    (hw : s.w.x = 0) :
    (dxLoop n i dz dy [e0, e1, e2] s).1 = [e0, e1, e2].flatMap (fun e =>
      out n i (makeIndex n ⟨e.index, dy.index, dz.index⟩) ⟨virt n.x a e.wrap, s.v.y, s.v.z⟩
        ⟨kOf e.wrap, s.w.y, s.w.z⟩) ∧
    (dxLoop n i dz dy [e0, e1, e2] s).2.off = (dxLoop n i dz dy [e0, e1, e2] s).2.cur ∧
    (dxLoop n i dz dy [e0, e1, e2] s).2.v.y = s.v.y ∧
    (dxLoop n i dz dy [e0, e1, e2] s).2.v.z = s.v.z ∧
    (dxLoop n i dz dy [e0, e1, e2] s).2.w.y = s.w.y ∧
    (dxLoop n i dz dy [e0, e1, e2] s).2.w.z = s.w.z := by
  obtain ⟨s1, v1, w1, o1, E1⟩ := dxLoop_cons n i dz dy e0 [e1, e2] s h
  obtain ⟨s2, v2, w2, o2, E2⟩ := dxLoop_cons n i dz dy e1 [e2] s1 o1
  obtain ⟨s3, v3, w3, o3, E3⟩ := dxLoop_cons n i dz dy e2 [] s2 o2
  rw [E1, E2, E3]
  have a0 : applyX n s e0 = s := by unfold applyX; rw [h0]
  have a1 : applyX n s1 e1 = s1 := by unfold applyX; rw [h1]
  rw [a0] at v1 w1
  rw [a1, v1] at v2
  rw [a1, w1] at w2
  have hvs : s.v = ⟨a, s.v.y, s.v.z⟩ := by ext <;> simp [hv]
  have hws : s.w = ⟨0, s.w.y, s.w.z⟩ := by ext <;> simp [hw]
  have v3' : s3.v = ⟨virt n.x a e2.wrap, s.v.y, s.v.z⟩ := by
    rw [v3]; unfold applyX virt
    cases e2.wrap <;> simp [v2, hv] <;> exact hvs
  have w3' : s3.w = ⟨kOf e2.wrap, s.w.y, s.w.z⟩ := by
    rw [w3]; unfold applyX kOf
    cases e2.wrap <;> simp [w2] <;> exact hws
  simp only [dxLoop, List.append_nil, List.flatMap_cons, List.flatMap_nil, o3, v3', w3', h0, h1,
    virt, kOf, v1, w1, v2, w2, ← hvs, ← hws, and_self]

def applyY (n : V3 Int) (s : St) (e : NL) : St :=
  match e.wrap with
      | .minus => { s with w := { s.w with y := -1 }, v := { s.v with y := -1 } }
      | .plus => { s with w := { s.w with y := 1 }, v := { s.v with y := n.y } }
      | .no => s

/-- Shape of the lists of neighbour coordinates. -/
theorem yxEntries_shape (n y : Int) : ∃ e0 e1 e2, yxEntries n y = [e0, e1, e2] ∧
    e0.wrap = .no ∧ e1.wrap = .no := by
  unfold yxEntries
  split
  · exact ⟨_, _, _, rfl, rfl, rfl⟩
  split
  · exact ⟨_, _, _, rfl, rfl, rfl⟩
  · exact ⟨_, _, _, rfl, rfl, rfl⟩

/-- The x loop in one cell for fixed y and z. -/
def rowCalls (n : V3 Int) (i : Int) (a : V3 Int) (dz dy : NL) (vy vz wy wz : Int) : List Call :=
  (yxEntries n.x a.x).flatMap (fun e =>
      out n i (makeIndex n ⟨e.index, dy.index, dz.index⟩) ⟨virt n.x a.x e.wrap, vy, vz⟩
        ⟨kOf e.wrap, wy, wz⟩)

/-- State at the top of the y loop. -/
structure Top (a : V3 Int) (s : St) : Prop where
  off : s.off = s.cur
  vx : s.v.x = a.x
  wx : s.w.x = 0

theorem dyLoop_cons (n : V3 Int) (i : Int) (a : V3 Int) (dz e : NL) (rest : List NL) (s : St)
    (h : Top a s) : ∃ s' : St, Top a s' ∧ s'.v.y = (applyY n s e).v.y ∧
      s'.w.y = (applyY n s e).w.y ∧ s'.v.z = s.v.z ∧ s'.w.z = s.w.z ∧
      dyLoop n i a dz (e :: rest) s =
        (rowCalls n i a dz e s'.v.y s'.v.z s'.w.y s'.w.z ++ (dyLoop n i a dz rest s').1,
          (dyLoop n i a dz rest s').2) := by
  have happ : Top a (applyY n s e) ∧ (applyY n s e).v.z = s.v.z ∧
      (applyY n s e).w.z = s.w.z := by
    unfold applyY
    obtain ⟨h1, h2, h3⟩ := h
    split <;> exact ⟨⟨h1, h2, h3⟩, rfl, rfl⟩
  have hunf : dyLoop n i a dz (e :: rest) s =
      (let t := applyY n s e
       let r := dxLoop n i dz e (yxEntries n.x a.x) t
       let t' := { r.2 with v := { r.2.v with x := a.x }, w := { r.2.w with x := 0 } }
       let r' := dyLoop n i a dz rest t'
       (r.1 ++ r'.1, r'.2)) := rfl
  rw [hunf]
  generalize applyY n s e = t at happ
  obtain ⟨⟨t1, t2, t3⟩, t4, t5⟩ := happ
  obtain ⟨e0, e1, e2, hE, h0, h1⟩ := yxEntries_shape n.x a.x
  have sp := dxLoop_spec n i dz e e0 e1 e2 t a.x t1 h0 h1 t2 t3
  rw [← hE] at sp
  obtain ⟨p1, p2, p3, p4, p5, p6⟩ := sp
  simp only
  rw [p1]
  refine ⟨{ (dxLoop n i dz e (yxEntries n.x a.x) t).2 with
    v := { (dxLoop n i dz e (yxEntries n.x a.x) t).2.v with x := a.x },
    w := { (dxLoop n i dz e (yxEntries n.x a.x) t).2.w with x := 0 } },
    ⟨p2, rfl, rfl⟩, p3, p5, p4.trans t4, p6.trans t5, ?_⟩
  simp only [rowCalls, p3, p4, p5, p6]

theorem dyLoop_spec (n : V3 Int) (i : Int) (a : V3 Int) (dz e0 e1 e2 : NL) (s : St)
    (h : Top a s) (h0 : e0.wrap = .no) (h1 : e1.wrap = .no) (hv : s.v.y = a.y)
    (hw : s.w.y = 0) :
    (dyLoop n i a dz [e0, e1, e2] s).1 = [e0, e1, e2].flatMap (fun e =>
      rowCalls n i a dz e (virt n.y a.y e.wrap) s.v.z (kOf e.wrap) s.w.z) ∧
    Top a (dyLoop n i a dz [e0, e1, e2] s).2 ∧
    (dyLoop n i a dz [e0, e1, e2] s).2.v.z = s.v.z ∧
    (dyLoop n i a dz [e0, e1, e2] s).2.w.z = s.w.z := by
  obtain ⟨s1, o1, v1, w1, y1, z1, E1⟩ := dyLoop_cons n i a dz e0 [e1, e2] s h
  obtain ⟨s2, o2, v2, w2, y2, z2, E2⟩ := dyLoop_cons n i a dz e1 [e2] s1 o1
  obtain ⟨s3, o3, v3, w3, y3, z3, E3⟩ := dyLoop_cons n i a dz e2 [] s2 o2
  rw [E1, E2, E3]
  have a0 : applyY n s e0 = s := by unfold applyY; rw [h0]
  have a1 : applyY n s1 e1 = s1 := by unfold applyY; rw [h1]
  rw [a0, hv] at v1
  rw [a0, hw] at w1
  rw [a1, v1] at v2
  rw [a1, w1] at w2
  have v3' : s3.v.y = virt n.y a.y e2.wrap := by
    rw [v3]; unfold applyY virt
    cases e2.wrap <;> simp [v2]
  have w3' : s3.w.y = kOf e2.wrap := by
    rw [w3]; unfold applyY kOf
    cases e2.wrap <;> simp [w2]
  refine ⟨?_, o3, ?_, ?_⟩
  · simp only [dyLoop, List.append_nil, List.flatMap_cons, List.flatMap_nil, v3', w3', h0, h1,
      virt, kOf, v1, w1, v2, w2, y1, y2, y3, z1, z2, z3]
  · simp only [dyLoop, y1, y2, y3]
  · simp only [dyLoop, z1, z2, z3]

/-- The y loop in one cell for fixed z. -/
def layerCalls (n : V3 Int) (i : Int) (a : V3 Int) (dz : NL) (vz wz : Int) : List Call :=
  (yxEntries n.y a.y).flatMap (fun e =>
      rowCalls n i a dz e (virt n.y a.y e.wrap) vz (kOf e.wrap) wz)

structure TopZ (a : V3 Int) (s : St) : Prop where
  top : Top a s
  vy : s.v.y = a.y
  wy : s.w.y = 0

def applyZ (s : St) (e : NL) : St :=
  if e.wrap = .minus then
        { s with w := { s.w with z := -1 }, v := { s.v with z := -1 } }
      else s

theorem dzLoop_cons (n : V3 Int) (i : Int) (a : V3 Int) (e : NL) (rest : List NL) (s : St)
    (h : TopZ a s) : ∃ s' : St, TopZ a s' ∧ s'.v.z = (applyZ s e).v.z ∧
      s'.w.z = (applyZ s e).w.z ∧
      dzLoop n i a (e :: rest) s =
        (layerCalls n i a e s'.v.z s'.w.z ++ (dzLoop n i a rest s').1,
          (dzLoop n i a rest s').2) := by
  have happ : TopZ a (applyZ s e) := by
    unfold applyZ
    obtain ⟨⟨h1, h2, h3⟩, h4, h5⟩ := h
    split <;> exact ⟨⟨h1, h2, h3⟩, h4, h5⟩
  have hunf : dzLoop n i a (e :: rest) s =
      (let t := applyZ s e
       let r := dyLoop n i a e (yxEntries n.y a.y) t
       let t' := { r.2 with v := { r.2.v with y := a.y }, w := { r.2.w with y := 0 } }
       let r' := dzLoop n i a rest t'
       (r.1 ++ r'.1, r'.2)) := rfl
  rw [hunf]
  generalize applyZ s e = t at happ
  obtain ⟨t1, t2, t3⟩ := happ
  obtain ⟨e0, e1, e2, hE, h0, h1⟩ := yxEntries_shape n.y a.y
  have sp := dyLoop_spec n i a e e0 e1 e2 t t1 h0 h1 t2 t3
  rw [← hE] at sp
  obtain ⟨p1, p2, p3, p4⟩ := sp
  simp only
  rw [p1]
  refine ⟨{ (dyLoop n i a e (yxEntries n.y a.y) t).2 with
    v := { (dyLoop n i a e (yxEntries n.y a.y) t).2.v with y := a.y },
    w := { (dyLoop n i a e (yxEntries n.y a.y) t).2.w with y := 0 } },
    ⟨⟨p2.1, p2.2, p2.3⟩, rfl, rfl⟩, p3, p4, ?_⟩
  simp only [layerCalls, p3, p4]

/-- The neighbour calls of one cell. -/
def periodicBody (n : V3 Int) (ci : V3 Int × Nat) : List Call :=
  (zEntries n.z ci.1.z).flatMap fun ez =>
    (yxEntries n.y ci.1.y).flatMap fun ey =>
      (yxEntries n.x ci.1.x).flatMap fun ex =>
        out n ci.2 (makeIndex n ⟨ex.index, ey.index, ez.index⟩)
          ⟨virt n.x ci.1.x ex.wrap, virt n.y ci.1.y ey.wrap, virt n.z ci.1.z ez.wrap⟩
          ⟨kOf ex.wrap, kOf ey.wrap, kOf ez.wrap⟩

theorem periodicCell_eq (n : V3 Int) (ci : V3 Int × Nat) :
    periodicCell n ci = .search ci.2 :: periodicBody n ci := by
  unfold periodicCell
  congr 1
  have hz : ∃ e0 e1, zEntries n.z ci.1.z = [e0, e1] ∧ e0.wrap = .no ∧ e1.wrap ≠ .plus := by
    unfold zEntries
    refine ⟨_, _, rfl, rfl, ?_⟩
    split <;> simp
  obtain ⟨e0, e1, hE, h0, h1⟩ := hz
  rw [hE]
  obtain ⟨s1, o1, v1, w1, E1⟩ := dzLoop_cons n ci.2 ci.1 e0 [e1]
    { v := ci.1, w := ⟨0, 0, 0⟩, cur := ⟨0, 0, 0⟩, off := ⟨0, 0, 0⟩ } ⟨⟨rfl, rfl, rfl⟩, rfl, rfl⟩
  obtain ⟨s2, o2, v2, w2, E2⟩ := dzLoop_cons n ci.2 ci.1 e1 [] s1 o1
  rw [E1, E2]
  have v1' : s1.v.z = virt n.z ci.1.z e0.wrap := by rw [v1, h0]; simp [applyZ, h0, virt]
  have w1' : s1.w.z = kOf e0.wrap := by rw [w1, h0]; simp [applyZ, h0, kOf]
  have v2' : s2.v.z = virt n.z ci.1.z e1.wrap := by
    have v1z : s1.v.z = ci.1.z := by rw [v1', h0]; rfl
    rw [v2]; unfold applyZ
    cases hw : e1.wrap
    · exact absurd hw h1
    · simp [virt, v1z]
    · simp [virt]
  have w2' : s2.w.z = kOf e1.wrap := by
    have w1z : s1.w.z = 0 := by rw [w1', h0]; rfl
    rw [w2]; unfold applyZ
    cases hw : e1.wrap
    · exact absurd hw h1
    · simp [kOf, w1z]
    · simp [kOf]
  unfold periodicBody
  rw [hE]
  simp only [dzLoop, List.append_nil, List.flatMap_cons, List.flatMap_nil, v1', w1', v2', w2',
    layerCalls, rowCalls]

/-! ### Entries and displacements -/

/-- Displacement described by an entry of the list at coordinate `a`. -/
def disp (n a : Int) (e : NL) : Int := e.index - a - kOf e.wrap * n

theorem yx_entry {n a : Int} {e : NL} (hn : 2 ≤ n) (h0 : 0 ≤ a) (h1 : a < n)
    (he : e ∈ yxEntries n a) :
    (0 ≤ e.index ∧ e.index < n) ∧ (-1 ≤ disp n a e ∧ disp n a e ≤ 1) ∧
      virt n a e.wrap = a + kOf e.wrap * n := by
  unfold yxEntries at he
  split at he
  · simp only [List.mem_cons, List.not_mem_nil, or_false] at he
    rcases he with rfl | rfl | rfl <;> simp [disp, kOf, virt] <;> omega
  split at he
  · simp only [List.mem_cons, List.not_mem_nil, or_false] at he
    rcases he with rfl | rfl | rfl <;> simp [disp, kOf, virt] <;> omega
  · simp only [List.mem_cons, List.not_mem_nil, or_false] at he
    rcases he with rfl | rfl | rfl <;> simp [disp, kOf, virt] <;> omega

theorem yx_entry_inj {n a : Int} {e e' : NL} (hn : 2 ≤ n)
    (he : e ∈ yxEntries n a) (he' : e' ∈ yxEntries n a) (h : disp n a e = disp n a e') :
    e = e' := by
  unfold yxEntries at he he'
  by_cases h0 : a = 0
  · rw [if_pos h0] at he he'
    simp only [List.mem_cons, List.not_mem_nil, or_false] at he he'
    rcases he with rfl | rfl | rfl <;> rcases he' with rfl | rfl | rfl <;>
      simp [disp, kOf] at h ⊢ <;> omega
  · rw [if_neg h0] at he he'
    by_cases h1 : a + 1 = n
    · rw [if_pos h1] at he he'
      simp only [List.mem_cons, List.not_mem_nil, or_false] at he he'
      rcases he with rfl | rfl | rfl <;> rcases he' with rfl | rfl | rfl <;>
        simp [disp, kOf] at h ⊢ <;> omega
    · rw [if_neg h1] at he he'
      simp only [List.mem_cons, List.not_mem_nil, or_false] at he he'
      rcases he with rfl | rfl | rfl <;> rcases he' with rfl | rfl | rfl <;>
        simp [disp, kOf] at h ⊢ <;> omega

theorem yx_entry_exists {n a d : Int} (hn : 2 ≤ n) (h0 : 0 ≤ a) (h1 : a < n) (hd0 : -1 ≤ d)
    (hd1 : d ≤ 1) : ∃ e ∈ yxEntries n a, disp n a e = d := by
  unfold yxEntries
  have hd : d = 0 ∨ d = -1 ∨ d = 1 := by omega
  split
  · rcases hd with rfl | rfl | rfl
    · exact ⟨_, List.mem_cons_self, by simp [disp, kOf]⟩
    · exact ⟨⟨n - 1, .plus⟩, by simp, by simp [disp, kOf]; omega⟩
    · exact ⟨⟨a + 1, .no⟩, by simp, by simp [disp, kOf]⟩
  split
  · rcases hd with rfl | rfl | rfl
    · exact ⟨_, List.mem_cons_self, by simp [disp, kOf]⟩
    · exact ⟨⟨a - 1, .no⟩, by simp, by simp [disp, kOf]⟩
    · exact ⟨⟨0, .minus⟩, by simp, by simp [disp, kOf]; omega⟩
  · rcases hd with rfl | rfl | rfl
    · exact ⟨_, List.mem_cons_self, by simp [disp, kOf]⟩
    · exact ⟨⟨a - 1, .no⟩, by simp, by simp [disp, kOf]⟩
    · exact ⟨⟨a + 1, .no⟩, by simp, by simp [disp, kOf]⟩

theorem yxEntries_nodup {n : Int} (hn : 2 ≤ n) (a : Int) : (yxEntries n a).Nodup := by
  unfold yxEntries
  split
  · simp
  split
  · simp; omega
  · simp; omega

theorem z_entry {n a : Int} {e : NL} (hn : 2 ≤ n) (h0 : 0 ≤ a) (h1 : a < n)
    (he : e ∈ zEntries n a) :
    (0 ≤ e.index ∧ e.index < n) ∧ (0 ≤ disp n a e ∧ disp n a e ≤ 1) ∧
      virt n a e.wrap = a + kOf e.wrap * n := by
  unfold zEntries at he
  simp only [List.mem_cons, List.not_mem_nil, or_false] at he
  split at he <;> rcases he with rfl | rfl <;> simp [disp, kOf, virt] <;> omega

theorem z_entry_inj {n a : Int} {e e' : NL} (hn : 2 ≤ n)
    (he : e ∈ zEntries n a) (he' : e' ∈ zEntries n a) (h : disp n a e = disp n a e') :
    e = e' := by
  unfold zEntries at he he'
  simp only [List.mem_cons, List.not_mem_nil, or_false] at he he'
  split at he <;> simp only [*, if_true, if_false] at he' <;>
    rcases he with rfl | rfl <;> rcases he' with rfl | rfl <;> simp [disp, kOf] at h ⊢ <;> omega

theorem z_entry_exists {n a d : Int} (hd0 : 0 ≤ d)
    (hd1 : d ≤ 1) : ∃ e ∈ zEntries n a, disp n a e = d := by
  unfold zEntries
  have hd : d = 0 ∨ d = 1 := by omega
  rcases hd with rfl | rfl
  · exact ⟨_, List.mem_cons_self, by simp [disp, kOf]⟩
  · refine ⟨_, List.mem_cons_of_mem _ List.mem_cons_self, ?_⟩
    split <;> simp [disp, kOf] <;> omega

theorem zEntries_nodup (n a : Int) : (zEntries n a).Nodup := by
  unfold zEntries
  split <;> simp

/-! ### Which calls occur -/

theorem mem_out {n : V3 Int} {i j : Int} {v w : V3 Int} {c : Call} :
    c ∈ out n i j v w ↔ makeIndex n v < j ∧ c = .neighbor i w j := by
  unfold out; split
  · simp; omega
  · simp; intro; omega

/-- Cells with at least two cells per direction. -/
def AtLeast2 (n : V3 Int) : Prop := 2 ≤ n.x ∧ 2 ≤ n.y ∧ 2 ≤ n.z

/-- What an entry triple produces, in terms of displacements. -/
theorem entry_call {n : V3 Int} (hn : AtLeast2 n) {a : V3 Int} (ha : InRange n a)
    {ex ey ez : NL} (hx : ex ∈ yxEntries n.x a.x) (hy : ey ∈ yxEntries n.y a.y)
    (hz : ez ∈ zEntries n.z a.z) (i : Int) (c : Call) :
    c ∈ out n i (makeIndex n ⟨ex.index, ey.index, ez.index⟩)
          ⟨virt n.x a.x ex.wrap, virt n.y a.y ey.wrap, virt n.z a.z ez.wrap⟩
          ⟨kOf ex.wrap, kOf ey.wrap, kOf ez.wrap⟩ ↔
      0 < makeIndex n ⟨disp n.x a.x ex, disp n.y a.y ey, disp n.z a.z ez⟩ ∧
      c = .neighbor i ⟨kOf ex.wrap, kOf ey.wrap, kOf ez.wrap⟩
        (makeIndex n ⟨ex.index, ey.index, ez.index⟩) := by
  rw [mem_out]
  have h1 := (yx_entry hn.1 ha.1.1 ha.1.2 hx).2.2
  have h2 := (yx_entry hn.2.1 ha.2.1.1 ha.2.1.2 hy).2.2
  have h3 := (z_entry hn.2.2 ha.2.2.1 ha.2.2.2 hz).2.2
  rw [h1, h2, h3]
  have : makeIndex n ⟨disp n.x a.x ex, disp n.y a.y ey, disp n.z a.z ez⟩ =
      makeIndex n ⟨ex.index, ey.index, ez.index⟩ -
        makeIndex n ⟨a.x + kOf ex.wrap * n.x, a.y + kOf ey.wrap * n.y,
          a.z + kOf ez.wrap * n.z⟩ := by
    unfold makeIndex disp; ring
  rw [this]
  constructor
  · rintro ⟨h, e⟩; exact ⟨by omega, e⟩
  · rintro ⟨h, e⟩; exact ⟨by omega, e⟩

theorem mem_periodicBody {n : V3 Int} {ci : V3 Int × Nat} {c : Call} :
    c ∈ periodicBody n ci ↔ ∃ ex ∈ yxEntries n.x ci.1.x, ∃ ey ∈ yxEntries n.y ci.1.y,
      ∃ ez ∈ zEntries n.z ci.1.z,
        c ∈ out n ci.2 (makeIndex n ⟨ex.index, ey.index, ez.index⟩)
          ⟨virt n.x ci.1.x ex.wrap, virt n.y ci.1.y ey.wrap, virt n.z ci.1.z ez.wrap⟩
          ⟨kOf ex.wrap, kOf ey.wrap, kOf ez.wrap⟩ := by
  unfold periodicBody
  simp only [List.mem_flatMap]
  constructor
  · rintro ⟨ez, hz, ey, hy, ex, hx, h⟩; exact ⟨ex, hx, ey, hy, ez, hz, h⟩
  · rintro ⟨ex, hx, ey, hy, ez, hz, h⟩; exact ⟨ez, hz, ey, hy, ex, hx, h⟩

theorem periodicBody_nodup {n : V3 Int} (hn : AtLeast2 n) {ci : V3 Int × Nat}
    (hci : ci ∈ numbered n) : (periodicBody n ci).Nodup := by
  have hr := (numbered_index hci).1
  have key : ∀ (ex ex' ey ey' ez ez' : NL) (c : Call), ex ∈ yxEntries n.x ci.1.x →
      ex' ∈ yxEntries n.x ci.1.x → ey ∈ yxEntries n.y ci.1.y → ey' ∈ yxEntries n.y ci.1.y →
      ez ∈ zEntries n.z ci.1.z → ez' ∈ zEntries n.z ci.1.z →
      c ∈ out n ci.2 (makeIndex n ⟨ex.index, ey.index, ez.index⟩)
          ⟨virt n.x ci.1.x ex.wrap, virt n.y ci.1.y ey.wrap, virt n.z ci.1.z ez.wrap⟩
          ⟨kOf ex.wrap, kOf ey.wrap, kOf ez.wrap⟩ →
      c ∈ out n ci.2 (makeIndex n ⟨ex'.index, ey'.index, ez'.index⟩)
          ⟨virt n.x ci.1.x ex'.wrap, virt n.y ci.1.y ey'.wrap, virt n.z ci.1.z ez'.wrap⟩
          ⟨kOf ex'.wrap, kOf ey'.wrap, kOf ez'.wrap⟩ → ex = ex' ∧ ey = ey' ∧ ez = ez' := by
    intro ex ex' ey ey' ez ez' c hx hx' hy hy' hz hz' h h'
    have e := (mem_out.1 h).2
    have e' := (mem_out.1 h').2
    rw [e] at e'
    injection e' with _ ek ej
    injection ek with k1 k2 k3
    have hb : InRange n ⟨ex.index, ey.index, ez.index⟩ :=
      ⟨(yx_entry hn.1 hr.1.1 hr.1.2 hx).1, (yx_entry hn.2.1 hr.2.1.1 hr.2.1.2 hy).1,
        (z_entry hn.2.2 hr.2.2.1 hr.2.2.2 hz).1⟩
    have hb' : InRange n ⟨ex'.index, ey'.index, ez'.index⟩ :=
      ⟨(yx_entry hn.1 hr.1.1 hr.1.2 hx').1, (yx_entry hn.2.1 hr.2.1.1 hr.2.1.2 hy').1,
        (z_entry hn.2.2 hr.2.2.1 hr.2.2.2 hz').1⟩
    have := makeIndex_inj hb hb' ej
    injection this with i1 i2 i3
    exact ⟨yx_entry_inj hn.1 hx hx' (by unfold disp; rw [i1, k1]),
      yx_entry_inj hn.2.1 hy hy' (by unfold disp; rw [i2, k2]),
      z_entry_inj hn.2.2 hz hz' (by unfold disp; rw [i3, k3])⟩
  unfold periodicBody
  apply nodup_flatMap_of_inj (zEntries_nodup _ _)
  · intro ez hz
    apply nodup_flatMap_of_inj (yxEntries_nodup hn.2.1 _)
    · intro ey hy
      apply nodup_flatMap_of_inj (yxEntries_nodup hn.1 _)
      · intro ex hx
        unfold out
        split <;> simp
      · intro ex hx ex' hx' c h h'
        exact (key ex ex' ey ey ez ez c hx hx' hy hy hz hz h h').1
    · intro ey hy ey' hy' c h h'
      simp only [List.mem_flatMap] at h h'
      obtain ⟨ex, hx, h⟩ := h
      obtain ⟨ex', hx', h'⟩ := h'
      exact (key ex ex' ey ey' ez ez c hx hx' hy hy' hz hz h h').2.1
  · intro ez hz ez' hz' c h h'
    simp only [List.mem_flatMap] at h h'
    obtain ⟨ey, hy, ex, hx, h⟩ := h
    obtain ⟨ey', hy', ex', hx', h'⟩ := h'
    exact (key ex ex' ey ey' ez ez' c hx hx' hy hy' hz hz' h h').2.2

theorem periodicCalls_eq (n : V3 Int) : periodicCalls n =
    (numbered n).flatMap (fun ci => .search ci.2 :: periodicBody n ci) := by
  unfold periodicCalls
  congr 1
  funext ci
  exact periodicCell_eq n ci

theorem periodicCalls_nodup {n : V3 Int} (hn : AtLeast2 n) : (periodicCalls n).Nodup := by
  rw [periodicCalls_eq]
  apply call_index_search
  · intro ci _ c hc
    obtain ⟨ex, _, ey, _, ez, _, h⟩ := mem_periodicBody.1 hc
    exact ⟨_, _, (mem_out.1 h).2⟩
  · intro ci hci; exact periodicBody_nodup hn hci

theorem search_mem_periodic {n : V3 Int} {i : Int} :
    Call.search i ∈ periodicCalls n ↔ ∃ a, InRange n a ∧ i = makeIndex n a := by
  rw [periodicCalls_eq, List.mem_flatMap]
  constructor
  · rintro ⟨ci, hci, h⟩
    rcases List.mem_cons.1 h with h | h
    · cases h
      exact ⟨ci.1, numbered_index hci⟩
    · obtain ⟨ex, _, ey, _, ez, _, h⟩ := mem_periodicBody.1 h
      have := (mem_out.1 h).2
      cases this
  · rintro ⟨a, ha, rfl⟩
    obtain ⟨i, hi, e⟩ := mem_numbered ha
    exact ⟨_, hi, by rw [← e]; exact List.mem_cons_self⟩

/-- Which neighbour calls occur: the cell `b` seen from the cell `a` shifted by `s`
box lengths is at most one step away, in the upper half of the neighbours. -/
theorem neighbor_mem_periodic {n s : V3 Int} (hn : AtLeast2 n) {i j : Int} :
    Call.neighbor i s j ∈ periodicCalls n ↔ ∃ a b, InRange n a ∧ InRange n b ∧
      i = makeIndex n a ∧ j = makeIndex n b ∧
      Near ⟨b.x - a.x - s.x * n.x, b.y - a.y - s.y * n.y, b.z - a.z - s.z * n.z⟩ ∧
      0 < makeIndex n ⟨b.x - a.x - s.x * n.x, b.y - a.y - s.y * n.y, b.z - a.z - s.z * n.z⟩ := by
  rw [periodicCalls_eq, List.mem_flatMap]
  constructor
  · rintro ⟨ci, hci, h⟩
    rcases List.mem_cons.1 h with h | h
    · cases h
    · have hc := numbered_index hci
      have hr := hc.1
      obtain ⟨ex, hx, ey, hy, ez, hz, h⟩ := mem_periodicBody.1 h
      rw [entry_call hn hr hx hy hz] at h
      obtain ⟨hpos, e⟩ := h
      injection e with e1 e2 e3
      have px := yx_entry hn.1 hr.1.1 hr.1.2 hx
      have py := yx_entry hn.2.1 hr.2.1.1 hr.2.1.2 hy
      have pz := z_entry hn.2.2 hr.2.2.1 hr.2.2.2 hz
      refine ⟨ci.1, ⟨ex.index, ey.index, ez.index⟩, hr, ⟨px.1, py.1, pz.1⟩, by rw [e1, hc.2], e3,
        ?_, ?_⟩
      · rw [e2]
        refine ⟨px.2.1, py.2.1, ?_⟩
        have := pz.2.1
        simp only [disp] at this ⊢
        omega
      · rw [e2]; exact hpos
  · rintro ⟨a, b, ha, hb, hi, hj, hnear, hpos⟩
    obtain ⟨k, hk, e⟩ := mem_numbered ha
    refine ⟨_, hk, List.mem_cons_of_mem _ (mem_periodicBody.2 ?_)⟩
    obtain ⟨ex, hx, ex2⟩ := yx_entry_exists hn.1 ha.1.1 ha.1.2 hnear.1.1 hnear.1.2
    obtain ⟨ey, hy, ey2⟩ := yx_entry_exists hn.2.1 ha.2.1.1 ha.2.1.2 hnear.2.1.1 hnear.2.1.2
    have hz0 := z_nonneg_of_pos (by have := hn.1; omega) (by have := hn.2.1; omega)
      (by have := hn.1; have := hnear.1; omega) (by have := hn.2.1; have := hnear.2.1; omega) hpos
    obtain ⟨ez, hz, ez2⟩ := z_entry_exists (n := n.z) (a := a.z) hz0 hnear.2.2.2
    have px := yx_entry hn.1 ha.1.1 ha.1.2 hx
    have py := yx_entry hn.2.1 ha.2.1.1 ha.2.1.2 hy
    have pz := z_entry hn.2.2 ha.2.2.1 ha.2.2.2 hz
    have wrapUnique : ∀ {m t u k k' : Int}, 0 ≤ t → t < m → 0 ≤ u → u < m →
        t - k * m = u - k' * m → t = u ∧ k = k' := by
      intro m t u k k' h1 h2 h3 h4 h5
      have hk : (k - k') * m = t - u := by
        have : (k - k') * m = k * m - k' * m := by ring
        omega
      have : k - k' = 0 := by
        by_contra hne
        rcases lt_or_gt_of_ne hne with hlt | hgt
        · have : (k - k') * m ≤ (-1) * m := mul_le_mul_of_nonneg_right (by omega) (by omega)
          omega
        · have : 1 * m ≤ (k - k') * m := mul_le_mul_of_nonneg_right (by omega) (by omega)
          omega
      have hk0 : k = k' := by omega
      subst hk0
      exact ⟨by omega, rfl⟩
    have ux := wrapUnique px.1.1 px.1.2 hb.1.1 hb.1.2 (k := kOf ex.wrap) (k' := s.x)
      (by simp only [disp] at ex2; omega)
    have uy := wrapUnique py.1.1 py.1.2 hb.2.1.1 hb.2.1.2 (k := kOf ey.wrap) (k' := s.y)
      (by simp only [disp] at ey2; omega)
    have uz := wrapUnique pz.1.1 pz.1.2 hb.2.2.1 hb.2.2.2 (k := kOf ez.wrap) (k' := s.z)
      (by simp only [disp] at ez2; omega)
    refine ⟨ex, hx, ey, hy, ez, hz, ?_⟩
    rw [entry_call hn ha hx hy hz]
    refine ⟨by rw [ex2, ey2, ez2]; exact hpos, ?_⟩
    rw [ux.1, uy.1, uz.1, ux.2, uy.2, uz.2, e, ← hi, hj]

end Verif.Grid
