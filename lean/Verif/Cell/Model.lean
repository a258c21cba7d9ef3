import Verif.Kin.Model
import Verif.Lattice.Model
/-
Model of the cells of the forced thermalisation: `ThermLatticeNode` and the parts of
`GrandCanThermalizer` that work on the lattice, grandcan_thermalizer.cc/.h.  Doubles are exact real
numbers (positions and cell sizes are rational numbers, as in `Verif.Lattice`).  The equation of state
(hadgas_eos.cc) is an arbitrary oracle here; its own code is modelled in `Verif.Eos`.  Log messages are
dropped, the warning about the iteration limit is the second component of `loop`.
-/
namespace Verif.Cell

open Kin (V3 V4)

/-- A thermal state: pressure, temperature and chemical potentials (`EosTable::table_element`,
hadgas_eos.h:58-69). -/
structure State where
  (p T mub mus muq : ℝ)

/-- The equation of state: `is_tabulated` (hadgas_eos.h:360), `from_table` (a function of the energy,
baryon and charge density, :349-352), `solve_eos` (energy, baryon, strangeness, charge density to T, μB,
μS, μQ, :322-324) and `pressure` (:195-197). -/
structure Eos where
  tabulated : Bool
  table : ℝ → ℝ → ℝ → State
  solve : ℝ → ℝ → ℝ → ℝ → ℝ × ℝ × ℝ × ℝ
  pressure : ℝ → ℝ → ℝ → ℝ → ℝ

/-- `ThermLatticeNode`, grandcan_thermalizer.h:117-140. -/
structure Node where
  (T0 : V4) (nb ns nq : ℝ)
  (e : ℝ) (v : V3) (st : State)

/-- The default node, grandcan_thermalizer.cc:22-33. -/
def Node.empty : Node := ⟨⟨0, 0, 0, 0⟩, 0, 0, 0, 0, ⟨0, 0, 0⟩, ⟨0, 0, 0, 0, 0⟩⟩

/-- A particle as far as the lattice sees it. -/
structure Part where
  (mom : V4) (B S Q : ℤ)

/-- `ThermLatticeNode::add_particle`, grandcan_thermalizer.cc:35-40. -/
noncomputable def Node.addParticle (n : Node) (x : Part) (factor : ℝ) : Node :=
  { n with
    T0 := n.T0.add ⟨x.mom.t * factor, x.mom.x * factor, x.mom.y * factor, x.mom.z * factor⟩
    nb := n.nb + x.B * factor
    ns := n.ns + x.S * factor
    nq := n.nq + x.Q * factor }

/-- The state of the matter for given densities, grandcan_thermalizer.cc:57-73: the table, or the solver
and the pressure if there is no table or the table has a negative pressure.  `nbr`, `nsr` are the
densities multiplied by `gamma_inv`. -/
noncomputable def look (eos : Eos) (e nbr nsr nq : ℝ) : State :=
  let t := eos.table e nbr nq
  if eos.tabulated = false ∨ t.p < 0 then
    let s := eos.solve e nbr nsr nq
    ⟨eos.pressure s.1 s.2.1 s.2.2.1 s.2.2.2, s.1, s.2.1, s.2.2.1, s.2.2.2⟩
  else t

/-- The rest of one pass after the test of convergence, grandcan_thermalizer.cc:55-74.  The charge density
is not multiplied by `gamma_inv`. -/
noncomputable def refine (eos : Eos) (n : Node) : Node :=
  let ginv := Real.sqrt (1 - n.v.sqr)
  let s := look eos n.e (ginv * n.nb) (ginv * n.ns) n.nq
  { n with st := s, v := n.T0.vec.div (n.T0.t + s.p) }

/-- `tolerance`, grandcan_thermalizer.cc:47. -/
noncomputable def tolerance : ℝ := 5 / 10000

/-- The iteration, grandcan_thermalizer.cc:49-75, with the number of passes left; `false` if the limit was
reached. -/
noncomputable def loop (eos : Eos) : ℕ → Node → Node × Bool
  | 0, n => (n, false)
  | k + 1, n =>
    let e := n.T0.t - n.T0.vec.dot n.v
    let n' := { n with e := e }
    if |e - n.e| < tolerance then (n', true) else loop eos k (refine eos n')

/-- `compute_rest_frame_quantities`, grandcan_thermalizer.cc:42-80. -/
noncomputable def compute (eos : Eos) (n : Node) : Node × Bool := loop eos 50 { n with v := ⟨0, 0, 0⟩ }

/-- One node in `update_thermalizer_lattice`, grandcan_thermalizer.cc:135-148. -/
noncomputable def updateNode (eos : Eos) (ecrit : ℝ) (ignore : Bool) (n : Node) : Node :=
  if ignore = false ∨ n.T0.t + |n.T0.x| + |n.T0.y| + |n.T0.z| ≥ ecrit then (compute eos n).1
  else Node.empty

/-! ### The region that is thermalised -/

/-- A particle of the list: position and an arbitrary identity. -/
structure Mem (α : Type) where
  (pos : Lattice.V3 ℚ) (id : α)

/-- Whether the particle is put on `to_remove_`, grandcan_thermalizer.cc:522-527; an error of `value_at` is
passed on. -/
noncomputable def inRegion {α : Type} (L : Lattice.Lat Node) (ecrit : ℝ) (x : Mem α) : Except Lattice.Err Bool := do
  let (on, node) ← Lattice.valueAt Node.empty L x.pos
  return on && decide (node.e > ecrit)

/-- The loop over the particles, grandcan_thermalizer.cc:522-528. -/
noncomputable def collect {α : Type} (L : Lattice.Lat Node) (ecrit : ℝ) : List (Mem α) → Except Lattice.Err (List (Mem α))
  | [] => .ok []
  | x :: xs => do
    let b ← inRegion L ecrit x
    let r ← collect L ecrit xs
    return if b then x :: r else r

/-- `to_remove_` after `thermalize`, grandcan_thermalizer.cc:519-538. -/
noncomputable def toRemove {α : Type} (L : Lattice.Lat Node) (ecrit : ℝ) (xs : List (Mem α)) :
    Except Lattice.Err (List (Mem α)) := do
  let r ← collect L ecrit xs
  return if r.length > 30 then r else []

/-- `cells_to_sample_`, grandcan_thermalizer.cc:546-552. -/
noncomputable def cellsToSample (L : Lattice.Lat Node) (ecrit : ℝ) : List ℕ :=
  (List.range L.data.length).filter fun i => match L.data[i]? with
    | some n => decide (n.e > ecrit)
    | none => false

/-! ### Sampling in the cells -/

/-- The number of particles of a type in one cell, grandcan_thermalizer.cc:258-263: `dens` is
`partial_density` as a function of T, μB, μS, μQ. -/
noncomputable def numberBF (vol : ℝ) (dens : ℝ → ℝ → ℝ → ℝ → ℝ) (c : Node) : ℝ :=
  vol * (1 / Real.sqrt (1 - c.v.sqr)) * dens c.st.T c.st.mub c.st.mus c.st.muq

/-- The number of particles of one cell in the mode algorithm, grandcan_thermalizer.h:309-321, for the types
allowed in this mode: the chemical potential of the charge is 0. -/
noncomputable def numberMode (vol : ℝ) (types : List (ℝ → ℝ → ℝ → ℝ → ℝ)) (c : Node) : ℝ :=
  types.foldl (fun s dens =>
    s + vol * (1 / Real.sqrt (1 - c.v.sqr)) * dens c.st.T c.st.mub c.st.mus 0) 0

/-- `mult_sort_` of a type, grandcan_thermalizer.cc:300-311. -/
noncomputable def expected (vol : ℝ) (ntest : ℕ) (dens : ℝ → ℝ → ℝ → ℝ → ℝ) (cs : List Node) : ℝ :=
  cs.foldl (fun s c =>
    s + vol * (1 / Real.sqrt (1 - c.v.sqr)) * ntest * dens c.st.T c.st.mub c.st.mus c.st.muq) 0

/-- `N_total_in_cells_`, grandcan_thermalizer.cc:256, 265. -/
noncomputable def totalN (ns : List ℝ) : ℝ := ns.foldl (fun s x => s + x) 0

/-- The `while` loop that chooses a cell, grandcan_thermalizer.cc:272-277 (and .h:348-353): the index at the
end of the loop; `none` if a number behind the last one is read. -/
noncomputable def walk (r : ℝ) : List ℝ → ℝ → ℤ → Option ℤ
  | [], s, i => if s < r then none else some i
  | x :: xs, s, i => if s < r then walk r xs (s + x) (i + 1) else some i

/-- The chosen position in `cells_to_sample_`, grandcan_thermalizer.cc:270-278, for the uniform number `r`;
`none` if an element outside of a vector is read. -/
noncomputable def choose (ns : List ℝ) (r : ℝ) : Option ℕ :=
  (walk r ns 0 (-1)).bind fun i => if 0 ≤ i then some i.toNat else none

/-- The position of a sampled particle, grandcan_thermalizer.cc:150-157, 280, 286: `u` are the three numbers
of `uniform_in_cell`. -/
def place (L : Lattice.Lat Node) (index : ℕ) (u : Lattice.V3 ℚ) : Lattice.V3 ℚ :=
  let c := Lattice.centerOf L index
  ⟨c.x + u.x, c.y + u.y, c.z + u.z⟩

/-- The momentum of a sampled particle, grandcan_thermalizer.cc:283-291: `q` is the direction times the
sampled absolute value. -/
noncomputable def momentum (m : ℝ) (q : V3) (c : Node) : V4 :=
  Kin.boost (V4.mk' (Real.sqrt (m * m + q.dot q)) q) c.v.neg

end Verif.Cell
