import Verif.Kin.Model
/-
Model of the forced thermalisation: grandcan_thermalizer.cc/.h (sampling of the hadron numbers by
the algorithm of Becattini and Ferroni and by mode sampling, `renormalize_momenta`) and
`BesselSampler::sample` of random.cc.

Random numbers are inputs of the model.  Multiplicities are exact rational numbers, so the rounding
of `sum -= mult_sort_[i]` is not modelled.  Positions and single momenta of the sampled particles are
not modelled here; only their energies enter.
-/
namespace Verif.Therm

/-- The quantum numbers of a hadron type, particletype.h:300-330: baryon number, strangeness and
charge. -/
structure Had where
  (B S Q : ℤ)
  deriving DecidableEq, Repr

/-- `HadronClass`, grandcan_thermalizer.h:151-166. -/
inductive Cls
  | baryon | antibaryon | posS | negS | posQ | negQ | neutral
  deriving DecidableEq, Repr

/-- `get_class`, grandcan_thermalizer.h:456-470. -/
def getClass (h : Had) : Cls :=
  if h.B > 0 then .baryon
  else if h.B < 0 then .antibaryon
  else if h.S > 0 then .posS
  else if h.S < 0 then .negS
  else if h.Q > 0 then .posQ
  else if h.Q < 0 then .negQ
  else .neutral

/-- A hadron type together with its mean multiplicity, `eos_typelist_` and `mult_sort_`,
grandcan_thermalizer.h:493-497. -/
structure Entry where
  had : Had
  mult : ℚ

/-- `mult_classes_`, grandcan_thermalizer.cc:314-317: sum of the multiplicities of a class. -/
def multClass (es : List Entry) (c : Cls) : ℚ :=
  ((es.filter fun e => getClass e.had = c).map Entry.mult).sum

/-- `sample_multinomial`, grandcan_thermalizer.cc:227-250.  `ints` is `mult_int_`, `sum` the local
variable, `N` is `N_to_sample`, `i` the index; `bin c i N p` is the outcome of
`random::binomial(N, p)` in the call for type `i` of class `c`.  Dividing by a vanishing sum, or a
probability outside of [0,1], is undefined behaviour of `std::binomial_distribution` (`none`). -/
def multinomial (bin : Cls → ℕ → ℤ → ℚ → ℤ) (c : Cls) :
    List Entry → List ℤ → ℚ → ℤ → ℕ → Option (List ℤ)
  | [], ints, _, _, _ => some ints
  | _ :: _, [], _, _, _ => none
  | e :: es, k :: ks, sum, N, i =>
    if N ≤ 0 then some (k :: ks)
    else if getClass e.had ≠ c then (k :: ·) <$> multinomial bin c es ks sum N (i + 1)
    else if sum = 0 then none
    else
      let p := e.mult / sum
      if p < 0 ∨ 1 < p then none
      else
        let n := bin c i N p
        (n :: ·) <$> multinomial bin c es ks (sum - e.mult) (N - n) (i + 1)

/-- `BesselSampler::sample`, random.cc:73-79: two numbers with a fixed difference; `n` is the
rounded normal or the discrete random number. -/
def bessel (diff n : ℤ) : ℤ × ℤ :=
  if diff ≥ 0 then (n + |diff|, n) else (n, n + |diff|)

/-- `ThermalizationAlgorithm`, forwarddeclarations.h: the two variants of the BF algorithm. -/
inductive Variant
  | biased | unbiased
  deriving DecidableEq, Repr

/-- The random numbers of one attempt of the loop in `thermalize_BF_algo`. -/
structure Draws where
  /-- Random numbers of the three Bessel samplers (the smaller of the two numbers). -/
  (bB bS bC : ℤ)
  /-- Poisson numbers of the four charged meson classes and of the neutral mesons. -/
  (pS mS pC mC zero : ℤ)
  /-- Binomial numbers. -/
  bin : Cls → ℕ → ℤ → ℚ → ℤ
  /-- Whether the sampled energy is close enough to the initial one. -/
  energyOk : Bool

/-- The numbers of particles and antiparticles of a pair of meson classes,
grandcan_thermalizer.cc:336-352 and 361-377: Bessel numbers with fixed difference in the biased
variant, two independent Poisson numbers in the other. -/
def Variant.numbers (v : Variant) (diff n pois pois' : ℤ) : ℤ × ℤ :=
  match v with
  | .biased => bessel diff n
  | .unbiased => (pois, pois')

/-- Sums over the sampled numbers, grandcan_thermalizer.cc:330-334 and 355-359. -/
def weigh (f : Had → ℤ) (es : List Entry) (ints : List ℤ) : ℤ :=
  ((es.zip ints).map fun x => f x.1.had * x.2).sum

/-- Result of one attempt. -/
inductive Attempt
  | accepted (ints : List ℤ) | rejected | undefined
  deriving DecidableEq, Repr

/-- One pass of the loop in `thermalize_BF_algo`, grandcan_thermalizer.cc:322-402, for initial
baryon number `B0`, strangeness `S0` and charge `Q0`. -/
def attempt (v : Variant) (micro : Bool) (es : List Entry) (B0 S0 Q0 : ℤ) (d : Draws) : Attempt :=
  let sample c N ints := multinomial d.bin c es ints (multClass es c) N 0
  let bb := bessel B0 d.bB
  match (sample .baryon bb.1 (List.replicate es.length 0)).bind (sample .antibaryon bb.2) with
  | none => .undefined
  | some ints =>
    let dS := S0 - weigh Had.S es ints
    let ss := v.numbers dS d.bS d.pS d.mS
    if v = .unbiased ∧ ss.1 - ss.2 ≠ dS then .rejected
    else
      match (sample .posS ss.1 ints).bind (sample .negS ss.2) with
      | none => .undefined
      | some ints =>
        let dC := Q0 - weigh Had.Q es ints
        let cc := v.numbers dC d.bC d.pC d.mC
        if v = .unbiased ∧ cc.1 - cc.2 ≠ dC then .rejected
        else
          match ((sample .posQ cc.1 ints).bind (sample .negQ cc.2)).bind (sample .neutral d.zero) with
          | none => .undefined
          | some ints => if micro && !d.energyOk then .rejected else .accepted ints

/-- The `while (true)` loop, grandcan_thermalizer.cc:322-402, on a finite sequence of attempts;
`none` if it is still running or if the behaviour is undefined. -/
def bfLoop (v : Variant) (micro : Bool) (es : List Entry) (B0 S0 Q0 : ℤ) :
    List Draws → Option (List ℤ)
  | [] => none
  | d :: ds =>
    match attempt v micro es B0 S0 Q0 d with
    | .accepted ints => some ints
    | .rejected => bfLoop v micro es B0 S0 Q0 ds
    | .undefined => none

/-- `sample_in_random_cell_BF_algo` for all types, grandcan_thermalizer.cc:270 and 385-387: the
hadrons that are created (`for (int i = 0; i < mult_int_[type]; i++)`). -/
def sampledList (es : List Entry) (ints : List ℤ) : List Had :=
  (es.zip ints).flatMap fun (x : Entry × ℤ) => List.replicate x.2.toNat x.1.had

/-! ### Mode sampling -/

/-- The random numbers of one call of `sample_in_random_cell_mode_algo`: the multiplicities of the
types in the chosen cell, the number that selects the type and the resulting energy. -/
structure Draw where
  dens : ℕ → ℚ
  r : ℚ
  energy : ℚ

/-- Selection of the type in `sample_in_random_cell_mode_algo`, grandcan_thermalizer.h:385-397;
`none` if no type is selected (dereferencing a null pointer). -/
def pick (cond : Had → Bool) (dens : ℕ → ℚ) (r : ℚ) : List Had → ℕ → ℚ → Option Had
  | [], _, _ => none
  | h :: hs, i, sum =>
    if !cond h then pick cond dens r hs (i + 1) sum
    else
      let sum' := sum + dens i
      if sum' ≥ r then some h else pick cond dens r hs (i + 1) sum'

/-- A sampled particle. -/
structure Part where
  had : Had
  energy : ℚ

/-- `sample_in_random_cell_mode_algo`, grandcan_thermalizer.h:366-417. -/
def sampleMode (types : List Had) (cond : Had → Bool) (d : Draw) : Option Part :=
  (pick cond d.dens d.r types 0 0).map fun h => ⟨h, d.energy⟩

/-- The loops of `thermalize_mode_algo`: while `more` holds, draw a particle and let `take` decide
whether it is kept.  `sum` is the counter that the loop compares, `en` the energy; the result
includes the unused random numbers; `none` if the loop is still running at the end of the random
numbers or the behaviour is undefined. -/
def drawLoop (types : List Had) (cond : Had → Bool) (more : ℤ → ℚ → Bool)
    (take : ℤ → Had → Bool) (f : Had → ℤ) :
    List Draw → ℤ → ℚ → List Part → Option (ℤ × List Part × List Draw)
  | ds, sum, en, acc =>
    if more sum en then
      match ds with
      | [] => none
      | d :: ds' =>
        match sampleMode types cond d with
        | none => none
        | some p =>
          if take sum p.had then
            drawLoop types cond more take f ds' (sum + f p.had) (en + p.energy) (acc ++ [p])
          else drawLoop types cond more take f ds' sum (en + p.energy) acc
    else some (sum, acc, ds)
termination_by ds => ds.length

/-- Total of a quantum number in a particle list, `QuantumNumbers(ParticleList)`,
quantumnumbers.h:115-119. -/
def total (f : Had → ℤ) (ps : List Part) : ℤ := (ps.map fun p => f p.had).sum

/-- Total energy, quantumnumbers.h:125-133. -/
def energy (ps : List Part) : ℚ := (ps.map Part.energy).sum

/-- `thermalize_mode_algo`, grandcan_thermalizer.cc:405-511. -/
def modeAlgo (types : List Had) (E0 : ℚ) (B0 S0 Q0 : ℤ) (ds : List Draw) : Option (List Part) := do
  -- Mode 1
  let (sp, acc, ds) ← drawLoop types (fun _ => true) (fun s e => decide (E0 > e) || decide (s < S0))
    (fun _ h => decide (h.S > 0)) Had.S ds 0 0 []
  -- Mode 2
  let (_, acc, ds) ← drawLoop types (fun h => decide (h.S < 0)) (fun s _ => decide (s > S0))
    (fun s h => decide (s + h.S ≥ S0)) Had.S ds sp 0 acc
  -- Mode 3
  let (E1, B1) := (E0 - energy acc, B0 - total Had.B acc)
  let (bp, acc, ds) ← drawLoop types (fun h => decide (h.S = 0))
    (fun b e => decide (E1 > e) || decide (b < B1)) (fun _ h => decide (h.B > 0)) Had.B ds 0 0 acc
  -- Mode 4
  let (_, acc, ds) ← drawLoop types (fun h => decide (h.S = 0) && decide (h.B < 0))
    (fun b _ => decide (b > B1)) (fun b h => decide (b + h.B ≥ B1)) Had.B ds bp 0 acc
  -- Mode 5
  let (E2, Q2) := (E0 - energy acc, Q0 - total Had.Q acc)
  let (qp, acc, ds) ← drawLoop types (fun h => decide (h.S = 0) && decide (h.B = 0))
    (fun q e => decide (E2 > e) || decide (q < Q2)) (fun _ h => decide (h.Q > 0)) Had.Q ds 0 0 acc
  -- Mode 6
  let (_, acc, ds) ← drawLoop types
    (fun h => decide (h.S = 0) && decide (h.B = 0) && decide (h.Q < 0))
    (fun q _ => decide (q > Q2)) (fun q h => decide (q + h.Q ≥ Q2)) Had.Q ds qp 0 acc
  -- Mode 7
  let E3 := E0 - energy acc
  let (_, acc, _) ← drawLoop types
    (fun h => decide (h.S = 0) && decide (h.B = 0) && decide (h.Q = 0))
    (fun _ e => decide (E3 > e)) (fun _ _ => true) Had.Q ds 0 0 acc
  return acc

/-! ### Momenta -/

open Kin in
/-- A particle with its pole mass and its four-momentum. -/
structure MPart where
  mass : ℝ
  p : V4

open Kin in
/-- `set_4momentum(double, ThreeVector)`, particledata.h:187-189. -/
noncomputable def onShell (m : ℝ) (p : V3) : V4 :=
  V4.mk' (Real.sqrt (m * m + p.dot p)) p

open Kin in
/-- `QuantumNumbers(plist).momentum()`, quantumnumbers.h:115-126. -/
noncomputable def totalP (ps : List MPart) : V4 :=
  ps.foldl (fun s q => s.add q.p) ⟨0, 0, 0, 0⟩

/-- The energy of the list when all momenta are multiplied by `1 + a`,
grandcan_thermalizer.cc:202-207. -/
noncomputable def scaledE (ps : List MPart) (a : ℝ) : ℝ :=
  (ps.map fun q => Real.sqrt (q.p.t * q.p.t + a * (a + 2) * q.p.vec.sqr)).sum

/-- The bisection, grandcan_thermalizer.cc:200-219, with `k` passes left; `tol` is `really_small`.
The last `a` and its error are returned. -/
noncomputable def bisect (f : ℝ → ℝ) (target tol : ℝ) : ℕ → ℝ → ℝ → ℝ
  | 0, lo, hi => (1 / 2) * (lo + hi)
  | k + 1, lo, hi =>
    let a := (1 / 2) * (lo + hi)
    let er := f a - target
    if |er| > tol ∧ k ≠ 0 then
      if er ≥ 0 then bisect f target tol k lo a else bisect f target tol k a hi
    else a

/-- `renormalize_momenta` up to the boost to the centre of mass frame,
grandcan_thermalizer.cc:159-187. -/
noncomputable def centred (ps : List MPart) (req : Kin.V4) : List MPart :=
  let add := (req.vec.sub (totalP ps).vec).div ps.length
  let ps := ps.map fun q => { q with p := onShell q.mass (q.p.vec.add add) }
  let beta := (totalP ps).velocity
  ps.map fun q => { q with p := Kin.boost q.p beta }

/-- The factor found by the search, grandcan_thermalizer.cc:181-219. -/
noncomputable def factor (cm : List MPart) (req : Kin.V4) : ℝ :=
  let E := (cm.map fun q => q.p.t).sum
  if req.abs ≥ E then bisect (scaledE cm) req.abs (1 / 1000000) 100 0 10
  else bisect (scaledE cm) req.abs (1 / 1000000) 100 (-1) 0

/-- `renormalize_momenta`, grandcan_thermalizer.cc:160-225. -/
noncomputable def renormalize (ps : List MPart) (req : Kin.V4) : List MPart :=
  let cm := centred ps req
  let a := factor cm req
  cm.map fun q =>
    { q with p := Kin.boost (onShell q.mass (q.p.vec.smul (1 + a))) req.velocity.neg }

end Verif.Therm
