import Verif.Sec.Balance

/-!
Concrete cases for C109 and C110, and the cases where the English claims fail.
-/

namespace Verif.Sec

open Verif

/-- A particle type with given code; stable if the width is zero. -/
def mkType (pdg : Nat) (mass width : ℝ) (spin : Nat) : PType :=
  ⟨pdg, mass, width, 0, spin, mass, mass, pdg⟩

/-- A world with given types, everything else trivial. -/
noncomputable def mkWorld (types : List PType) (sqrts : ℝ) (par : Par → ℝ) : World where
  types := types
  nucleons := []
  antiNucleons := []
  deltas := []
  antiDeltas := []
  sqrts := sqrts
  energy := fun _ _ => sqrts
  m1 := 1
  m2 := 1
  par := par
  weight := fun _ _ _ _ => 1
  iso := fun _ _ _ _ _ => 1
  totI := fun _ _ => [0]
  intNR := fun _ => 1
  intRR := fun _ _ => 1
  intRK := fun _ => 1
  intPiR := fun _ => 1
  debug := false

theorem mk_lists {types : List PType} {s : ℝ} {par : Par → ℝ} (h : ∀ t ∈ types, Good t) :
    Lists (mkWorld types s par) := by
  constructor
  · exact h
  all_goals intro t ht; exact absurd ht List.not_mem_nil

/-- Proton, triton and hypertriton. -/
noncomputable def protonT : PType := mkType 0x2212 (938 / 1000) 0 1
noncomputable def tritonT : PType := mkType (Pdg.mkNuc 0 0 1 3 0) (2809 / 1000) 0 1
noncomputable def hypertritonT : PType := mkType (Pdg.mkNuc 0 1 1 3 0) (2991 / 1000) 0 1

theorem good_proton : Good protonT := by
  constructor
  · intro _; constructor <;> decide +kernel
  · intro h; exact absurd h (by decide +kernel)

theorem good_triton : Good tritonT := by
  constructor
  · intro h; exact absurd h (by decide +kernel)
  · intro _; decide +kernel

theorem good_hypertriton : Good hypertritonT := by
  constructor
  · intro h; exact absurd h (by decide +kernel)
  · intro _; decide +kernel

/-- The codes are those of particles.txt. -/
example : Pdg.fromDecimal 1000010030 = .ok tritonT.pdg ∧
    Pdg.fromDecimal 1010010030 = .ok hypertritonT.pdg := by
  constructor <;> exact of_decide_eq_true (by decide +kernel)

noncomputable def nucWorld : World := mkWorld [protonT, tritonT, hypertritonT] 5 fun _ => 1

/-- **C109** is false with light nuclei: proton + triton is offered the channel proton +
hypertriton, which has another strangeness. (Only a pair of a bound nucleus and an excited one is
meant; an assertion notices in debug builds.) -/
theorem C109_hypertriton_false : ∃ (W : World) (inc : Included) (a b : PType) (l : List Branch)
    (br : Branch), Lists W ∧ Good a ∧ Good b ∧ W.debug = false ∧ twoToTwo W inc 0 a b = .ok l ∧
      br ∈ l ∧ total Pdg.strangeness [a, b] = 0 ∧ total Pdg.strangeness br.out = -1 := by
  refine ⟨nucWorld, ⟨true, true, true, true, true, true, true, true⟩, protonT, tritonT, ?_⟩
  have hx : ∃ x, xsDn nucWorld hypertritonT tritonT protonT = .ok x := by
    unfold xsDn
    have hdb : nucWorld.debug = false := rfl
    simp only [hdb, Bool.false_eq_true, false_and, if_false]
    split_ifs <;> exact ⟨_, rfl⟩
  obtain ⟨x, hx⟩ := hx
  refine ⟨[⟨[protonT, hypertritonT], x⟩], ⟨[protonT, hypertritonT], x⟩, ?_, good_proton,
    good_triton, rfl, ?_, by simp, by decide +kernel,
    (by decide +kernel : total Pdg.strangeness [protonT, hypertritonT] = -1)⟩
  · apply mk_lists
    intro t ht
    simp only [List.mem_cons, List.not_mem_nil, or_false] at ht
    rcases ht with rfl | rfl | rfl
    · exact good_proton
    · exact good_triton
    · exact good_hypertriton
  · have hl : lightNuclei nucWorld = [tritonT, hypertritonT] := by rfl
    have p1 : product tritonT tritonT = false := by decide +kernel
    have p2 : product tritonT hypertritonT = true := by decide +kernel
    have b1 : (Pdg.isBaryon protonT.pdg && Pdg.isBaryon tritonT.pdg) = false := by decide +kernel
    have b2 : ((Pdg.isBaryon protonT.pdg && Pdg.isMeson tritonT.pdg) ||
      (Pdg.isMeson protonT.pdg && Pdg.isBaryon tritonT.pdg)) = false := by decide +kernel
    have b3 : (Pdg.isNucleus protonT.pdg || Pdg.isNucleus tritonT.pdg) = true := by decide +kernel
    have b4 : ((isNucleon protonT && Pdg.isNucleus tritonT.pdg) ||
      (isNucleon tritonT && Pdg.isNucleus protonT.pdg)) = true := by decide +kernel
    have b5 : Pdg.isNucleus protonT.pdg = false := by decide +kernel
    have b6 : isNucleon protonT = true := by decide +kernel
    unfold twoToTwo
    simp only [b1, b2, b3, b4, Bool.false_eq_true, if_false, if_true]
    unfold dnXx
    simp only [if_true, b5, b6, Bool.false_eq_true, if_false, hl]
    simp only [dnLoop, p1, p2, Bool.false_eq_true, if_false, if_true, hx, bind, Except.bind]

/-- Particles of `π⁻ p → K Y`. -/
noncomputable def piMinusT : PType := mkType (2 ^ 31 + 0x211) (138 / 1000) 0 0
noncomputable def kPlusT : PType := mkType 0x321 (494 / 1000) 0 0
noncomputable def kZeroT : PType := mkType 0x311 (494 / 1000) 0 0
noncomputable def sigmaMinusT : PType := mkType 0x3112 (1189 / 1000) 0 1
noncomputable def sigmaZeroT : PType := mkType 0x3212 (1189 / 1000) 0 1
noncomputable def lambdaT : PType := mkType 0x3122 (1116 / 1000) 0 1

noncomputable def piWorld : World :=
  mkWorld [protonT, piMinusT, kPlusT, kZeroT, sigmaMinusT, sigmaZeroT, lambdaT] 5 fun _ => 1

theorem good_of {t : PType} (h : t.pdg < 2 ^ 32 ∧ Pdg.dump t.pdg = t.pdg)
    (hn : Pdg.isNucleus t.pdg = false) : Good t :=
  ⟨fun _ => h, fun h => by rw [hn] at h; cases h⟩

theorem pi_good : ∀ t ∈ piWorld.types, Good t := by
  intro t ht
  simp only [piWorld, mkWorld, List.mem_cons, List.not_mem_nil, or_false] at ht
  rcases ht with rfl | rfl | rfl | rfl | rfl | rfl | rfl <;>
    exact good_of (by decide +kernel) (by decide +kernel)

/-- Three channels. -/
theorem rare_piMinus : rareTwoToTwo piWorld piMinusT protonT =
    .ok [⟨[kPlusT, sigmaMinusT], 1⟩, ⟨[kZeroT, sigmaZeroT], 1⟩, ⟨[kZeroT, lambdaT], 1⟩] ∧
    Lists piWorld ∧ Good piMinusT ∧ Good protonT := by
  refine ⟨?_, mk_lists pi_good, pi_good _ (by simp [piWorld, mkWorld]), good_proton⟩
  have c1 : ((isNucleon piMinusT && isPion protonT) || (isNucleon protonT && isPion piMinusT)) =
    true := by decide +kernel
  have c2 : isNucleon piMinusT = false := by decide +kernel
  have sel : select npiYk (fun _ => true) protonT piMinusT =
      [⟨(0x2212), (-0x211), .always, .par .piMpSigmaMKP, (0x321), (0x3112)⟩,
       ⟨(0x2212), (-0x211), .always, .par .piMpSigmaZKZ, (0x311), (0x3212)⟩,
       ⟨(0x2212), (-0x211), .always, .par .piMpLambdaKZ, (0x311), (0x3122)⟩] := by decide +kernel
  have f1 : find piWorld 0x321 = .ok kPlusT := rfl
  have f2 : find piWorld 0x311 = .ok kZeroT := rfl
  have f3 : find piWorld 0x3112 = .ok sigmaMinusT := rfl
  have f4 : find piWorld 0x3212 = .ok sigmaZeroT := rfl
  have f5 : find piWorld 0x3122 = .ok lambdaT := rfl
  have g1 : ¬ piWorld.energy kPlusT sigmaMinusT ≤ kPlusT.minSpec + sigmaMinusT.minSpec := by
    norm_num [piWorld, mkWorld, kPlusT, sigmaMinusT, mkType]
  have g2 : ¬ piWorld.energy kZeroT sigmaZeroT ≤ kZeroT.minSpec + sigmaZeroT.minSpec := by
    norm_num [piWorld, mkWorld, kZeroT, sigmaZeroT, mkType]
  have g3 : ¬ piWorld.energy kZeroT lambdaT ≤ kZeroT.minSpec + lambdaT.minSpec := by
    norm_num [piWorld, mkWorld, kZeroT, lambdaT, mkType]
  have hp : ∀ p, piWorld.par p = 1 := fun _ => rfl
  have hs : (1 : ℝ) > small := by norm_num [small]
  unfold rareTwoToTwo npiYkList
  rw [if_pos c1]
  simp only [c2, Bool.false_eq_true, if_false, sel]
  simp only [channels, channel, f1, f2, f3, f4, f5, bind, Except.bind, addChannel, eval, if_neg g1,
    if_neg g2, if_neg g3, hp, if_pos hs, List.append_nil, List.nil_append, List.cons_append]

/-- Particles of `Δ⁺⁺ K⁰ ↔ p K⁺`. -/
noncomputable def deltaPPT : PType := mkType 0x2224 (1232 / 1000) (117 / 1000) 3

noncomputable def kdWorld (par : ℝ) : World :=
  mkWorld [protonT, kPlusT, kZeroT, deltaPPT] 5 fun _ => par

/-- **C110** is false above the energy configured for `K N → K Δ`: the cutoff holds in this direction
only, the inverse reaction is still offered. -/
theorem C110_cutoff_false : ∃ (W : World) (inc : Included) (off : ℝ) (l : List Branch) (x : ℝ),
    Distinct W ∧ (∀ t ∈ W.types, Good t) ∧
      twoToTwo W inc off deltaPPT kZeroT = .ok [⟨[protonT, kPlusT], x⟩] ∧ 0 < x ∧
      twoToTwo W inc off protonT kPlusT = .ok l ∧ l = [] := by
  have e0 : entry false [0x2212, 0x321, 0x311, 0x2224] =
      .ok [0x2212, 0x321, 0x311, 0x2224, 0x321, 0x2214] := by rfl
  have hr : ∀ par, getRatio (kdWorld par) protonT kPlusT kZeroT deltaPPT = .ok (1 / 2) := by
    intro par
    have hdb : (kdWorld par).debug = false := rfl
    rw [getRatio_eq, hdb]
    have : ([protonT.pdg, kPlusT.pdg, kZeroT.pdg, deltaPPT.pdg] : List Nat) =
      [0x2212, 0x321, 0x311, 0x2224] := rfl
    rw [this, e0]
    simp only [Except.map, storedRatio, kdWorld, mkWorld]
    norm_num
  have hB : ∀ par, balanceRK (kdWorld par) deltaPPT kZeroT protonT kPlusT =
      balanceRK (kdWorld 0) deltaPPT kZeroT protonT kPlusT := fun _ => rfl
  have hb : balanceRK (kdWorld 0) deltaPPT kZeroT protonT kPlusT ≠ 0 := by
    have n1 : deltaPPT.pdg ≠ kZeroT.pdg := by decide
    have n2 : protonT.pdg ≠ kPlusT.pdg := by decide
    have k1 : Kin.pCM 5 1 1 ≠ 0 := by
      unfold Kin.pCM Kin.pCMS
      have : 0 < Kin.pCMsqrS (5 * 5) 1 1 := by norm_num [Kin.pCMsqrS]
      first
        | exact (Real.sqrt_pos.mpr this).ne'
        | (rw [if_pos this]; exact (Real.sqrt_pos.mpr this).ne')
    have k2 : Kin.pCMsqr 5 (938 / 1000) (494 / 1000) ≠ 0 := by
      norm_num [Kin.pCMsqr, Kin.pCMsqrS]
    simp only [balanceRK, if_neg n1, if_neg n2]
    simp only [kdWorld, mkWorld, deltaPPT, kZeroT, protonT, kPlusT, mkType]
    refine mul_ne_zero (by norm_num) (div_ne_zero k2 (mul_ne_zero k1 one_ne_zero))
  set B := balanceRK (kdWorld 0) deltaPPT kZeroT protonT kPlusT with hBdef
  refine ⟨kdWorld (2 / B), ⟨true, true, true, true, true, true, true, true⟩, 0, [], 1, ?_, ?_, ?_,
    by norm_num, ?_, rfl⟩
  · intro t ht u hu h
    simp only [kdWorld, mkWorld, List.mem_cons, List.not_mem_nil, or_false] at ht hu
    rcases ht with rfl | rfl | rfl | rfl <;> rcases hu with rfl | rfl | rfl | rfl <;>
      first | rfl | exact absurd h (by decide)
  · intro t ht
    simp only [kdWorld, mkWorld, List.mem_cons, List.not_mem_nil, or_false] at ht
    rcases ht with rfl | rfl | rfl | rfl <;> exact good_of (by decide +kernel) (by decide +kernel)
  · have b1 : (Pdg.isBaryon deltaPPT.pdg && Pdg.isBaryon kZeroT.pdg) = false := by decide +kernel
    have b2 : ((Pdg.isBaryon deltaPPT.pdg && Pdg.isMeson kZeroT.pdg) ||
      (Pdg.isMeson deltaPPT.pdg && Pdg.isBaryon kZeroT.pdg)) = true := by decide +kernel
    have b3 : ((isNucleon deltaPPT && isKaon kZeroT) || (isNucleon kZeroT && isKaon deltaPPT)) =
      false := by decide +kernel
    have b4 : ((Pdg.isHyperon deltaPPT.pdg && isPion kZeroT) ||
      (Pdg.isHyperon kZeroT.pdg && isPion deltaPPT)) = false := by decide +kernel
    have b5 : ((isDelta deltaPPT && isKaon kZeroT) || (isDelta kZeroT && isKaon deltaPPT)) =
      true := by decide +kernel
    have b6 : isDelta deltaPPT = true := by decide +kernel
    have sel : select deltakXx (fun _ => true) deltaPPT kZeroT =
      [⟨(0x2224), (0x311), .always, .balanceR .kPpInel (0x2212) (0x321), (0x2212), (0x321)⟩] := by
      decide +kernel
    have f1 : find (kdWorld (2 / B)) 0x2212 = .ok protonT := rfl
    have f2 : find (kdWorld (2 / B)) 0x321 = .ok kPlusT := rfl
    have g1 : ¬ (kdWorld (2 / B)).energy protonT kPlusT ≤ protonT.minSpec + kPlusT.minSpec := by
      norm_num [kdWorld, mkWorld, protonT, kPlusT, mkType]
    have hx : B * (1 / 2) * (kdWorld (2 / B)).par .kPpInel = 1 := by
      show B * (1 / 2) * (2 / B) = 1
      field_simp
    have hs : (1 : ℝ) > small := by norm_num [small]
    unfold twoToTwo deltakXxList
    simp only [b1, b2, b3, b4, b5, Bool.false_eq_true, if_false, if_true]
    simp only [b6, if_true, sel]
    simp only [channels, channel, f1, f2, bind, Except.bind, addChannel, eval, if_neg g1, hr, hB,
      ← hBdef, hx, if_pos hs, List.append_nil]
  · have b1 : (Pdg.isBaryon protonT.pdg && Pdg.isBaryon kPlusT.pdg) = false := by decide +kernel
    have b2 : ((Pdg.isBaryon protonT.pdg && Pdg.isMeson kPlusT.pdg) ||
      (Pdg.isMeson protonT.pdg && Pdg.isBaryon kPlusT.pdg)) = true := by decide +kernel
    have b3 : ((isNucleon protonT && isKaon kPlusT) || (isNucleon kPlusT && isKaon protonT)) =
      true := by decide +kernel
    have b6 : isNucleon protonT = true := by decide +kernel
    have off : decide ((kdWorld (2 / B)).sqrts < 0 + protonT.mass + kPlusT.mass) = false := by
      apply decide_eq_false
      norm_num [kdWorld, mkWorld, protonT, kPlusT, mkType]
    unfold twoToTwo nkXxList
    simp only [b1, b2, b3, Bool.false_eq_true, if_false, if_true]
    simp only [b6, if_true]
    simp only [off, Bool.and_false]
    have sel' : ∀ on : Flag → Bool, on .knkd = false → select nkXx on protonT kPlusT = [] := by
      intro on h
      have hall : (nkXx.all fun r => !(r.baryon == Pdg.code protonT.pdg &&
        r.meson == Pdg.code kPlusT.pdg) || r.flag == .knkd) = true := by decide +kernel
      unfold select
      rw [List.filter_eq_nil_iff]
      intro r hr hc
      have := List.all_eq_true.mp hall r hr
      simp only [Bool.and_eq_true, Bool.or_eq_true, beq_iff_eq, Bool.not_eq_true',
        Bool.and_eq_false_iff, beq_eq_false_iff_ne] at this hc
      rcases this with (h1 | h1) | h1
      · exact h1 hc.1.1
      · exact h1 hc.1.2
      · rw [h1, h] at hc; exact absurd hc.2 (by simp)
    rw [sel' _ rfl]
    rfl

end Verif.Sec
