/-
C153: configuration values which stand for an enumeration.
-/
import Verif.Enums.Spec
import Mathlib.Tactic.SplitIfs
import Mathlib.Tactic.FinCases
import Mathlib.Data.Fintype.Basic
import Mathlib.Data.Fin.Basic

namespace Verif.Enums
open Spec

theorem calcFrame_reads : Reads CalcFrame.read Spec.calcFrame := by
  intro s v
  unfold CalcFrame.read Spec.calcFrame
  split_ifs <;> subst_vars <;> simp_all <;> exact eq_comm

theorem fermi_reads : Reads Fermi.read Spec.fermi := by
  intro s v
  unfold Fermi.read Spec.fermi
  split_ifs <;> subst_vars <;> simp_all <;> exact eq_comm

theorem dens_reads : Reads Dens.read Spec.dens := by
  intro s v
  unfold Dens.read Spec.dens
  split_ifs <;> subst_vars <;> simp_all <;> exact eq_comm

theorem expansion_reads : Reads Expansion.read Spec.expansion := by
  intro s v
  unfold Expansion.read Spec.expansion
  split_ifs <;> subst_vars <;> simp_all <;> exact eq_comm

theorem deriv_reads : Reads Deriv.read Spec.deriv := by
  intro s v
  unfold Deriv.read Spec.deriv
  split_ifs <;> subst_vars <;> simp_all <;> exact eq_comm

theorem fieldDeriv_reads : Reads FieldDeriv.read Spec.fieldDeriv := by
  intro s v
  unfold FieldDeriv.read Spec.fieldDeriv
  split_ifs <;> subst_vars <;> simp_all <;> exact eq_comm

theorem smear_reads : Reads Smear.read Spec.smear := by
  intro s v
  unfold Smear.read Spec.smear
  split_ifs <;> subst_vars <;> simp_all <;> exact eq_comm

theorem step_reads : Reads Step.read Spec.step := by
  intro s v
  unfold Step.read Spec.step
  split_ifs <;> subst_vars <;> simp_all <;> exact eq_comm

theorem boxIc_reads : Reads BoxIc.read Spec.boxIc := by
  intro s v
  unfold BoxIc.read Spec.boxIc
  split_ifs <;> subst_vars <;> simp_all <;> exact eq_comm

theorem sphereIc_reads : Reads SphereIc.read Spec.sphereIc := by
  intro s v
  unfold SphereIc.read Spec.sphereIc
  split_ifs <;> subst_vars <;> simp_all <;> exact eq_comm

theorem nNbarTr_reads : Reads NNbarTr.read Spec.nNbarTr := by
  intro s v
  unfold NNbarTr.read Spec.nNbarTr
  split_ifs <;> subst_vars <;> simp_all <;> exact eq_comm

theorem sampl_reads : Reads Sampl.read Spec.sampl := by
  intro s v
  unfold Sampl.read Spec.sampl
  split_ifs <;> subst_vars <;> simp_all <;> exact eq_comm

theorem thermAlgo_reads : Reads ThermAlgo.read Spec.thermAlgo := by
  intro s v
  unfold ThermAlgo.read Spec.thermAlgo
  split_ifs <;> subst_vars <;> simp_all <;> exact eq_comm

theorem criterion_reads : Reads Criterion.read Spec.criterion := by
  intro s v
  unfold Criterion.read Spec.criterion
  split_ifs <;> subst_vars <;> simp_all <;> exact eq_comm

theorem spin_reads : Reads Spin.read Spec.spin := by
  intro s v
  unfold Spin.read Spec.spin
  split_ifs <;> subst_vars <;> simp_all <;> exact eq_comm

theorem totXs_reads : Reads TotXs.read Spec.totXs := by
  intro s v
  unfold TotXs.read Spec.totXs
  split_ifs <;> subst_vars <;> simp_all <;> exact eq_comm

theorem pseudo_reads : Reads Pseudo.read Spec.pseudo := by
  intro s v
  unfold Pseudo.read Spec.pseudo
  split_ifs <;> subst_vars <;> simp_all <;> exact eq_comm

theorem fluidization_reads : Reads Fluidization.read Spec.fluidization := by
  intro s v
  unfold Fluidization.read Spec.fluidization
  split_ifs <;> subst_vars <;> simp_all <;> exact eq_comm

theorem onlyFinal_reads : Reads OnlyFinal.read Spec.onlyFinal := by
  intro s v
  unfold OnlyFinal.read Spec.onlyFinal
  split_ifs <;> subst_vars <;> simp_all <;> exact eq_comm

/-- **C153.** For every option of the input file whose value stands for an enumeration, and for every
text: the text is accepted exactly if it is one of the documented words, with the documented meaning. -/
theorem C153_reads :
    Reads CalcFrame.read Spec.calcFrame ∧
    Reads Fermi.read Spec.fermi ∧
    Reads Dens.read Spec.dens ∧
    Reads Expansion.read Spec.expansion ∧
    Reads Deriv.read Spec.deriv ∧
    Reads FieldDeriv.read Spec.fieldDeriv ∧
    Reads Smear.read Spec.smear ∧
    Reads Step.read Spec.step ∧
    Reads BoxIc.read Spec.boxIc ∧
    Reads SphereIc.read Spec.sphereIc ∧
    Reads NNbarTr.read Spec.nNbarTr ∧
    Reads Sampl.read Spec.sampl ∧
    Reads ThermAlgo.read Spec.thermAlgo ∧
    Reads Criterion.read Spec.criterion ∧
    Reads Spin.read Spec.spin ∧
    Reads TotXs.read Spec.totXs ∧
    Reads Pseudo.read Spec.pseudo ∧
    Reads Fluidization.read Spec.fluidization ∧
    Reads OnlyFinal.read Spec.onlyFinal ∧
    Reads Level.read Spec.level := by
  refine ⟨calcFrame_reads, fermi_reads, dens_reads, expansion_reads, deriv_reads, fieldDeriv_reads, smear_reads, step_reads, boxIc_reads, sphereIc_reads, nNbarTr_reads, sampl_reads, thermAlgo_reads, criterion_reads, spin_reads, totXs_reads, pseudo_reads, fluidization_reads, onlyFinal_reads, ?_⟩
  intro s v
  unfold Level.read Spec.level
  split_ifs <;> subst_vars <;> simp_all <;> exact eq_comm

/-- **C153.** A value that is stored in the configuration is read back unchanged. -/
theorem C153_round_trip :
    RoundTrip CalcFrame.read CalcFrame.print ∧
    RoundTrip Fermi.read Fermi.print ∧
    RoundTrip Expansion.read Expansion.print ∧
    RoundTrip Deriv.read Deriv.print ∧
    RoundTrip FieldDeriv.read FieldDeriv.print ∧
    RoundTrip Smear.read Smear.print ∧
    RoundTrip Step.read Step.print ∧
    RoundTrip BoxIc.read BoxIc.print ∧
    RoundTrip SphereIc.read SphereIc.print ∧
    RoundTrip NNbarTr.read NNbarTr.print ∧
    RoundTrip Sampl.read Sampl.print ∧
    RoundTrip ThermAlgo.read ThermAlgo.print ∧
    RoundTrip Criterion.read Criterion.print ∧
    RoundTrip Spin.read Spin.print ∧
    RoundTrip TotXs.read TotXs.print ∧
    RoundTrip Pseudo.read Pseudo.print ∧
    RoundTrip Fluidization.read Fluidization.print ∧
    RoundTrip OnlyFinal.read OnlyFinal.print ∧
    RoundTrip Level.read Level.print ∧
    (∀ d : Dens, d ≠ .charge → d ≠ .strangeness → Dens.read d.print = some d) := by
  refine ⟨?_, ?_, ?_, ?_, ?_, ?_, ?_, ?_, ?_, ?_, ?_, ?_, ?_, ?_, ?_, ?_, ?_, ?_, ?_, ?_⟩ <;> intro v <;> cases v <;> first | rfl | (intros; rfl) | simp | decide

theorem calcFrame_helpful : Helpful CalcFrame.read CalcFrame.offered := by
  intro s
  unfold CalcFrame.read CalcFrame.offered
  split_ifs <;> subst_vars <;> simp_all

theorem fermi_helpful : Helpful Fermi.read Fermi.offered := by
  intro s
  unfold Fermi.read Fermi.offered
  split_ifs <;> subst_vars <;> simp_all

theorem expansion_helpful : Helpful Expansion.read Expansion.offered := by
  intro s
  unfold Expansion.read Expansion.offered
  split_ifs <;> subst_vars <;> simp_all

theorem deriv_helpful : Helpful Deriv.read Deriv.offered := by
  intro s
  unfold Deriv.read Deriv.offered
  split_ifs <;> subst_vars <;> simp_all

theorem fieldDeriv_helpful : Helpful FieldDeriv.read FieldDeriv.offered := by
  intro s
  unfold FieldDeriv.read FieldDeriv.offered
  split_ifs <;> subst_vars <;> simp_all

theorem smear_helpful : Helpful Smear.read Smear.offered := by
  intro s
  unfold Smear.read Smear.offered
  split_ifs <;> subst_vars <;> simp_all

theorem step_helpful : Helpful Step.read Step.offered := by
  intro s
  unfold Step.read Step.offered
  split_ifs <;> subst_vars <;> simp_all

theorem boxIc_helpful : Helpful BoxIc.read BoxIc.offered := by
  intro s
  unfold BoxIc.read BoxIc.offered
  split_ifs <;> subst_vars <;> simp_all

theorem sphereIc_helpful : Helpful SphereIc.read SphereIc.offered := by
  intro s
  unfold SphereIc.read SphereIc.offered
  split_ifs <;> subst_vars <;> simp_all

theorem nNbarTr_helpful : Helpful NNbarTr.read NNbarTr.offered := by
  intro s
  unfold NNbarTr.read NNbarTr.offered
  split_ifs <;> subst_vars <;> simp_all

theorem sampl_helpful : Helpful Sampl.read Sampl.offered := by
  intro s
  unfold Sampl.read Sampl.offered
  split_ifs <;> subst_vars <;> simp_all

theorem thermAlgo_helpful : Helpful ThermAlgo.read ThermAlgo.offered := by
  intro s
  unfold ThermAlgo.read ThermAlgo.offered
  split_ifs <;> subst_vars <;> simp_all

theorem criterion_helpful : Helpful Criterion.read Criterion.offered := by
  intro s
  unfold Criterion.read Criterion.offered
  split_ifs <;> subst_vars <;> simp_all

theorem totXs_helpful : Helpful TotXs.read TotXs.offered := by
  intro s
  unfold TotXs.read TotXs.offered
  split_ifs <;> subst_vars <;> simp_all

theorem pseudo_helpful : Helpful Pseudo.read Pseudo.offered := by
  intro s
  unfold Pseudo.read Pseudo.offered
  split_ifs <;> subst_vars <;> simp_all

theorem fluidization_helpful : Helpful Fluidization.read Fluidization.offered := by
  intro s
  unfold Fluidization.read Fluidization.offered
  split_ifs <;> subst_vars <;> simp_all

theorem onlyFinal_helpful : Helpful OnlyFinal.read OnlyFinal.offered := by
  intro s
  unfold OnlyFinal.read OnlyFinal.offered
  split_ifs <;> subst_vars <;> simp_all

/-- **C153.** The message about a wrong word offers exactly the words that work. -/
theorem C153_helpful :
    Helpful CalcFrame.read CalcFrame.offered ∧
    Helpful Fermi.read Fermi.offered ∧
    Helpful Expansion.read Expansion.offered ∧
    Helpful Deriv.read Deriv.offered ∧
    Helpful FieldDeriv.read FieldDeriv.offered ∧
    Helpful Smear.read Smear.offered ∧
    Helpful Step.read Step.offered ∧
    Helpful BoxIc.read BoxIc.offered ∧
    Helpful SphereIc.read SphereIc.offered ∧
    Helpful NNbarTr.read NNbarTr.offered ∧
    Helpful Sampl.read Sampl.offered ∧
    Helpful ThermAlgo.read ThermAlgo.offered ∧
    Helpful Criterion.read Criterion.offered ∧
    Helpful TotXs.read TotXs.offered ∧
    Helpful Pseudo.read Pseudo.offered ∧
    Helpful Fluidization.read Fluidization.offered ∧
    Helpful OnlyFinal.read OnlyFinal.offered :=
  ⟨calcFrame_helpful, fermi_helpful, expansion_helpful, deriv_helpful, fieldDeriv_helpful, smear_helpful, step_helpful, boxIc_helpful, sphereIc_helpful, nNbarTr_helpful, sampl_helpful, thermAlgo_helpful, criterion_helpful, totXs_helpful, pseudo_helpful, fluidization_helpful, onlyFinal_helpful⟩

/-! ### The sets -/

theorem reactionBit_iff (x : String) (i : Fin 10) : reactionBit x = some i ↔ x = Spec.reactions i := by
  unfold reactionBit
  split_ifs <;> subst_vars <;> fin_cases i <;> simp_all [Spec.reactions]

theorem multiBit_iff (x : String) (i : Fin 4) : multiBit x = some i ↔ x = Spec.multi i := by
  unfold multiBit
  split_ifs <;> subst_vars <;> fin_cases i <;> simp_all [Spec.multi]

theorem fluidBit_iff (x : String) (i : Fin 5) : fluidBit x = some i ↔ x = Spec.fluid i := by
  unfold fluidBit
  split_ifs <;> subst_vars <;> fin_cases i <;> simp_all [Spec.fluid]

theorem readBits_known {n : Nat} {bit : String → Option (Fin n)} {word : Fin n → String}
    (hb : ∀ x i, bit x = some i ↔ x = word i) (v : List String) (ha : "All" ∉ v)
    (hk : ∀ x ∈ v, ∃ i, x = word i) (s : Bits n) :
    readBits bit v s = some (fun i => decide (word i ∈ v) || s i) := by
  induction v generalizing s with
  | nil => simp [readBits]
  | cons x v ih =>
    have hx : x ≠ "All" := fun h => ha (by simp [h])
    obtain ⟨i, hi⟩ := hk x (by simp)
    have hbi := (hb x i).2 hi
    rw [readBits, if_neg hx, hbi]
    show readBits bit v (s.put i) = _
    rw [ih (fun h => ha (List.mem_cons_of_mem _ h)) (fun y hy => hk y (List.mem_cons_of_mem _ hy))]
    congr 1
    funext j
    unfold Bits.put
    by_cases hj : j = i
    · subst hj; simp [hi]
    · have : word j ≠ x := by
        intro h
        have := (hb x j).2 h.symm
        rw [hbi] at this
        exact hj (Option.some.inj this).symm
      simp [hj, this]

theorem readBits_unknown {n : Nat} {bit : String → Option (Fin n)} {word : Fin n → String}
    (hb : ∀ x i, bit x = some i ↔ x = word i) (u : List String) (x : String) (v : List String)
    (ha : "All" ∉ u) (hx : x ≠ "All") (hk : ∀ i, x ≠ word i) (s : Bits n) :
    readBits bit (u ++ x :: v) s = none := by
  induction u generalizing s with
  | nil =>
    have : bit x = none := by
      cases h : bit x with
      | none => rfl
      | some i => exact absurd ((hb x i).1 h) (hk i)
    rw [List.nil_append, readBits, if_neg hx, this]
  | cons y u ih =>
    have hy : y ≠ "All" := fun h => ha (by simp [h])
    rw [List.cons_append, readBits, if_neg hy]
    cases h : bit y with
    | none => rfl
    | some i => exact ih (fun h => ha (List.mem_cons_of_mem _ h)) _

theorem readBits_all {n : Nat} {bit : String → Option (Fin n)} {word : Fin n → String}
    (hb : ∀ x i, bit x = some i ↔ x = word i) (u v : List String)
    (hu : ∀ x ∈ u, ∃ i, x = word i) (s : Bits n) :
    readBits bit (u ++ "All" :: v) s = some (fun _ => true) := by
  induction u generalizing s with
  | nil => rw [List.nil_append, readBits, if_pos rfl]; rfl
  | cons y u ih =>
    rw [List.cons_append, readBits]
    by_cases hy : y = "All"
    · rw [if_pos hy]; rfl
    · obtain ⟨i, hi⟩ := hu y (by simp)
      rw [if_neg hy, (hb y i).2 hi]
      exact ih (fun z hz => hu z (List.mem_cons_of_mem _ hz)) _

theorem means_of {n : Nat} {bit : String → Option (Fin n)} {word : Fin n → String}
    (hb : ∀ x i, bit x = some i ↔ x = word i) (v : List String) (ha : "All" ∉ v) :
    Spec.Means word v (readBits bit v (fun _ => false)) := by
  refine ⟨fun hk => ?_, fun ⟨x, hx, hn⟩ => ?_⟩
  · rw [readBits_known hb v ha hk]
    simp
  · obtain ⟨u, w, rfl⟩ := List.append_of_mem hx
    exact readBits_unknown hb u x w (fun h => ha (by simp [h])) (fun h => ha (by simp [h])) hn _

/-- **C153.** For every list of words without "All": the set that is read holds exactly the listed
processes, whatever their order and however often they are repeated; a list with a word that is not
known is an error. -/
theorem C153_sets (v : List String) (ha : "All" ∉ v) :
    Spec.Means Spec.reactions v (readReactions v) ∧
    Spec.Means Spec.multi v (readMulti v) ∧
    Spec.Means Spec.fluid v (readFluid v) :=
  ⟨means_of reactionBit_iff v ha, means_of multiBit_iff v ha, means_of fluidBit_iff v ha⟩

/-- **C153.** "All", possibly after other known words, means every process. -/
theorem C153_all (u v : List String) :
    ((∀ x ∈ u, ∃ i, x = Spec.reactions i) →
      readReactions (u ++ "All" :: v) = some (fun _ => true)) ∧
    ((∀ x ∈ u, ∃ i, x = Spec.multi i) → readMulti (u ++ "All" :: v) = some (fun _ => true)) ∧
    ((∀ x ∈ u, ∃ i, x = Spec.fluid i) → readFluid (u ++ "All" :: v) = some (fun _ => true)) :=
  ⟨fun h => readBits_all reactionBit_iff u v h _, fun h => readBits_all multiBit_iff u v h _,
    fun h => readBits_all fluidBit_iff u v h _⟩

theorem mem_pushIf (b : Bool) (name : String) (r : List String) (x : String) :
    x ∈ pushIf b name r ↔ x ∈ r ∨ (b = true ∧ x = name) := by
  unfold pushIf
  cases b <;> simp

theorem round_of {n : Nat} {bit : String → Option (Fin n)} {word : Fin n → String}
    (hb : ∀ x i, bit x = some i ↔ x = word i) (hall : ∀ i, word i ≠ "All") (s : Bits n)
    (out : List String) (ho : ∀ x, x ∈ out ↔ ∃ i, s i = true ∧ x = word i) :
    readBits bit out (fun _ => false) = some s := by
  have ha : "All" ∉ out := by
    intro h
    obtain ⟨i, _, hi⟩ := (ho _).1 h
    exact hall i hi.symm
  rw [readBits_known hb out ha (fun x hx => by
    obtain ⟨i, _, hi⟩ := (ho x).1 hx
    exact ⟨i, hi⟩)]
  congr 1
  funext i
  simp only [Bool.or_false]
  by_cases hi : s i = true
  · rw [hi]; simp [ho]; exact ⟨i, hi, rfl⟩
  · have : word i ∉ out := by
      intro h
      obtain ⟨j, hj, hw⟩ := (ho _).1 h
      have h1 := (hb (word i) i).2 rfl
      have h2 := (hb (word i) j).2 hw
      rw [h1] at h2
      exact hi (Option.some.inj h2 ▸ hj)
    simp [this, hi]

/-- **C153.** A set of processes that is stored in the configuration is read back unchanged. -/
theorem C153_sets_round_trip :
    (∀ s : Bits 10, readReactions (printReactions s) = some s) ∧
    (∀ s : Bits 4, readMulti (printMulti s) = some s) ∧
    (∀ s : Bits 5, readFluid (printFluid s) = some s) := by
  refine ⟨fun s => ?_, fun s => ?_, fun s => ?_⟩
  · refine round_of reactionBit_iff (by intro i; fin_cases i <;> simp [Spec.reactions]) s _ ?_
    intro x
    simp [printReactions, mem_pushIf, Fin.exists_fin_succ, Spec.reactions, or_assoc]
  · refine round_of multiBit_iff (by intro i; fin_cases i <;> simp [Spec.multi]) s _ ?_
    intro x
    simp [printMulti, mem_pushIf, Fin.exists_fin_succ, Spec.multi, or_assoc]
  · refine round_of fluidBit_iff (by intro i; fin_cases i <;> simp [Spec.fluid]) s _ ?_
    intro x
    simp [printFluid, mem_pushIf, Fin.exists_fin_succ, Spec.fluid, or_assoc]

/-! ### Thermodynamic quantities -/

theorem thermq_iff (x : String) (q : ThermQ) : ThermQ.read x = some q ↔ x = Spec.quantity q := by
  unfold ThermQ.read
  split_ifs <;> subst_vars <;> cases q <;> simp_all [Spec.quantity]

theorem quantities_known (v : List String) (hk : ∀ x ∈ v, ∃ q, x = Spec.quantity q)
    (s : ThermQ → Bool) :
    readQuantities v s = some (fun q => decide (Spec.quantity q ∈ v) || s q) := by
  induction v generalizing s with
  | nil => simp [readQuantities]
  | cons x v ih =>
    obtain ⟨q, hq⟩ := hk x (by simp)
    have h := (thermq_iff x q).2 hq
    rw [readQuantities, h]
    show readQuantities v _ = _
    rw [ih (fun y hy => hk y (List.mem_cons_of_mem _ hy))]
    congr 1
    funext r
    by_cases hr : r = q
    · subst hr; simp [hq]
    · have : Spec.quantity r ≠ x := by
        intro he
        have := (thermq_iff x r).2 he.symm
        rw [h] at this
        exact hr (Option.some.inj this).symm
      simp [hr, this]

theorem quantities_unknown (v : List String) (x : String) (hx : x ∈ v)
    (hn : ∀ q, x ≠ Spec.quantity q) (s : ThermQ → Bool) : readQuantities v s = none := by
  induction v generalizing s with
  | nil => simp at hx
  | cons y v ih =>
    rw [readQuantities]
    cases h : ThermQ.read y with
    | none => rfl
    | some q =>
      rcases List.mem_cons.1 hx with rfl | hx
      · exact absurd ((thermq_iff x q).1 h) (hn q)
      · exact ih hx _

/-- **C153.** For every list of words: the set of thermodynamic quantities that is read holds exactly the
listed ones; a list with an unknown word is an error.  Storing and reading back gives the same
quantity. -/
theorem C153_quantities (v : List String) :
    Spec.Means Spec.quantity v (readQuantities v (fun _ => false)) ∧
    RoundTrip ThermQ.read ThermQ.print := by
  refine ⟨⟨fun hk => ?_, fun ⟨x, hx, hn⟩ => quantities_unknown v x hx hn _⟩,
    by intro q; cases q <;> rfl⟩
  rw [quantities_known v hk]
  simp

/-! ### What goes wrong -/

/-- The property with what is not true of the code: every density type that can be stored can be read,
every log level that is stored in the configuration can be read, the messages are right, and unknown
words are noticed wherever they are. -/
theorem C153_density_false : ¬ RoundTrip Dens.read Dens.print := by
  intro h
  have := h .charge
  revert this
  decide

/-- Of the eight log levels exactly four survive being stored in the configuration; the others are
stored with leading blanks and then rejected. -/
theorem C153_level_stored (l : Level) :
    (Level.read l.encode = some l ↔ l ≠ .all ∧ l ≠ .info ∧ l ≠ .warn ∧ l ≠ .off) ∧
    (Level.read l.encode = none ↔ l = .all ∨ l = .info ∨ l = .warn ∨ l = .off) := by
  cases l <;> decide

theorem C153_level_false : ¬ RoundTrip Level.read Level.encode := by
  intro h
  have := h .info
  revert this
  decide

/-- The message for spin interactions offers "Elastic", which is rejected. -/
theorem C153_spin_message_false : ¬ Helpful Spin.read Spin.offered := by
  intro h
  have := (h "Elastic").1 (by simp [Spin.offered])
  revert this
  decide

/-- The message for density types leaves out "total isospin", which works. -/
theorem C153_density_message_false : ¬ Helpful Dens.read Dens.offered := by
  intro h
  have := (h "total isospin").2 (by decide)
  revert this
  simp [Dens.offered]

/-- An unknown word is not noticed if it stands after "All", and is an error if it stands before it. -/
theorem C153_unknown_after_all_false :
    readReactions ["All", "Elastik"] = some (fun _ => true) ∧
    readReactions ["Elastik", "All"] = none := by
  exact ⟨rfl, rfl⟩

/-! ### Concrete cases -/

example : readReactions ["NNbar", "Elastic", "NNbar"] =
    some (fun i => decide (i = 0 ∨ i = 6)) := by
  rw [readReactions, readBits_known reactionBit_iff _ (by simp) (by
    intro x hx
    simp at hx
    rcases hx with rfl | rfl | rfl
    · exact ⟨6, rfl⟩
    · exact ⟨0, rfl⟩
    · exact ⟨6, rfl⟩)]
  congr 1
  funext i
  fin_cases i <;> simp [Spec.reactions]

example : Spec.Means Spec.reactions ["Elastic", "elastic"] (readReactions ["Elastic", "elastic"]) :=
  (C153_sets _ (by simp)).1

example : readReactions ["Elastic", "elastic"] = none := rfl

example : SphereIc.read "IC_2M" = some .ic2M ∧ SphereIc.read "IC_3M" = none := ⟨rfl, rfl⟩

end Verif.Enums
