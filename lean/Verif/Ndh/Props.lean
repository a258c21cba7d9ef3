import Mathlib.Tactic.Abel
import Mathlib.Algebra.BigOperators.Group.List.Basic
import Verif.Ndh.Model
/-!
C185: the final state of hard string processes.
-/
namespace Verif.Ndh
variable {M : Type}

theorem takeOut_spec (done todo : List (Entry M)) (non : List M) :
    takeOut done.length (done ++ todo) non =
      (done ++ todo.filter (fun e => !takenOut e), non ++ (todo.filter (fun e => takenOut e && e.known)).map (·.mom)) := by
  induction todo generalizing done non with
  | nil => unfold takeOut; simp
  | cons e es ih =>
    unfold takeOut
    have h : done.length < (done ++ e :: es).length := by simp
    rw [dif_pos h]
    have he : (done ++ e :: es)[done.length] = e := by simp
    simp only [he]
    by_cases ht : takenOut e = true
    · rw [if_pos ht]
      have : (done ++ e :: es).eraseIdx done.length = done ++ es := by
        rw [List.eraseIdx_append_of_length_le (le_refl _)]; simp
      rw [this, ih]
      cases hk : e.known <;> simp [append, ht, hk]
    · rw [if_neg ht]
      have := ih (done ++ [e]) non
      simp only [List.length_append, List.length_singleton, List.append_assoc, List.singleton_append] at this
      rw [this]
      simp [ht]

/-- **C185**, the partons: taking out the other particles leaves all partons, octet hadrons and entries that are not final in their order, and lists the known
particles taken out in their order. -/
theorem C185_partition (ev : List (Entry M)) :
    takeOut 0 ev [] = (ev.filter (fun e => !e.isFinal || e.isParton || e.isOctet),
      (ev.filter (fun e => e.isFinal && !e.isParton && !e.isOctet && e.known)).map (·.mom)) := by
  have h := takeOut_spec [] ev []
  simp only [List.length_nil, List.nil_append] at h
  rw [h]
  congr 2
  funext e
  unfold takenOut
  cases e.isFinal <;> cases e.isParton <;> cases e.isOctet <;> rfl

/-- The final particles of a string that are hadrons (`b = true`) or not. -/
def kept (b : Bool) (fs : List (Frag M)) : List M := (fs.filter fun f => f.isFinal && (f.isHadron == b)).map (·.mom)

/-- All final particles of a string are known to SMASH. -/
def AllKnown (fs : List (Frag M)) : Prop := ∀ f ∈ fs, f.isFinal = true → f.known = true

theorem collect_false (fs : List (Frag M)) (had non : List M) : (collect fs had non false).2.2 = false := by
  induction fs generalizing had non with
  | nil => rfl
  | cons f fs ih =>
    unfold collect
    split_ifs
    · exact ih _ _
    · exact ih _ _
    · exact ih _ _

theorem collect_spec (fs : List (Frag M)) (had non : List M) :
    ((collect fs had non true).2.2 = true ↔ AllKnown fs) ∧
    (AllKnown fs → collect fs had non true = (had ++ kept true fs, non ++ kept false fs, true)) := by
  induction fs generalizing had non with
  | nil => exact ⟨by simp [collect, AllKnown], fun _ => by simp [collect, kept]⟩
  | cons f fs ih =>
    have hA : AllKnown (f :: fs) ↔ (f.isFinal = true → f.known = true) ∧ AllKnown fs := by
      simp [AllKnown]
    rw [hA]
    unfold collect
    cases hf : f.isFinal
    · simp only [Bool.false_eq_true, if_false, false_imp_iff, true_and]
      have : ∀ b, kept b (f :: fs) = kept b fs := fun b => by simp [kept, hf]
      rw [this, this]
      exact ih had non
    · simp only [if_true, true_imp_iff]
      cases hk : f.known
      · constructor
        · cases hh : f.isHadron <;> simp [append, collect_false]
        · rintro ⟨h, -⟩; cases h
      · simp only [true_and]
        cases hh : f.isHadron
        · have h1 : kept true (f :: fs) = kept true fs := by simp [kept, hf, hh]
          have h2 : kept false (f :: fs) = f.mom :: kept false fs := by simp [kept, hf, hh]
          rw [h1, h2]
          have := ih had (non ++ [f.mom])
          simpa [append] using this
        · have h1 : kept true (f :: fs) = f.mom :: kept true fs := by simp [kept, hf, hh]
          have h2 : kept false (f :: fs) = kept false fs := by simp [kept, hf, hh]
          rw [h1, h2]
          have := ih (had ++ [f.mom]) non
          simpa [append] using this

theorem strings_spec (frags : List (Option (List (Frag M)))) (final non : List M) (ok : Bool) :
    ((strings frags final non ok).1 = true ↔ (frags = [] → ok = true) ∧ ∀ o ∈ frags, ∃ fs, o = some fs ∧ AllKnown fs) ∧
    ((strings frags final non ok).1 = true → (strings frags final non ok).2 =
      (final ++ frags.flatMap (fun o => kept true (o.getD [])), non ++ frags.flatMap (fun o => kept false (o.getD [])))) := by
  induction frags generalizing final non ok with
  | nil => simp [strings]
  | cons o rest ih =>
    cases o with
    | none => simp [strings]
    | some fs =>
      obtain ⟨c1, c2⟩ := collect_spec fs [] non
      unfold strings
      simp only
      by_cases hk : AllKnown fs
      · rw [if_pos (c1.2 hk), c2 hk]
        obtain ⟨i1, i2⟩ := ih (final ++ ([] ++ kept true fs)) (non ++ kept false fs) true
        constructor
        · rw [i1]
          simp [hk]
        · intro h
          rw [i2 h]
          simp
      · rw [if_neg (fun h => hk (c1.1 h))]
        constructor
        · simp [hk]
        · intro h; cases h

/-- **C185**, the outcome: the process succeeds exactly if there is a string, PYTHIA fragments all of them and SMASH knows all their particles; the
final state are then the hadrons of all strings, followed by the known particles taken out of the event and those of the strings that are not hadrons; after a
failure it is empty. -/
theorem C185_outcome (ev : List (Entry M)) (frags : List (Option (List (Frag M)))) :
    ((finish ev frags).1 = true ↔ frags ≠ [] ∧ ∀ o ∈ frags, ∃ fs, o = some fs ∧ AllKnown fs) ∧
    ((finish ev frags).1 = true → (finish ev frags).2 = frags.flatMap (fun o => kept true (o.getD [])) ++
      ((ev.filter (fun e => e.isFinal && !e.isParton && !e.isOctet && e.known)).map (·.mom) ++
        frags.flatMap (fun o => kept false (o.getD [])))) ∧
    ((finish ev frags).1 = false → (finish ev frags).2 = []) := by
  obtain ⟨s1, s2⟩ := strings_spec frags [] (takeOut 0 ev []).2 false
  unfold finish
  simp only
  cases hr : (strings frags [] (takeOut 0 ev []).2 false).1
  · rw [hr] at s1
    rw [if_neg Bool.false_ne_true]
    refine ⟨?_, fun h => absurd h Bool.false_ne_true, fun _ => rfl⟩
    refine Iff.trans s1 ?_
    simp
  · rw [hr] at s1
    rw [if_pos rfl]
    refine ⟨?_, fun _ => ?_, fun h => absurd h.symm Bool.false_ne_true⟩
    · refine Iff.trans s1 ?_
      simp
    · rw [s2 hr, C185_partition]; simp

variable [AddCommGroup M]

theorem sum_kept (fs : List (Frag M)) : (kept true fs).sum + (kept false fs).sum = ((fs.filter (·.isFinal)).map (·.mom)).sum := by
  induction fs with
  | nil => simp [kept]
  | cons f fs ih =>
    unfold kept at ih ⊢
    cases hf : f.isFinal <;> cases hh : f.isHadron <;> simp [hf, hh] <;> rw [← ih] <;> simp <;> abel

theorem sum_strings (frags : List (Option (List (Frag M)))) :
    (frags.flatMap (fun o => kept true (o.getD []))).sum + (frags.flatMap (fun o => kept false (o.getD []))).sum =
      (frags.map fun o => (((o.getD []).filter (·.isFinal)).map (·.mom)).sum).sum := by
  induction frags with
  | nil => simp
  | cons o rest ih =>
    simp only [List.flatMap_cons, List.sum_append, List.map_cons, List.sum_cons]
    rw [← ih, ← sum_kept]; abel

/-- **C185**, momentum: if the strings conserve the momentum of the partons, the final state has the momentum of the final entries of the event, less that of
the particles which were taken out without being known to SMASH. -/
theorem C185_momentum (ev : List (Entry M)) (frags : List (Option (List (Frag M)))) (h : (finish ev frags).1 = true)
    (hc : (frags.map fun o => (((o.getD []).filter (·.isFinal)).map (·.mom)).sum).sum =
      ((ev.filter (fun e => e.isFinal && (e.isParton || e.isOctet))).map (·.mom)).sum) :
    (finish ev frags).2.sum = ((ev.filter (·.isFinal)).map (·.mom)).sum -
      ((ev.filter (fun e => e.isFinal && !e.isParton && !e.isOctet && !e.known)).map (·.mom)).sum := by
  rw [(C185_outcome ev frags).2.1 h]
  simp only [List.sum_append]
  have hs : ((ev.filter (·.isFinal)).map (·.mom)).sum =
      ((ev.filter (fun e => e.isFinal && (e.isParton || e.isOctet))).map (·.mom)).sum +
      ((ev.filter (fun e => e.isFinal && !e.isParton && !e.isOctet && e.known)).map (·.mom)).sum +
      ((ev.filter (fun e => e.isFinal && !e.isParton && !e.isOctet && !e.known)).map (·.mom)).sum := by
    clear h hc
    induction ev with
    | nil => simp
    | cons e es ih =>
      cases h1 : e.isFinal <;> cases h2 : e.isParton <;> cases h3 : e.isOctet <;> cases h4 : e.known <;>
        simp [h1, h2, h3, h4] <;> rw [ih] <;> abel
  rw [hs, ← hc, ← sum_strings]
  abel

/-- The hypotheses are met: two partons make one string with two hadrons, a known photon is taken out of the event. -/
example : (finish [⟨false, false, false, true, (9 : ℤ)⟩, ⟨true, true, false, true, 2⟩, ⟨true, false, false, true, 4⟩, ⟨true, true, false, true, 3⟩]
    [some [⟨true, true, true, 1⟩, ⟨true, true, true, 4⟩]]).1 = true ∧ AllKnown [(⟨true, true, true, (1 : ℤ)⟩ : Frag ℤ), ⟨true, true, true, 4⟩] := by
  have hk : AllKnown [(⟨true, true, true, (1 : ℤ)⟩ : Frag ℤ), ⟨true, true, true, 4⟩] := by
    intro f hf _
    simp only [List.mem_cons, List.not_mem_nil, or_false] at hf
    rcases hf with rfl | rfl <;> rfl
  refine ⟨(C185_outcome _ _).1.2 ⟨by simp, fun o ho => ⟨_, List.mem_singleton.1 ho, hk⟩⟩, hk⟩

/-- **C185**, finding: a particle that is taken out of the event and not known to SMASH does not make the process "start over" as announced in the warning, but
is lost: the process succeeds and momentum is missing. -/
theorem C185_unknown_false : ∃ (ev : List (Entry ℤ)) (frags : List (Option (List (Frag ℤ)))),
    (frags.map fun o => (((o.getD []).filter (·.isFinal)).map (·.mom)).sum).sum =
      ((ev.filter (fun e => e.isFinal && (e.isParton || e.isOctet))).map (·.mom)).sum ∧
    (finish ev frags).1 = true ∧ (finish ev frags).2.sum ≠ ((ev.filter (·.isFinal)).map (·.mom)).sum := by
  have hs : (finish [⟨true, true, false, true, 2⟩, ⟨true, true, false, true, 3⟩, ⟨true, false, false, false, 4⟩]
      [some [⟨true, true, true, (5 : ℤ)⟩]]).1 = true := by
    rw [(C185_outcome _ _).1]
    refine ⟨by simp, ?_⟩
    intro o ho
    simp only [List.mem_singleton] at ho
    refine ⟨_, ho, ?_⟩
    intro f hf _
    simp only [List.mem_singleton] at hf
    rw [hf]
  refine ⟨_, _, ?_, hs, ?_⟩
  · decide
  · rw [C185_momentum _ _ hs (by decide)]
    decide

end Verif.Ndh
