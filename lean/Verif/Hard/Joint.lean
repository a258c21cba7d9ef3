import Verif.Hard.Junc
import Verif.Glue.Props
/-
C174 and C176 together: the strings of an event are found after gluons were split.
-/
namespace Verif.Hard
open scoped List

/-- Specification: the colours of the partons of an event, of PYTHIA (`Glue`) or when strings are identified (`Hard`). -/
def colours (l : List Glue.Parton) : List (Nat × Nat) := l.map fun q => (q.col, q.acol)
@[inherit_doc colours] def colours' (l : List Parton) : List (Nat × Nat) := l.map fun q => (q.col, q.acol)

/-- Specification: a consistent event: neutral together with the junctions, no colour on two legs of junctions of the same kind, no parton with a
colour and the same anticolour. -/
def Consistent (c : List (Nat × Nat)) (J : List Junction) : Prop :=
  (∀ x ≠ 0, (c.map Prod.fst).count x + legsOf false J x = (c.map Prod.snd).count x + legsOf true J x) ∧
  (∀ b, ∀ x ≠ 0, legsOf b J x ≤ 1) ∧ ∀ a ∈ c, a.1 = a.2 → a.1 = 0

theorem split_consistent {E : Glue.Env} (hE : Glue.Contract E) {sign : Bool} {ex0 ex1 : Nat → Int} {l : List Glue.Parton} {s : Glue.State} {b : Bool}
    (h : Glue.split E sign ex0 ex1 l = .ok (b, s)) {J : List Junction} (hc : Consistent (colours l) J) : Consistent (colours s.l) J := by
  obtain ⟨h1, h2, h3⟩ := hc
  obtain ⟨g1, -⟩ := Glue.C176_charges hE h
  refine ⟨fun x hx => ?_, h2, ?_⟩
  · have k1 := h1 x hx
    obtain ⟨k2, k3⟩ := g1 x hx
    simp only [colours, List.map_map] at k1 ⊢
    have e1 : (Prod.fst ∘ fun q : Glue.Parton => (q.col, q.acol)) = Glue.Parton.col := rfl
    have e2 : (Prod.snd ∘ fun q : Glue.Parton => (q.col, q.acol)) = Glue.Parton.acol := rfl
    rw [e1, e2] at k1 ⊢
    omega
  · have key : (∀ q ∈ l, q.col = q.acol → q.col = 0) → ∀ q ∈ s.l, q.col = q.acol → q.col = 0 := by
      refine Glue.split_rel (R := fun l l' => (∀ q ∈ l, q.col = q.acol → q.col = 0) → ∀ q ∈ l', q.col = q.acol → q.col = 0)
        (fun l h => h) (fun a b c h1 h2 h => h2 (h1 h)) ?_ h
      intro fwd f hf l l' ho hl q hq
      obtain ⟨g, rest, -, -, hp, rfl⟩ := Glue.splitOne_some ho
      rcases List.mem_append.1 hq with hq | hq
      · exact hl q (hp.subset (List.mem_cons_of_mem _ hq))
      · simp only [List.mem_cons, List.not_mem_nil, or_false] at hq
        rcases hq with rfl | rfl
        · exact fun h => h
        · exact fun _ => rfl
    intro a ha
    obtain ⟨q, hq, rfl⟩ := List.mem_map.1 ha
    exact key (fun q hq => h3 _ (List.mem_map_of_mem hq)) q hq

/-- **C174** From the event of PYTHIA to the strings: if the colours of the event of PYTHIA are consistent, then after gluons were split for quarks
and for antiquarks (successfully or not), and whatever flavours, momenta and order the partons are given afterwards with their colours
kept, the division into strings succeeds and every string is neutral together with its junctions. -/
theorem C174_event {E : Glue.Env} (hE : Glue.Contract E) {eq0 eq1 ea0 ea1 : Nat → Int} {l : List Glue.Parton} {s1 s2 : Glue.State} {b1 b2 : Bool}
    (h1 : Glue.split E true eq0 eq1 l = .ok (b1, s1)) (h2 : Glue.split E false ea0 ea1 s1.l = .ok (b2, s2))
    {J : List Junction} (hc : Consistent (colours l) J) {m : List Parton} (hm : colours' m ~ colours s2.l)
    {y : Parton → ℚ} {fuel : Nat} (hf : m.length + J.length < fuel) (fwd : Bool) :
    ∃ strs left, hardLoop y fuel fwd ⟨m, J⟩ = some (.ok (strs, left)) ∧ ∀ s ∈ strs, Balanced s.parts s.juncs := by
  obtain ⟨k1, k2, k3⟩ := split_consistent hE h2 (split_consistent hE h1 hc)
  refine C174_consistent (by simpa using hf) (fun x hx => ?_) k2 fun q hq => ?_
  · have e1 := (hm.map Prod.fst).count_eq x
    have e2 := (hm.map Prod.snd).count_eq x
    have := k1 x hx
    have f1 : (colours' m).map Prod.fst = m.map Parton.col := by simp [colours', Function.comp_def]
    have f2 : (colours' m).map Prod.snd = m.map Parton.acol := by simp [colours', Function.comp_def]
    rw [f1] at e1
    rw [f2] at e2
    simp only
    omega
  · exact k3 (q.col, q.acol) (hm.subset (List.mem_map_of_mem (f := fun q : Parton => (q.col, q.acol)) hq))

/-- A quark, a gluon and an antiquark. -/
example : Consistent [(1, 0), (2, 1), (0, 2)] [] := by
  refine ⟨fun x hx => ?_, fun b x hx => by simp [legsOf], by simp⟩
  simp only [List.map_cons, List.map_nil, List.count_cons, List.count_nil, beq_iff_eq, legsOf]
  simp
  omega

end Verif.Hard
