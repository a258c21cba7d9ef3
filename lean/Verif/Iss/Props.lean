import Verif.Iss.Model
import Mathlib.Data.List.Forall2
import Mathlib.Data.List.Perm.Basic
import Mathlib.Algebra.BigOperators.Group.List.Basic
import Mathlib.Tactic.Linarith
import Mathlib.Tactic.NormNum
/-
C177: the particle list for iSS.
-/
namespace Verif.Iss
open scoped List

/-- Specification: hadrons that are not antibaryons. -/
def Listed (t : PType) : Prop := t.lepton = false ∧ 0 ≤ t.baryon

instance (t : PType) : Decidable (Listed t) := by unfold Listed; infer_instance

/-- The contract of `std::sort`. -/
def SortedByMass (types sorted : List PType) : Prop := sorted ~ types ∧ sorted.Pairwise fun a b => a.mass ≤ b.mass

/-- Specification: what belongs to a particle. -/
def Describes (t : PType) (h : Head) : Prop :=
  h.pdg = t.pdg ∧ h.name = t.name ∧ h.mass = t.mass ∧ h.width = t.width ∧ h.spinDeg = t.spinDeg ∧ h.baryon = t.baryon ∧
  h.strange = t.strange ∧ h.charm = t.charm ∧ h.bottom = t.bottom ∧ h.isoDeg = t.isospin + 1 ∧ h.charge = t.charge

/-- Specification: a list for the particles `ts` in this order: after each particle line come as many decay lines as it
announces, all with its number. -/
inductive Form : List PType → List Line → Prop
  | nil : Form [] []
  | cons {t : PType} {ts : List PType} {h : Head} {ds : List DecayLine} {ls : List Line} : Describes t h → ds.length = h.ndecays →
      (∀ d ∈ ds, d.pdg = t.pdg) → Form ts ls → Form (t :: ts) (.head h :: ds.map .decay ++ ls)

theorem mapM_some {α β : Type} {f : α → Option β} : ∀ {l : List α} {r : List β}, l.mapM f = some r → List.Forall₂ (fun a b => f a = some b) l r := by
  intro l
  induction l with
  | nil => intro r h; simp at h; subst h; exact .nil
  | cons a l ih =>
    intro r h
    simp only [List.mapM_cons, Option.bind_eq_bind, Option.bind_eq_some_iff, Option.pure_def] at h
    obtain ⟨b, hb, bs, hbs, hr⟩ := h
    cases hr
    exact .cons hb (ih hbs)

theorem decayLine_some {t : PType} {d : Decay} {l : DecayLine} (h : decayLine t d = some l) :
    ∃ a b r, d.products = a :: b :: r ∧ l = ⟨t.pdg, 2, d.weight, [a, b, 0, 0, 0]⟩ := by
  unfold decayLine at h
  rcases hp : d.products with _ | ⟨a, _ | ⟨b, r⟩⟩ <;> rw [hp] at h <;> simp only at h
  · cases h
  · cases h
  · exact ⟨a, b, r, rfl, (Option.some.inj h).symm⟩

theorem decayLines_spec {t : PType} {ds : List DecayLine} (h : decayLines t = some ds) :
    ds.length = (headLine t).ndecays ∧ ∀ d ∈ ds, d.pdg = t.pdg := by
  unfold decayLines at h
  unfold headLine
  by_cases hs : t.stable
  · rw [if_pos hs] at h
    cases h
    simp [hs]
  · rw [if_neg hs] at h
    have hf := mapM_some h
    refine ⟨by simp [hs, hf.length_eq], fun d hd => ?_⟩
    obtain ⟨hl, hg⟩ := List.forall₂_iff_get.1 hf
    obtain ⟨i, hi, rfl⟩ := List.mem_iff_getElem.1 hd
    have hm : decayLine t (t.modes.get ⟨i, hl ▸ hi⟩) = some ds[i] := hg i (hl ▸ hi) hi
    obtain ⟨a, b, r, -, e⟩ := decayLine_some hm
    rw [e]

theorem dump_form : ∀ {ts : List PType} {ls : List Line}, dump ts = some ls → Form (ts.filter fun t => decide (Listed t)) ls := by
  intro ts
  induction ts with
  | nil => intro ls h; cases h; exact .nil
  | cons t ts ih =>
    intro ls h
    rw [dump] at h
    by_cases hc : (t.lepton || decide (t.baryon < 0)) = true
    · rw [if_pos hc] at h
      have : ¬ Listed t := by
        rintro ⟨h1, h2⟩
        simp [h1] at hc
        omega
      rw [List.filter_cons_of_neg (by simpa using this)]
      exact ih h
    · rw [if_neg hc] at h
      have hl : Listed t := by
        simp at hc
        exact ⟨hc.1, hc.2⟩
      rw [List.filter_cons_of_pos (by simpa using hl)]
      rcases hd : decayLines t with _ | ds <;> rcases hr : dump ts with _ | ls' <;> rw [hd, hr] at h <;> simp only at h
      · cases h
      · cases h
      · cases h
      · cases h
        obtain ⟨h1, h2⟩ := decayLines_spec hd
        exact .cons ⟨rfl, rfl, rfl, rfl, rfl, rfl, rfl, rfl, rfl, rfl, rfl⟩ h1 h2 (ih hr)

/-- **C177** The list holds every hadron that is not an antibaryon once, ordered by mass, with its data, followed by as many decays as
announced. -/
theorem C177_list {types sorted : List PType} (hs : SortedByMass types sorted) {ls : List Line} (h : dump sorted = some ls) :
    ∃ l, Form l ls ∧ l ~ types.filter (fun t => decide (Listed t)) ∧ l.Pairwise fun a b => a.mass ≤ b.mass :=
  ⟨_, dump_form h, hs.1.filter _, hs.2.filter _⟩

/-- **C177** The list is printed if every decay has two products or more. -/
theorem C177_printed {sorted : List PType} (h : ∀ t ∈ sorted, ∀ d ∈ t.modes, 2 ≤ d.products.length) : ∃ ls, dump sorted = some ls := by
  induction sorted with
  | nil => exact ⟨[], rfl⟩
  | cons t ts ih =>
    obtain ⟨ls, hl⟩ := ih fun u hu => h u (List.mem_cons_of_mem _ hu)
    rw [dump]
    by_cases hc : (t.lepton || decide (t.baryon < 0)) = true
    · exact ⟨ls, by rw [if_pos hc, hl]⟩
    · rw [if_neg hc, hl]
      have : ∃ ds, decayLines t = some ds := by
        unfold decayLines
        by_cases hst : t.stable
        · exact ⟨_, if_pos hst⟩
        · rw [if_neg hst]
          have hm : ∀ l : List Decay, (∀ d ∈ l, 2 ≤ d.products.length) → ∃ ds, l.mapM (decayLine t) = some ds := by
            intro l
            induction l with
            | nil => intro _; exact ⟨[], by simp⟩
            | cons d l ihl =>
              intro hd
              obtain ⟨ds, hds⟩ := ihl fun e he => hd e (List.mem_cons_of_mem _ he)
              have h2 := hd d (by simp)
              rcases hp : d.products with _ | ⟨a, _ | ⟨b, r⟩⟩
              · simp [hp] at h2
              · simp [hp] at h2
              · exact ⟨⟨t.pdg, 2, d.weight, [a, b, 0, 0, 0]⟩ :: ds, by simp [List.mapM_cons, decayLine, hp, hds]⟩
          exact hm t.modes (h t (by simp))
      obtain ⟨ds, hd⟩ := this
      rw [hd]
      exact ⟨_, rfl⟩

/-- Specification: a decay line for a decay: the products, then zeros. -/
def DescribesDecay (d : Decay) (l : DecayLine) : Prop :=
  l.n = d.products.length ∧ l.weight = d.weight ∧ l.products = d.products ++ List.replicate (5 - d.products.length) 0

/-- **C177** The decays of an unstable particle are printed in their order with their weights, so that these add up as in the table; a
stable particle goes into itself with weight 1. -/
theorem C177_weights {t : PType} {ds : List DecayLine} (h : decayLines t = some ds) :
    (t.stable = true → ds = [⟨t.pdg, 1, 1, [t.pdg, 0, 0, 0, 0]⟩]) ∧
    (t.stable = false → ds.map DecayLine.weight = t.modes.map Decay.weight) := by
  unfold decayLines at h
  by_cases hs : t.stable
  · rw [if_pos hs] at h
    cases h
    exact ⟨fun _ => rfl, fun h => by simp [hs] at h⟩
  · rw [if_neg hs] at h
    refine ⟨fun h => absurd h hs, fun _ => ?_⟩
    have hall : ∀ (l : List Decay) (m : List DecayLine), List.Forall₂ (fun a b => decayLine t a = some b) l m →
        m.map DecayLine.weight = l.map Decay.weight := by
      intro l m hf
      induction hf with
      | nil => rfl
      | cons hd _ ih =>
        obtain ⟨a, b, r, -, rfl⟩ := decayLine_some hd
        simp [ih]
    exact hall _ _ (mapM_some h)

/-- **C177** in part: decays into two particles are printed with their products. -/
theorem C177_decays_partial {t : PType} {ds : List DecayLine} (h : decayLines t = some ds) (hs : t.stable = false)
    (h2 : ∀ d ∈ t.modes, d.products.length = 2) : List.Forall₂ DescribesDecay t.modes ds := by
  unfold decayLines at h
  rw [if_neg (by simp [hs])] at h
  have hf := mapM_some h
  have hall : ∀ (l : List Decay) (m : List DecayLine), List.Forall₂ (fun a b => decayLine t a = some b) l m →
      (∀ d ∈ l, d.products.length = 2) → List.Forall₂ DescribesDecay l m := by
    intro l m hf
    induction hf with
    | nil => intro _; exact .nil
    | cons hd _ ih =>
      intro h2
      refine .cons ?_ (ih fun d hd => h2 d (List.mem_cons_of_mem _ hd))
      obtain ⟨a, b, r, hp, rfl⟩ := decayLine_some hd
      have hl := h2 _ List.mem_cons_self
      rw [hp] at hl
      simp at hl
      subst hl
      refine ⟨by simp [hp], rfl, ?_⟩
      rw [hp]
      rfl
  exact hall _ _ hf h2

/-- **C177** fails in one respect: of a decay into three particles only the first two are printed, with 2 as number of products. -/
theorem C177_decays_false (t : PType) (w : ℚ) (a b c : Int) :
    ∃ l, decayLine t ⟨w, [a, b, c]⟩ = some l ∧ l.n = 2 ∧ l.products = [a, b, 0, 0, 0] ∧ ¬ DescribesDecay ⟨w, [a, b, c]⟩ l :=
  ⟨_, rfl, rfl, rfl, fun h => by have := h.1; simp at this⟩

section Examples

def pion : PType := ⟨111, "π⁰", 138 / 1000, 0, 1, 0, 0, 0, 0, 2, 0, false, true, []⟩
def rho : PType := ⟨113, "ρ⁰", 776 / 1000, 149 / 1000, 3, 0, 0, 0, 0, 2, 0, false, false, [⟨1, [211, -211]⟩]⟩
def proton : PType := ⟨2212, "N⁺", 938 / 1000, 0, 2, 1, 0, 0, 0, 1, 1, false, true, []⟩
def antiproton : PType := ⟨-2212, "N̅⁻", 938 / 1000, 0, 2, -1, 0, 0, 0, 1, -1, false, true, []⟩

example : SortedByMass [proton, pion, antiproton, rho] [pion, rho, proton, antiproton] := by
  refine ⟨?_, ?_⟩
  · exact ((List.Perm.swap proton rho [antiproton]).cons pion).trans ((List.Perm.swap proton pion [rho, antiproton]).trans
      (((List.Perm.swap antiproton rho []).cons pion).cons proton))
  · simp [pion, rho, proton, antiproton]; norm_num

example : ∃ ls, dump [pion, rho, proton, antiproton] = some ls :=
  C177_printed (by simp [pion, rho, proton, antiproton])

end Examples

end Verif.Iss
