import Verif.Td.VtkRead
import Verif.Td.ReadText

/-!
C151: names of the VTK files during a history of calls.
-/

namespace Verif.Td

open Verif.Bin (W64)

variable {T : Type}

/-! ### Specification -/

/-- Number of outputs of the particles of an ensemble of an event. -/
def snaps (ev ens : ℕ) : List (VCall T) → ℕ
  | [] => 0
  | .start e n _ :: r => snaps ev ens r + if e = ev ∧ n = ens then 1 else 0
  | .inter e n _ :: r => snaps ev ens r + if e = ev ∧ n = ens then 1 else 0
  | _ :: r => snaps ev ens r

/-- The event after the calls: that of the last one with an event number. -/
def current (e0 : ℕ) : List (VCall T) → ℕ
  | [] => e0
  | .start e _ _ :: r => current e r
  | .inter e _ _ :: r => current e r
  | _ :: r => current e0 r

/-- Kinds of lattice outputs with a counter of their own. -/
inductive Series where
  | density
  | tmn
  | tmnLandau
  | velocity
  | fluid
  | fields
  deriving DecidableEq

/-- The series of a call. -/
def VCall.series : VCall T → Option Series
  | .density _ _ _ => some .density
  | .tensor .tmn _ _ => some .tmn
  | .tensor .tmnLandau _ _ => some .tmnLandau
  | .tensor _ _ _ => some .velocity
  | .fluid _ => some .fluid
  | .fields _ _ _ => some .fields
  | _ => none

/-- Number of outputs of a series in an event; `e0` is the event before the first call. -/
def outs (s : Series) (ev : ℕ) (e0 : ℕ) : List (VCall T) → ℕ
  | [] => 0
  | c :: r => (if c.series = some s ∧ e0 = ev then 1 else 0) + outs s ev (current e0 [c]) r

/-- Number of all outputs of a series. -/
def total (s : Series) (l : List (VCall T)) : ℕ := (l.filter fun c => c.series = some s).length

/-- The names of the files which a call should write, after the calls `pre`: for particles event, ensemble and number of the output;
for a lattice the quantity, the event and the number of the output in the event; for the fields the number in the whole run. -/
def fileNames (kind : VKind) (pre : List (VCall T)) (c : VCall T) : List (List Char) :=
  match kind, c with
  | .particles, .start ev ens _ => [posName ev ens (snaps ev ens pre)]
  | .particles, .inter ev ens _ => [posName ev ens (snaps ev ens pre)]
  | .thermodynamics, .density q d _ => [vtkName (varName q d) (current 0 pre) (outs .density (current 0 pre) 0 pre)]
  | .thermodynamics, .tensor .tmn d _ => [vtkName (varName .tmn d) (current 0 pre) (outs .tmn (current 0 pre) 0 pre)]
  | .thermodynamics, .tensor .tmnLandau d _ => [vtkName (varName .tmnLandau d) (current 0 pre) (outs .tmnLandau (current 0 pre) 0 pre)]
  | .thermodynamics, .tensor q d _ => [vtkName (varName q d) (current 0 pre) (outs .velocity (current 0 pre) 0 pre)]
  | .thermodynamics, .fluid _ => [vtkName "fluidization_td".toList (current 0 pre) (outs .fluid (current 0 pre) 0 pre)]
  | .fields, .fields n1 n2 _ => [vtkName n1.toList (current 0 pre) (total .fields pre), vtkName n2.toList (current 0 pre) (total .fields pre)]
  | _, _ => []

/-- The names of all files of a history. -/
def allFiles (kind : VKind) : List (VCall T) → List (VCall T) → List (List Char)
  | _, [] => []
  | pre, c :: cs => fileNames kind pre c ++ allFiles kind (pre ++ [c]) cs

/-- The order of calls in a run: an ensemble of an event is started once, before its other outputs; the outputs of the
lattice come after all starts of their event, and in between there are only outputs of that event. -/
def Ordered : List (VCall T) → List (VCall T) → Prop
  | _, [] => True
  | pre, c :: cs => (match c with
    | .start ev ens _ => snaps ev ens pre = 0 ∧ ∀ s, outs s ev 0 pre = 0
    | .inter ev _ _ => ev = current 0 pre
    | .density q _ _ => q = .eckart
    | .tensor q _ _ => q = .tmn ∨ q = .tmnLandau ∨ q = .vLandau
    | .fields n1 n2 _ => n1 ≠ n2
    | .fluid _ => True) ∧ Ordered (pre ++ [c]) cs

/-! ### Proofs -/

theorem snaps_snoc (ev ens : ℕ) (l : List (VCall T)) (c : VCall T) : snaps ev ens (l ++ [c]) = snaps ev ens l + snaps ev ens [c] := by
  induction l with
  | nil => simp [snaps]
  | cons x l ih => cases x <;> simp only [List.cons_append, snaps, ih] <;> omega

theorem current_append (l : List (VCall T)) (m : List (VCall T)) : ∀ e0, current e0 (l ++ m) = current (current e0 l) m := by
  induction l with
  | nil => intro _; rfl
  | cons x l ih => intro e0; cases x <;> simp only [List.cons_append, current, ih]

theorem outs_snoc (s : Series) (ev : ℕ) (l : List (VCall T)) (c : VCall T) :
    ∀ e0, outs s ev e0 (l ++ [c]) = outs s ev e0 l + if c.series = some s ∧ current e0 l = ev then 1 else 0 := by
  induction l with
  | nil => intro e0; simp only [List.nil_append, outs, current, Nat.add_zero, Nat.zero_add]; by_cases hc : c.series = some s ∧ e0 = ev
           · rw [if_pos hc]; exact (if_pos hc).symm
           · rw [if_neg hc]; exact (if_neg hc).symm
  | cons x l ih =>
    intro e0
    rw [List.cons_append]
    simp only [outs, ih]
    have : current (current e0 [x]) l = current e0 (x :: l) := by rw [← current_append]; rfl
    rw [this]; omega

theorem total_snoc (s : Series) (l : List (VCall T)) (c : VCall T) : total s (l ++ [c]) = total s l + if c.series = some s then 1 else 0 := by
  unfold total
  rw [List.filter_append, List.length_append]
  congr 1
  by_cases h : c.series = some s <;> simp [h]

/-- What the counters mean after the calls. -/
structure Counts (kind : VKind) (pre : List (VCall T)) (st : VSt) : Prop where
  event : st.event = current 0 pre
  cnt : kind = .particles → ∀ ev ens, st.cnt (ev, ens) = snaps ev ens pre
  dens : kind = .thermodynamics → st.dens = outs .density (current 0 pre) 0 pre
  tmn : kind = .thermodynamics → st.tmn = outs .tmn (current 0 pre) 0 pre
  tmnL : kind = .thermodynamics → st.tmnL = outs .tmnLandau (current 0 pre) 0 pre
  vL : kind = .thermodynamics → st.vL = outs .velocity (current 0 pre) 0 pre
  fluid : kind = .thermodynamics → st.fluid = outs .fluid (current 0 pre) 0 pre
  fields : kind = .fields → st.fields = total .fields pre

theorem counts_step {version : String} {kind : VKind} (o : TensorOps T) {pre : List (VCall T)} {st st' : VSt} (h : Counts kind pre st)
    {c : VCall T} (hc : Ordered pre [c]) (hs : vstep version kind o st c = .ok st') :
    Counts kind (pre ++ [c]) st' ∧ st'.files.map (·.1) = st.files.map (·.1) ++ fileNames kind pre c := by
  have hO := hc.1
  obtain ⟨h0, h1, h2, h3, h4, h5, h6, h7⟩ := h
  cases c with
  | start ev ens ps =>
    obtain ⟨hO1, hO2⟩ := hO
    have hcur : current 0 (pre ++ [.start ev ens ps]) = ev := by rw [current_append]; rfl
    have hz : ∀ s, outs s ev 0 (pre ++ [VCall.start ev ens ps]) = 0 := fun s => by rw [outs_snoc, hO2 s]; simp [VCall.series]
    have htot : total .fields (pre ++ [VCall.start ev ens ps]) = total .fields pre := by rw [total_snoc]; simp [VCall.series]
    simp only [vstep, snapshot] at hs
    by_cases hk : kind = .particles
    · subst hk
      rw [if_neg (by simp)] at hs
      cases hf : particleFile version ps with
      | error e => rw [hf] at hs; cases hs
      | ok f =>
        rw [hf] at hs
        cases Except.ok.inj hs
        refine ⟨⟨hcur.symm, fun _ e n => ?_, nofun, nofun, nofun, nofun, nofun, nofun⟩, ?_⟩
        · rw [snaps_snoc]
          by_cases he : (e, n) = (ev, ens)
          · obtain ⟨rfl, rfl⟩ := Prod.mk.inj he
            simp [snaps, hO1]
          · have he' : ¬(ev = e ∧ ens = n) := fun hh => he (by rw [hh.1, hh.2])
            simp only [Function.update_of_ne he, h1 rfl]
            simp [snaps, he']
        · simp [fileNames, hO1]
    · rw [if_pos hk] at hs
      cases Except.ok.inj hs
      refine ⟨⟨hcur.symm, fun hk' => absurd hk' hk, fun _ => ?_, fun _ => ?_, fun _ => ?_, fun _ => ?_, fun _ => ?_, fun hk' => ?_⟩, ?_⟩
      · rw [hcur, hz]
      · rw [hcur, hz]
      · rw [hcur, hz]
      · rw [hcur, hz]
      · rw [hcur, hz]
      · rw [htot]; exact h7 hk'
      · cases kind with
        | particles => exact absurd rfl hk
        | thermodynamics => simp [fileNames]
        | fields => simp [fileNames]
  | inter ev ens ps =>
    have hO' : ev = current 0 pre := hO
    have hcur : current 0 (pre ++ [.inter ev ens ps]) = current 0 pre := by rw [current_append, ← hO']; rfl
    have hz : ∀ s, outs s (current 0 pre) 0 (pre ++ [VCall.inter ev ens ps]) = outs s (current 0 pre) 0 pre := fun s => by
      rw [outs_snoc]; simp [VCall.series]
    have htot : total .fields (pre ++ [VCall.inter ev ens ps]) = total .fields pre := by rw [total_snoc]; simp [VCall.series]
    simp only [vstep, snapshot] at hs
    by_cases hk : kind = .particles
    · subst hk
      rw [if_neg (by simp)] at hs
      cases hf : particleFile version ps with
      | error e => rw [hf] at hs; cases hs
      | ok f =>
        rw [hf] at hs
        cases Except.ok.inj hs
        refine ⟨⟨by rw [hcur]; exact hO', fun _ e n => ?_, nofun, nofun, nofun, nofun, nofun, nofun⟩, ?_⟩
        · rw [snaps_snoc]
          by_cases he : (e, n) = (ev, ens)
          · obtain ⟨rfl, rfl⟩ := Prod.mk.inj he
            simp [snaps, h1 rfl]
          · have he' : ¬(ev = e ∧ ens = n) := fun hh => he (by rw [hh.1, hh.2])
            simp only [Function.update_of_ne he, h1 rfl]
            simp [snaps, he']
        · simp [fileNames, h1 rfl]
    · rw [if_pos hk] at hs
      cases Except.ok.inj hs
      refine ⟨⟨by rw [hcur]; exact hO', fun hk' => absurd hk' hk, fun hk' => ?_, fun hk' => ?_, fun hk' => ?_, fun hk' => ?_, fun hk' => ?_,
        fun hk' => ?_⟩, ?_⟩
      · rw [hcur, hz]; exact h2 hk'
      · rw [hcur, hz]; exact h3 hk'
      · rw [hcur, hz]; exact h4 hk'
      · rw [hcur, hz]; exact h5 hk'
      · rw [hcur, hz]; exact h6 hk'
      · rw [htot]; exact h7 hk'
      · cases kind with
        | particles => exact absurd rfl hk
        | thermodynamics => simp [fileNames]
        | fields => simp [fileNames]
  | density q d g =>
    have hcur : current 0 (pre ++ [VCall.density q d g]) = current 0 pre := by rw [current_append]; rfl
    have hsn : ∀ e n, snaps e n (pre ++ [VCall.density q d g]) = snaps e n pre := fun e n => by rw [snaps_snoc]; simp [snaps]
    have hz : ∀ s, outs s (current 0 pre) 0 (pre ++ [VCall.density q d g]) = outs s (current 0 pre) 0 pre +
        if some Series.density = some s then 1 else 0 := fun s => by rw [outs_snoc]; simp [VCall.series]
    have htot : total .fields (pre ++ [VCall.density q d g]) = total .fields pre := by rw [total_snoc]; simp [VCall.series]
    simp only [vstep] at hs
    by_cases hk : kind = .thermodynamics
    · subst hk
      rw [if_neg (by simp)] at hs
      cases Except.ok.inj hs
      refine ⟨⟨by rw [hcur]; exact h0, nofun, fun _ => ?_, fun _ => ?_, fun _ => ?_, fun _ => ?_, fun _ => ?_, nofun⟩, ?_⟩
      · rw [hcur, hz]; simp [h2 rfl]
      · rw [hcur, hz]; simp [h3 rfl]
      · rw [hcur, hz]; simp [h4 rfl]
      · rw [hcur, hz]; simp [h5 rfl]
      · rw [hcur, hz]; simp [h6 rfl]
      · simp [fileNames, h2 rfl, h0]
    · rw [if_pos hk] at hs
      cases Except.ok.inj hs
      refine ⟨⟨by rw [hcur]; exact h0, fun hk' e n => by rw [hsn]; exact h1 hk' e n, fun hk' => absurd hk' hk, fun hk' => absurd hk' hk, fun hk' => absurd hk' hk,
        fun hk' => absurd hk' hk, fun hk' => absurd hk' hk, fun hk' => by rw [htot]; exact h7 hk'⟩, ?_⟩
      cases kind with
      | thermodynamics => exact absurd rfl hk
      | particles => simp [fileNames]
      | fields => simp [fileNames]
  | tensor q d g =>
    have hcur : current 0 (pre ++ [VCall.tensor q d g]) = current 0 pre := by rw [current_append]; rfl
    have hsn : ∀ e n, snaps e n (pre ++ [VCall.tensor q d g]) = snaps e n pre := fun e n => by rw [snaps_snoc]; simp [snaps]
    have hz : ∀ s, outs s (current 0 pre) 0 (pre ++ [VCall.tensor q d g]) = outs s (current 0 pre) 0 pre +
        if (VCall.tensor q d g).series = some s then 1 else 0 := fun s => by rw [outs_snoc]; simp
    have htot : total .fields (pre ++ [VCall.tensor q d g]) = total .fields pre := by
      rw [total_snoc]; cases q <;> simp [VCall.series]
    simp only [vstep] at hs
    by_cases hk : kind = .thermodynamics
    · subst hk
      rw [if_neg (by simp)] at hs
      have hq : q = .tmn ∨ q = .tmnLandau ∨ q = .vLandau := hO
      rcases hq with rfl | rfl | rfl
      · rw [if_pos rfl] at hs
        cases Except.ok.inj hs
        refine ⟨⟨by rw [hcur]; exact h0, nofun, fun _ => ?_, fun _ => ?_, fun _ => ?_, fun _ => ?_, fun _ => ?_, nofun⟩, ?_⟩
        · rw [hcur, hz]; simp [h2 rfl, VCall.series]
        · rw [hcur, hz]; simp [h3 rfl, VCall.series]
        · rw [hcur, hz]; simp [h4 rfl, VCall.series]
        · rw [hcur, hz]; simp [h5 rfl, VCall.series]
        · rw [hcur, hz]; simp [h6 rfl, VCall.series]
        · simp [fileNames, h3 rfl, h0]
      · rw [if_neg (by simp), if_pos rfl] at hs
        cases Except.ok.inj hs
        refine ⟨⟨by rw [hcur]; exact h0, nofun, fun _ => ?_, fun _ => ?_, fun _ => ?_, fun _ => ?_, fun _ => ?_, nofun⟩, ?_⟩
        · rw [hcur, hz]; simp [h2 rfl, VCall.series]
        · rw [hcur, hz]; simp [h3 rfl, VCall.series]
        · rw [hcur, hz]; simp [h4 rfl, VCall.series]
        · rw [hcur, hz]; simp [h5 rfl, VCall.series]
        · rw [hcur, hz]; simp [h6 rfl, VCall.series]
        · simp [fileNames, h4 rfl, h0]
      · rw [if_neg (by simp), if_neg (by simp)] at hs
        cases Except.ok.inj hs
        refine ⟨⟨by rw [hcur]; exact h0, nofun, fun _ => ?_, fun _ => ?_, fun _ => ?_, fun _ => ?_, fun _ => ?_, nofun⟩, ?_⟩
        · rw [hcur, hz]; simp [h2 rfl, VCall.series]
        · rw [hcur, hz]; simp [h3 rfl, VCall.series]
        · rw [hcur, hz]; simp [h4 rfl, VCall.series]
        · rw [hcur, hz]; simp [h5 rfl, VCall.series]
        · rw [hcur, hz]; simp [h6 rfl, VCall.series]
        · simp [fileNames, h5 rfl, h0]
    · rw [if_pos hk] at hs
      cases Except.ok.inj hs
      refine ⟨⟨by rw [hcur]; exact h0, fun hk' e n => by rw [hsn]; exact h1 hk' e n, fun hk' => absurd hk' hk, fun hk' => absurd hk' hk, fun hk' => absurd hk' hk,
        fun hk' => absurd hk' hk, fun hk' => absurd hk' hk, fun hk' => by rw [htot]; exact h7 hk'⟩, ?_⟩
      cases kind with
      | thermodynamics => exact absurd rfl hk
      | particles => simp [fileNames]
      | fields => simp [fileNames]
  | fluid g =>
    have hcur : current 0 (pre ++ [VCall.fluid g]) = current 0 pre := by rw [current_append]; rfl
    have hsn : ∀ e n, snaps e n (pre ++ [VCall.fluid g]) = snaps e n pre := fun e n => by rw [snaps_snoc]; simp [snaps]
    have hz : ∀ s, outs s (current 0 pre) 0 (pre ++ [VCall.fluid g]) = outs s (current 0 pre) 0 pre +
        if some Series.fluid = some s then 1 else 0 := fun s => by rw [outs_snoc]; simp [VCall.series]
    have htot : total .fields (pre ++ [VCall.fluid g]) = total .fields pre := by rw [total_snoc]; simp [VCall.series]
    simp only [vstep] at hs
    by_cases hk : kind = .thermodynamics
    · subst hk
      rw [if_neg (by simp)] at hs
      cases Except.ok.inj hs
      refine ⟨⟨by rw [hcur]; exact h0, nofun, fun _ => ?_, fun _ => ?_, fun _ => ?_, fun _ => ?_, fun _ => ?_, nofun⟩, ?_⟩
      · rw [hcur, hz]; simp [h2 rfl]
      · rw [hcur, hz]; simp [h3 rfl]
      · rw [hcur, hz]; simp [h4 rfl]
      · rw [hcur, hz]; simp [h5 rfl]
      · rw [hcur, hz]; simp [h6 rfl]
      · simp [fileNames, h6 rfl, h0]
    · rw [if_pos hk] at hs
      cases Except.ok.inj hs
      refine ⟨⟨by rw [hcur]; exact h0, fun hk' e n => by rw [hsn]; exact h1 hk' e n, fun hk' => absurd hk' hk, fun hk' => absurd hk' hk, fun hk' => absurd hk' hk,
        fun hk' => absurd hk' hk, fun hk' => absurd hk' hk, fun hk' => by rw [htot]; exact h7 hk'⟩, ?_⟩
      cases kind with
      | thermodynamics => exact absurd rfl hk
      | particles => simp [fileNames]
      | fields => simp [fileNames]
  | fields n1 n2 g =>
    have hcur : current 0 (pre ++ [VCall.fields n1 n2 g]) = current 0 pre := by rw [current_append]; rfl
    have hsn : ∀ e n, snaps e n (pre ++ [VCall.fields n1 n2 g]) = snaps e n pre := fun e n => by rw [snaps_snoc]; simp [snaps]
    have hz : ∀ s, s ≠ .fields → outs s (current 0 pre) 0 (pre ++ [VCall.fields n1 n2 g]) = outs s (current 0 pre) 0 pre := fun s hs' => by
      rw [outs_snoc]; simp [VCall.series, Ne.symm hs']
    simp only [vstep] at hs
    by_cases hk : kind = .fields
    · subst hk
      rw [if_neg (by simp)] at hs
      cases Except.ok.inj hs
      refine ⟨⟨by rw [hcur]; exact h0, nofun, nofun, nofun, nofun, nofun, nofun, fun _ => ?_⟩, ?_⟩
      · rw [total_snoc]; simp [VCall.series, h7 rfl]
      · simp [fileNames, h7 rfl, h0]
    · rw [if_pos hk] at hs
      cases Except.ok.inj hs
      refine ⟨⟨by rw [hcur]; exact h0, fun hk' e n => by rw [hsn]; exact h1 hk' e n, fun hk' => ?_, fun hk' => ?_, fun hk' => ?_,
        fun hk' => ?_, fun hk' => ?_, fun hk' => absurd hk' hk⟩, ?_⟩
      · rw [hcur, hz _ (by simp)]; exact h2 hk'
      · rw [hcur, hz _ (by simp)]; exact h3 hk'
      · rw [hcur, hz _ (by simp)]; exact h4 hk'
      · rw [hcur, hz _ (by simp)]; exact h5 hk'
      · rw [hcur, hz _ (by simp)]; exact h6 hk'
      cases kind with
      | fields => exact absurd rfl hk
      | particles => simp [fileNames]
      | thermodynamics => simp [fileNames]

theorem names_run {version : String} {kind : VKind} (o : TensorOps T) (cs : List (VCall T)) :
    ∀ (pre : List (VCall T)) (st st' : VSt), Counts kind pre st → Ordered pre cs → vrun version kind o st cs = .ok st' →
      st'.files.map (·.1) = st.files.map (·.1) ++ allFiles kind pre cs := by
  induction cs with
  | nil => intro pre st st' _ _ h; cases Except.ok.inj h; simp [allFiles]
  | cons c cs ih =>
    intro pre st st' hc ho h
    simp only [vrun] at h
    cases hs : vstep version kind o st c with
    | error e => rw [hs] at h; cases h
    | ok st1 =>
      rw [hs] at h
      obtain ⟨h1, h2⟩ := counts_step o hc ⟨ho.1, trivial⟩ hs
      rw [ih _ _ _ h1 ho.2 h, h2, allFiles, List.append_assoc]

/-- C151: each output goes to a file whose name has the event (and the ensemble) and the number of the output. -/
theorem C151_names {version : String} {kind : VKind} (o : TensorOps T) {cs : List (VCall T)} (ho : Ordered [] cs) {st : VSt}
    (h : vrun version kind o .init cs = .ok st) : st.files.map (·.1) = allFiles kind [] cs := by
  have := names_run o cs [] .init st ⟨rfl, fun _ _ _ => rfl, fun _ => rfl, fun _ => rfl, fun _ => rfl, fun _ => rfl, fun _ => rfl, fun _ => rfl⟩ ho h
  simpa [VSt.init] using this

/-! ### Different outputs have different files -/

theorem split_under {a b a' b' : List Char} (h : a ++ '_' :: b = a' ++ '_' :: b') (ha : '_' ∉ a) (ha' : '_' ∉ a') : a = a' ∧ b = b' := by
  induction a generalizing a' with
  | nil =>
    cases a' with
    | nil => simpa using h
    | cons c a' =>
      simp only [List.nil_append, List.cons_append, List.cons.injEq] at h
      exact absurd (by simp [← h.1]) ha'
  | cons c a ih =>
    cases a' with
    | nil =>
      simp only [List.nil_append, List.cons_append, List.cons.injEq] at h
      exact absurd (by simp [h.1]) ha
    | cons c' a' =>
      simp only [List.cons_append, List.cons.injEq] at h
      obtain ⟨h1, h2⟩ := ih h.2 (fun hh => ha (by simp [hh])) (fun hh => ha' (by simp [hh]))
      exact ⟨by rw [h.1, h1], h2⟩

theorem pad_under (w n : ℕ) : '_' ∉ pad w n := by
  intro h
  unfold pad at h
  rcases List.mem_append.1 h with h | h
  · exact absurd (List.eq_of_mem_replicate h) (by decide)
  · obtain ⟨d, hd, he⟩ := List.mem_map.1 h
    have : d < 10 := Nat.digits_lt_base (by norm_num) (List.mem_reverse.1 hd)
    interval_cases d <;> exact absurd he (by decide)

theorem pad_length_le (n : ℕ) (h : n < 2 ^ 31) : (pad 5 n).length ≤ 10 := by
  have : (Nat.digits 10 n).length ≤ 10 := by
    rw [Nat.digits_length_le_iff (by norm_num)]; exact lt_trans h (by norm_num)
  simp only [pad, List.length_append, List.length_replicate, List.length_map, List.length_reverse]; omega

theorem posName_inj {ev ens k ev' ens' k' : ℕ} (h1 : ev < 2 ^ 31) (h2 : ens < 2 ^ 31) (h3 : k < 2 ^ 31) (h1' : ev' < 2 ^ 31)
    (h2' : ens' < 2 ^ 31) (h3' : k' < 2 ^ 31) (h : posName ev ens k = posName ev' ens' k') : ev = ev' ∧ ens = ens' ∧ k = k' := by
  have e : ∀ ev ens k, ev < 2 ^ 31 → ens < 2 ^ 31 → k < 2 ^ 31 → posName ev ens k =
      "pos".toList ++ '_' :: ("ev".toList ++ (pad 5 ev ++ '_' :: ("ens".toList ++ (pad 5 ens ++ '_' :: ("tstep".toList ++ (pad 5 k ++ ".vtk".toList)))))) := by
    intro ev ens k h1 h2 h3
    have l1 := pad_length_le ev h1
    have l2 := pad_length_le ens h2
    have l3 := pad_length_le k h3
    unfold posName snprintf
    rw [List.take_of_length_le]
    · simp
    · simp; omega
  rw [e ev ens k h1 h2 h3, e ev' ens' k' h1' h2' h3'] at h
  have s1 := List.append_cancel_left (List.cons.inj (List.append_cancel_left h)).2
  obtain ⟨a1, s2⟩ := split_under s1 (pad_under _ _) (pad_under _ _)
  obtain ⟨a2, s3⟩ := split_under (List.append_cancel_left s2) (pad_under _ _) (pad_under _ _)
  have a3 := List.append_cancel_right (List.append_cancel_left s3)
  exact ⟨pad_inj a1, pad_inj a2, pad_inj a3⟩

theorem vtkName_inj {d d' : List Char} {ev k ev' k' : ℕ} (h1 : ev < 100000) (h2 : k < 100000) (h1' : ev' < 100000) (h2' : k' < 100000)
    (h : vtkName d ev k = vtkName d' ev' k') : d = d' ∧ ev = ev' ∧ k = k' := by
  have len : ∀ ev k, ev < 100000 → k < 100000 → (['_'] ++ pad 5 ev ++ "_tstep".toList ++ pad 5 k ++ ".vtk".toList).length = 21 := by
    intro ev k h1 h2
    simp [pad_length 5 ev h1, pad_length 5 k h2]
  unfold vtkName snprintf at h
  rw [List.take_of_length_le (by rw [len ev k h1 h2]), List.take_of_length_le (by rw [len ev' k' h1' h2'])] at h
  obtain ⟨a, b⟩ := List.append_inj' h (by rw [len ev k h1 h2, len ev' k' h1' h2'])
  have b' := List.append_cancel_right b
  obtain ⟨c1, c2⟩ := List.append_inj b' (by simp [pad_length 5 ev h1, pad_length 5 ev' h1'])
  have c3 := List.append_cancel_left (List.append_cancel_right c1)
  exact ⟨a, pad_inj c3, pad_inj c2⟩

theorem snaps_append (ev ens : ℕ) (l m : List (VCall T)) : snaps ev ens (l ++ m) = snaps ev ens l + snaps ev ens m := by
  induction l with
  | nil => simp [snaps]
  | cons x l ih => cases x <;> simp only [List.cons_append, snaps, ih] <;> omega

theorem outs_append (s : Series) (ev : ℕ) (l m : List (VCall T)) :
    ∀ e0, outs s ev e0 (l ++ m) = outs s ev e0 l + outs s ev (current e0 l) m := by
  induction l with
  | nil => intro e0; simp [outs, current]
  | cons x l ih =>
    intro e0
    have : current (current e0 [x]) l = current e0 (x :: l) := by rw [← current_append]; rfl
    rw [List.cons_append]
    simp only [outs, ih, this]; omega

theorem total_append (s : Series) (l m : List (VCall T)) : total s (l ++ m) = total s l + total s m := by
  simp [total, List.filter_append]

/-- The bounds under which the numbers fit into the names: less than 100 000 events and outputs of a series per event for the files of the
lattice, the range of `int` for those of the particles. -/
structure Bounded (kind : VKind) (h : List (VCall T)) : Prop where
  event : ∀ c ∈ h, match c with
    | .start ev ens _ => ev < (if kind = .particles then 2 ^ 31 else 100000) ∧ ens < 2 ^ 31
    | .inter ev ens _ => ev < (if kind = .particles then 2 ^ 31 else 100000) ∧ ens < 2 ^ 31
    | _ => True
  snaps : kind = .particles → ∀ ev ens, snaps ev ens h < 2 ^ 31
  outs : kind = .thermodynamics → ∀ s ev, outs s ev 0 h < 100000
  total : kind = .fields → total .fields h < 100000

theorem current_lt {kind : VKind} (hk : kind ≠ .particles) {h : List (VCall T)} (hb : Bounded kind h) :
    ∀ (l m : List (VCall T)), h = l ++ m → current 0 l < 100000 := by
  have key : ∀ (l : List (VCall T)) (e0 : ℕ), e0 < 100000 → (∀ c ∈ l, c ∈ h) → current e0 l < 100000 := by
    intro l
    induction l with
    | nil => intro e0 h0 _; exact h0
    | cons c l ih =>
      intro e0 h0 hm
      have hc := hb.event c (hm c (by simp))
      cases c with
      | start ev ens ps => rw [if_neg hk] at hc; exact ih ev hc.1 fun x hx => hm x (by simp [hx])
      | inter ev ens ps => rw [if_neg hk] at hc; exact ih ev hc.1 fun x hx => hm x (by simp [hx])
      | density => exact ih e0 h0 fun x hx => hm x (by simp [hx])
      | tensor => exact ih e0 h0 fun x hx => hm x (by simp [hx])
      | fluid => exact ih e0 h0 fun x hx => hm x (by simp [hx])
      | fields => exact ih e0 h0 fun x hx => hm x (by simp [hx])
  intro l m e
  exact key l 0 (by norm_num) fun c hc => by rw [e]; simp [hc]

/-- The description of a lattice file. -/
def VCall.descr : VCall T → Option (List Char)
  | .density q d _ => some (varName q d)
  | .tensor q d _ => some (varName q d)
  | .fluid _ => some "fluidization_td".toList
  | _ => none

theorem fluid_ne (q : Quantity) (d : Dens) : varName q d ≠ "fluidization_td".toList := by
  have h : ∀ x ∈ allNames, varName x.1 x.2 ≠ "fluidization_td".toList := by decide +kernel
  exact h (q, d) (mem_allNames q d)

/-- The form of the names of the lattice files. -/
theorem lattice_form {pre : List (VCall T)} {c : VCall T} (ho : Ordered pre [c]) {x : List Char}
    (hx : x ∈ fileNames .thermodynamics pre c) :
    ∃ s n, c.series = some s ∧ s ≠ .fields ∧ c.descr = some n ∧ x = vtkName n (current 0 pre) (outs s (current 0 pre) 0 pre) := by
  cases c with
  | start => simp [fileNames] at hx
  | inter => simp [fileNames] at hx
  | fields => simp [fileNames] at hx
  | density q d g => exact ⟨.density, _, rfl, by simp, rfl, by simpa [fileNames] using hx⟩
  | fluid g => exact ⟨.fluid, _, rfl, by simp, rfl, by simpa [fileNames] using hx⟩
  | tensor q d g =>
    have hq : q = .tmn ∨ q = .tmnLandau ∨ q = .vLandau := ho.1
    rcases hq with rfl | rfl | rfl
    · exact ⟨.tmn, _, rfl, by simp, rfl, by simpa [fileNames] using hx⟩
    · exact ⟨.tmnLandau, _, rfl, by simp, rfl, by simpa [fileNames] using hx⟩
    · exact ⟨.velocity, _, rfl, by simp, rfl, by simpa [fileNames] using hx⟩

theorem series_of_descr {pre pre' : List (VCall T)} {c c' : VCall T} (ho : Ordered pre [c]) (ho' : Ordered pre' [c']) {n : List Char}
    (h : c.descr = some n) (h' : c'.descr = some n) : c.series = c'.series := by
  have key : ∀ q d q' d', varName q d = varName q' d' → q = q' := fun q d q' d' hh => (varName_inj q q' d d' hh).1
  cases c with
  | start => cases h
  | inter => cases h
  | fields => cases h
  | density q d g =>
    have hq : q = .eckart := ho.1
    cases c' with
    | start => cases h'
    | inter => cases h'
    | fields => cases h'
    | density => rfl
    | fluid => exact absurd (Option.some.inj (h.trans h'.symm)) (fluid_ne q d)
    | tensor q' d' g' =>
      have := key _ _ _ _ (Option.some.inj (h.trans h'.symm))
      have hq' : q' = .tmn ∨ q' = .tmnLandau ∨ q' = .vLandau := ho'.1
      rcases hq' with rfl | rfl | rfl <;> (rw [hq] at this; cases this)
  | fluid g =>
    cases c' with
    | start => cases h'
    | inter => cases h'
    | fields => cases h'
    | density q d g => exact absurd (Option.some.inj (h'.trans h.symm)) (fluid_ne q d)
    | fluid => rfl
    | tensor q d g => exact absurd (Option.some.inj (h'.trans h.symm)) (fluid_ne q d)
  | tensor q d g =>
    have hq : q = .tmn ∨ q = .tmnLandau ∨ q = .vLandau := ho.1
    cases c' with
    | start => cases h'
    | inter => cases h'
    | fields => cases h'
    | density q' d' g' =>
      have hq' : q' = .eckart := ho'.1
      have := key _ _ _ _ (Option.some.inj (h.trans h'.symm))
      rw [hq'] at this
      rcases hq with rfl | rfl | rfl <;> cases this
    | fluid => exact absurd (Option.some.inj (h.trans h'.symm)) (fluid_ne q d)
    | tensor q' d' g' =>
      have := key _ _ _ _ (Option.some.inj (h.trans h'.symm))
      subst this
      rcases hq with rfl | rfl | rfl <;> rfl

theorem clash {kind : VKind} {h pre mid post : List (VCall T)} {c c' : VCall T} (hb : Bounded kind h)
    (e : h = pre ++ (c :: mid ++ c' :: post)) (ho : Ordered pre [c]) (ho' : Ordered (pre ++ c :: mid) [c']) {x : List Char}
    (hx : x ∈ fileNames kind pre c) (hx' : x ∈ fileNames kind (pre ++ c :: mid) c') : False := by
  have mc : c ∈ h := by rw [e]; simp
  have mc' : c' ∈ h := by rw [e]; simp
  cases kind with
  | particles =>
    have b := hb.snaps rfl
    have form : ∀ (p : List (VCall T)) (d : VCall T), x ∈ fileNames .particles p d → d ∈ h →
        ∃ ev ens, x = posName ev ens (snaps ev ens p) ∧ ev < 2 ^ 31 ∧ ens < 2 ^ 31 ∧ snaps ev ens [d] = 1 := by
      intro p d hd hm
      have hl := hb.event d hm
      cases d with
      | start ev ens ps => exact ⟨ev, ens, by simpa [fileNames] using hd, by simpa using hl.1, hl.2, by simp [snaps]⟩
      | inter ev ens ps => exact ⟨ev, ens, by simpa [fileNames] using hd, by simpa using hl.1, hl.2, by simp [snaps]⟩
      | density => simp [fileNames] at hd
      | tensor => simp [fileNames] at hd
      | fluid => simp [fileNames] at hd
      | fields => simp [fileNames] at hd
    obtain ⟨ev, ens, e1, l1, l2, one⟩ := form pre c hx mc
    obtain ⟨ev', ens', e1', l1', l2', _⟩ := form _ c' hx' mc'
    have s1 : snaps ev ens pre ≤ snaps ev ens h := by rw [e, snaps_append]; omega
    have s2 : snaps ev' ens' (pre ++ c :: mid) ≤ snaps ev' ens' h := by
      rw [e, show pre ++ (c :: mid ++ c' :: post) = (pre ++ c :: mid) ++ c' :: post by simp, snaps_append _ _ (pre ++ c :: mid)]; omega
    obtain ⟨rfl, rfl, h3⟩ := posName_inj l1 l2 (lt_of_le_of_lt s1 (b _ _)) l1' l2' (lt_of_le_of_lt s2 (b _ _)) (e1.symm.trans e1')
    rw [snaps_append, show c :: mid = [c] ++ mid from rfl, snaps_append, one] at h3
    omega
  | thermodynamics =>
    have b := hb.outs rfl
    obtain ⟨s, n, h1, _, h2, h3⟩ := lattice_form ho hx
    obtain ⟨s', n', h1', _, h2', h3'⟩ := lattice_form ho' hx'
    have c1 := current_lt (by simp) hb pre _ e
    have c2 := current_lt (by simp) hb (pre ++ c :: mid) (c' :: post) (by rw [e]; simp)
    have s1 : outs s (current 0 pre) 0 pre ≤ outs s (current 0 pre) 0 h := by rw [e, outs_append]; omega
    have s2 : outs s' (current 0 (pre ++ c :: mid)) 0 (pre ++ c :: mid) ≤ outs s' (current 0 (pre ++ c :: mid)) 0 h := by
      rw [e, show pre ++ (c :: mid ++ c' :: post) = (pre ++ c :: mid) ++ c' :: post by simp, outs_append _ _ (pre ++ c :: mid)]; omega
    obtain ⟨rfl, hev, hk⟩ := vtkName_inj c1 (lt_of_le_of_lt s1 (b _ _)) c2 (lt_of_le_of_lt s2 (b _ _)) (h3.symm.trans h3')
    have hss : s = s' := by
      have := series_of_descr ho ho' h2 h2'
      rw [h1, h1'] at this
      exact Option.some.inj this
    subst hss
    rw [← hev, outs_append, outs, if_pos ⟨h1, rfl⟩] at hk
    omega
  | fields =>
    have b := hb.total rfl
    have form : ∀ (p : List (VCall T)) (d : VCall T), x ∈ fileNames .fields p d →
        ∃ n, x = vtkName n (current 0 p) (total .fields p) ∧ total .fields [d] = 1 := by
      intro p d hd
      cases d with
      | start => simp [fileNames] at hd
      | inter => simp [fileNames] at hd
      | density => simp [fileNames] at hd
      | tensor => simp [fileNames] at hd
      | fluid => simp [fileNames] at hd
      | fields n1 n2 g =>
        simp only [fileNames, List.mem_cons, List.not_mem_nil, or_false] at hd
        rcases hd with hd | hd
        · exact ⟨_, hd, by simp [total, VCall.series]⟩
        · exact ⟨_, hd, by simp [total, VCall.series]⟩
    obtain ⟨n, e1, one⟩ := form pre c hx
    obtain ⟨n', e1', _⟩ := form _ c' hx'
    have c1 := current_lt (by simp) hb pre _ e
    have c2 := current_lt (by simp) hb (pre ++ c :: mid) (c' :: post) (by rw [e]; simp)
    have s1 : total .fields pre ≤ total .fields h := by rw [e, total_append]; omega
    have s2 : total .fields (pre ++ c :: mid) ≤ total .fields h := by
      rw [e, show pre ++ (c :: mid ++ c' :: post) = (pre ++ c :: mid) ++ c' :: post by simp, total_append _ (pre ++ c :: mid)]; omega
    obtain ⟨_, _, hk⟩ := vtkName_inj c1 (lt_of_le_of_lt s1 b) c2 (lt_of_le_of_lt s2 b) (e1.symm.trans e1')
    rw [total_append, show c :: mid = [c] ++ mid from rfl, total_append, one] at hk
    omega

theorem mem_allFiles {kind : VKind} {x : List Char} (cs : List (VCall T)) :
    ∀ p, Ordered p cs → x ∈ allFiles kind p cs → ∃ mid c post, cs = mid ++ c :: post ∧ Ordered (p ++ mid) [c] ∧ x ∈ fileNames kind (p ++ mid) c := by
  induction cs with
  | nil => intro p _ h; simp [allFiles] at h
  | cons c cs ih =>
    intro p ho h
    rcases List.mem_append.1 h with h | h
    · exact ⟨[], c, cs, rfl, by rw [List.append_nil]; exact ⟨ho.1, trivial⟩, by simpa using h⟩
    · obtain ⟨mid, d, post, e, h1, h2⟩ := ih _ ho.2 h
      exact ⟨c :: mid, d, post, by rw [e]; rfl, by simpa using h1, by simpa using h2⟩

theorem fileNames_nodup {kind : VKind} {h pre post : List (VCall T)} {c : VCall T} (hb : Bounded kind h) (e : h = pre ++ c :: post)
    (ho : Ordered pre [c]) : (fileNames kind pre c).Nodup := by
  by_cases hf : ∃ n1 n2 g, c = .fields n1 n2 g ∧ kind = .fields
  · obtain ⟨n1, n2, g, rfl, rfl⟩ := hf
    have hne : n1 ≠ n2 := ho.1
    have c1 := current_lt (by simp) hb pre _ e
    have s1 : total .fields pre ≤ total .fields h := by rw [e, total_append]; omega
    have b := lt_of_le_of_lt s1 (hb.total rfl)
    simp only [fileNames, List.nodup_cons, List.mem_singleton, List.not_mem_nil, not_false_eq_true, List.nodup_nil, and_true]
    intro hh
    exact hne (String.toList_inj.1 (vtkName_inj c1 b c1 b hh).1)
  · have : (fileNames kind pre c).length ≤ 1 := by
      cases kind <;> cases c <;> try (simp [fileNames]; done)
      · rename_i q d g; cases q <;> simp [fileNames]
      · rename_i n1 n2 g; exact absurd ⟨n1, n2, g, rfl, rfl⟩ hf
    match hl : fileNames kind pre c, this with
    | [], _ => simp
    | [y], _ => simp

theorem nodup_allFiles {kind : VKind} {h : List (VCall T)} (hb : Bounded kind h) (cs : List (VCall T)) :
    ∀ pre, h = pre ++ cs → Ordered pre cs → (allFiles kind pre cs).Nodup := by
  induction cs with
  | nil => intro _ _ _; simp [allFiles]
  | cons c cs ih =>
    intro pre e ho
    rw [allFiles, List.nodup_append]
    refine ⟨fileNames_nodup hb e ⟨ho.1, trivial⟩, ih _ (by rw [e]; simp) ho.2, ?_⟩
    rintro x hx y hy rfl
    obtain ⟨mid, c', post, e', h1, h2⟩ := mem_allFiles cs _ ho.2 hy
    refine clash (mid := mid) (c' := c') (post := post) hb (by rw [e, e']; simp) ⟨ho.1, trivial⟩ ?_ hx ?_
    · simpa using h1
    · simpa using h2

/-- C151: no file of a run is written twice. -/
theorem C151_distinct {version : String} {kind : VKind} (o : TensorOps T) {cs : List (VCall T)} (ho : Ordered [] cs) (hb : Bounded kind cs)
    {st : VSt} (h : vrun version kind o .init cs = .ok st) : (st.files.map (·.1)).Nodup := by
  rw [C151_names o ho h]
  exact nodup_allFiles hb cs [] rfl ho

/-- A run with two events, one ensemble and two outputs of a density per event meets the hypotheses. -/
example : ∃ st, vrun "SMASH" .thermodynamics ops .init
    [.start 0 0 [], .density .eckart .baryon ⟨1, 1, 1, (1, 1, 1), (0, 0, 0), fun _ => 3⟩, .inter 0 0 [],
      .density .eckart .baryon ⟨1, 1, 1, (1, 1, 1), (0, 0, 0), fun _ => 4⟩, .start 1 0 [],
      .density .eckart .baryon ⟨1, 1, 1, (1, 1, 1), (0, 0, 0), fun _ => 5⟩] = .ok st ∧
    st.files.map (·.1) = ["net_baryon_rho_eckart_00000_tstep00000.vtk".toList, "net_baryon_rho_eckart_00000_tstep00001.vtk".toList,
      "net_baryon_rho_eckart_00001_tstep00000.vtk".toList] ∧
    Ordered (T := Fin 10 → W64) [] [.start 0 0 [], .density .eckart .baryon ⟨1, 1, 1, (1, 1, 1), (0, 0, 0), fun _ => 3⟩, .inter 0 0 [],
      .density .eckart .baryon ⟨1, 1, 1, (1, 1, 1), (0, 0, 0), fun _ => 4⟩, .start 1 0 [],
      .density .eckart .baryon ⟨1, 1, 1, (1, 1, 1), (0, 0, 0), fun _ => 5⟩] := by
  refine ⟨_, rfl, by decide +kernel, ?_⟩
  refine ⟨⟨rfl, fun s => rfl⟩, rfl, rfl, rfl, ⟨rfl, fun s => ?_⟩, rfl, trivial⟩
  simp [outs, current]

/-- C151: below 100 000 events and outputs the numbers have five digits and the name ends with the extension. -/
theorem C151_extension {d : List Char} {ev k : ℕ} (h1 : ev < 100000) (h2 : k < 100000) :
    (pad 5 ev).length = 5 ∧ (pad 5 k).length = 5 ∧
    vtkName d ev k = d ++ '_' :: (pad 5 ev ++ ("_tstep".toList ++ (pad 5 k ++ ".vtk".toList))) := by
  refine ⟨pad_length 5 ev h1, pad_length 5 k h2, ?_⟩
  unfold vtkName snprintf
  rw [List.take_of_length_le (by simp [pad_length 5 ev h1, pad_length 5 k h2])]
  simp

/-- The contents which a call should write. -/
def contents (version : String) (kind : VKind) (o : TensorOps T) : VCall T → List (Except VErr (List Tok))
  | .start _ _ ps => if kind = .particles then [particleFile version ps] else []
  | .inter _ _ ps => if kind = .particles then [particleFile version ps] else []
  | .density q d g => if kind = .thermodynamics then [.ok (densityFile q d g)] else []
  | .tensor q d g => if kind = .thermodynamics then [.ok (tensorFile o q d g)] else []
  | .fluid g => if kind = .thermodynamics then [.ok (fluidFile g)] else []
  | .fields n1 n2 g => if kind = .fields then [.ok (fieldFile n1 g false), .ok (fieldFile n2 g true)] else []

/-- C151: each output writes its own data, in the order of the calls. -/
theorem C151_contents {version : String} {kind : VKind} (o : TensorOps T) (cs : List (VCall T)) :
    ∀ {st st' : VSt}, vrun version kind o st cs = .ok st' →
      st'.files.map (fun f => (.ok f.2 : Except VErr (List Tok))) =
        st.files.map (fun f => (.ok f.2 : Except VErr (List Tok))) ++ cs.flatMap (contents version kind o) := by
  have snap : ∀ (st st' : VSt) (ps : List Part), snapshot version kind st ps = .ok st' →
      st'.files.map (fun f => (.ok f.2 : Except VErr (List Tok))) = st.files.map (fun f => (.ok f.2 : Except VErr (List Tok))) ++
        (if kind = .particles then [particleFile version ps] else []) := by
    intro st st' ps h
    unfold snapshot at h
    by_cases hk : kind = .particles
    · rw [if_neg (by simpa using hk)] at h
      cases hf : particleFile version ps with
      | error e => rw [hf] at h; cases h
      | ok f => rw [hf] at h; cases Except.ok.inj h; simp [hk]
    · rw [if_pos hk] at h
      cases Except.ok.inj h
      simp [hk]
  induction cs with
  | nil => intro st st' h; cases Except.ok.inj h; simp
  | cons c cs ih =>
    intro st st' h
    simp only [vrun] at h
    cases hs : vstep version kind o st c with
    | error e => rw [hs] at h; cases h
    | ok st1 =>
      rw [hs] at h
      rw [ih h, List.flatMap_cons, ← List.append_assoc]
      congr 1
      cases c with
      | start ev ens ps => have := snap _ _ ps hs; exact this
      | inter ev ens ps => have := snap _ _ ps hs; exact this
      | density q d g =>
        simp only [vstep] at hs
        split_ifs at hs with h1 <;> cases Except.ok.inj hs <;> simp_all [contents]
      | tensor q d g =>
        simp only [vstep] at hs
        split_ifs at hs with h1 <;> cases Except.ok.inj hs <;> simp_all [contents]
      | fluid g =>
        simp only [vstep] at hs
        split_ifs at hs with h1 <;> cases Except.ok.inj hs <;> simp_all [contents]
      | fields n1 n2 g =>
        simp only [vstep] at hs
        split_ifs at hs with h1 <;> cases Except.ok.inj hs <;> simp_all [contents]

/-- C151: without empty ensembles all outputs succeed. -/
theorem C151_runs {version : String} {kind : VKind} (o : TensorOps T) (cs : List (VCall T))
    (hp : ∀ c ∈ cs, match c with | .start _ _ ps => ps ≠ [] | .inter _ _ ps => ps ≠ [] | _ => True) :
    ∀ st, ∃ st', vrun version kind o st cs = .ok st' := by
  have snap : ∀ (st : VSt) (ps : List Part), ps ≠ [] → ∃ st', snapshot version kind st ps = .ok st' := by
    intro st ps hps
    unfold snapshot
    split_ifs with hk
    · exact ⟨_, rfl⟩
    · cases ps with
      | nil => exact absurd rfl hps
      | cons p ps => exact ⟨_, rfl⟩
  induction cs with
  | nil => intro st; exact ⟨st, rfl⟩
  | cons c cs ih =>
    intro st
    have : ∃ st', vstep version kind o st c = .ok st' := by
      have hc := hp c (by simp)
      cases c with
      | start ev ens ps => exact snap _ ps hc
      | inter ev ens ps => exact snap _ ps hc
      | density => simp only [vstep]; split_ifs <;> exact ⟨_, rfl⟩
      | tensor => simp only [vstep]; split_ifs <;> exact ⟨_, rfl⟩
      | fluid => simp only [vstep]; split_ifs <;> exact ⟨_, rfl⟩
      | fields => simp only [vstep]; split_ifs <;> exact ⟨_, rfl⟩
    obtain ⟨st1, h1⟩ := this
    obtain ⟨st2, h2⟩ := ih (fun d hd => hp d (by simp [hd])) st1
    exact ⟨st2, by simp only [vrun, h1, h2]⟩

/-! ### Findings -/

/-- C151: the counter of the fields is not reset: the first output of the second event is not number 0. -/
theorem C151_fields_counter_false : ∃ st, vrun "SMASH" .fields ops .init
    [.start 0 0 [], .fields "Efield" "Bfield" ⟨1, 1, 1, (1, 1, 1), (0, 0, 0), fun _ => ((0, 0, 0), (0, 0, 0))⟩, .start 1 0 [],
      .fields "Efield" "Bfield" ⟨1, 1, 1, (1, 1, 1), (0, 0, 0), fun _ => ((0, 0, 0), (0, 0, 0))⟩] = .ok st ∧
    "Efield_00001_tstep00000.vtk".toList ∉ st.files.map (·.1) ∧ "Efield_00001_tstep00001.vtk".toList ∈ st.files.map (·.1) := by
  refine ⟨_, rfl, ?_⟩
  decide +kernel

/-- C151: from event 100 000 the extension of the files of the lattice is cut. -/
theorem C151_extension_false : vtkName "net_baryon_rho_eckart".toList 100000 0 = "net_baryon_rho_eckart_100000_tstep00000.vt".toList := by
  decide +kernel

/-- C151: the output of an ensemble without particles asks for the time of the first particle. -/
theorem C151_empty_false : vrun "SMASH" .particles ops .init [.start 0 0 []] = .error .empty := rfl

end Verif.Td
