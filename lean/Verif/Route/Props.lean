import Verif.Route.Spec
import Verif.Config.Take
/-! C155: options of the input file reach the components that use them. -/
namespace Verif.Route
open Verif.Config Verif.Enums

theorem after_spec (st : State) (ks : List AnyKey) (hw : st.root.WF) (hk : Named ks) :
    (after st ks).root.WF ∧
      ∀ e, e ∈ (after st ks).root.leaves ↔ e ∈ st.root.leaves ∧ ∀ k ∈ ks, ¬Takes (.take k.key) e := by
  induction ks generalizing st with
  | nil => exact ⟨hw, by simp [after]⟩
  | cons k ks ih =>
    obtain ⟨h1, _, _, h4, _⟩ := take_spec st k.key hw (hk k (by simp))
    obtain ⟨i1, i2⟩ := ih (take st k.key).2 h1 (fun k' h => hk k' (by simp [h]))
    refine ⟨i1, fun e => ?_⟩
    rw [after, i2, h4]
    simp only [List.mem_cons, forall_eq_or_imp]
    tauto

theorem others_keep (st : State) (ks : List AnyKey) (hw : st.root.WF) (labels : List String) (n : Node)
    (ho : Others ks labels) (h : (labels, n) ∈ st.root.leaves) : (labels, n) ∈ (after st ks).root.leaves := by
  have hk : Named ks := fun k hm he => ho k hm (by rw [he]; exact List.nil_prefix)
  refine ((after_spec st ks hw hk).2 _).2 ⟨h, fun k hm ht => ?_⟩
  rcases ht with ht | ht
  · exact ho k hm ((show labels = k.key.labels from ht.1) ▸ List.prefix_rfl)
  · exact ho k hm ht.2.1

/-- A `take` that succeeds returns the value in the file, or the default if there is none. -/
theorem take_ok {T : Type} (st : State) (k : Key T) (hw : st.root.WF) (hm : k.isMap = false) (v : T)
    (h : (take st k).1 = .ok v) :
    (∃ n, (k.labels, n) ∈ st.root.leaves ∧ n ≠ .null ∧ convert k n = .ok v) ∨
      ((∀ n, (k.labels, n) ∈ st.root.leaves → n = .null) ∧ k.default = some v) := by
  by_cases hn : ∃ n, (k.labels, n) ∈ st.root.leaves ∧ n ≠ .null
  · obtain ⟨n, h1, h2⟩ := hn
    obtain ⟨_, h3, _⟩ := C40_value st k hw n h1 h2
    exact Or.inl ⟨n, h1, h2, h3.symm.trans h⟩
  · refine Or.inr ⟨fun n h1 => Classical.byContradiction fun h2 => hn ⟨n, h1, h2⟩, ?_⟩
    unfold take at h
    have hv : hasValue st k ≠ .ok true := by
      intro hv
      unfold hasValue at hv
      cases hf : findNode st.root k.labels with
      | error e => rw [hf] at hv; simp at hv
      | ok o =>
        cases o with
        | none => rw [hf] at hv; simp at hv
        | some n =>
          rw [hf] at hv
          simp only [Except.ok.injEq, Bool.and_eq_true, Bool.not_eq_true'] at hv
          refine hn ⟨n, (findNode_leaf _ _ _ hw hv.2).1 hf, fun h0 => ?_⟩
          rw [h0] at hv
          simp [Node.isNull] at hv
    cases hv' : hasValue st k with
    | error e => rw [hv'] at h; simp at h
    | ok b =>
      cases b with
      | true => exact absurd hv' hv
      | false =>
        rw [hv'] at h
        simp only at h
        cases hs : hasSection st k.labels with
        | error e => rw [hs] at h; simp at h
        | ok b =>
          rw [hs] at h
          cases b with
          | true => simp [hm] at h
          | false =>
            simp only at h
            split_ifs at h
            unfold defaultOr at h
            cases hd : k.default with
            | none => rw [hd] at h; simp at h
            | some w =>
              rw [hd] at h
              simp only [Except.ok.injEq] at h
              rw [h]

theorem extract_found (st : State) (labels : List String) (r : State × State)
    (h : extract st labels false = .ok r) :
    ∃ f, findNode st.root labels = .ok (some (.map f)) ∧ f ≠ .nil ∧ r.1 = ⟨.map f, []⟩ := by
  unfold extract at h
  cases hf : findNode st.root labels with
  | error e => rw [hf] at h; simp at h
  | ok o =>
    rw [hf] at h
    cases o with
    | none => simp at h
    | some n =>
      cases n with
      | null => simp at h
      | scalar s => simp at h
      | seq l => simp at h
      | map f =>
        cases f with
        | nil => simp at h
        | cons k n g =>
          simp only [Except.ok.injEq] at h
          exact ⟨_, rfl, by simp, by rw [← h]⟩

/-- A complete extraction has exactly the keys below the labels. -/
theorem extractComplete_spec (st sub rest : State) (labels : List String) (hw : st.root.WF) (hl : labels ≠ [])
    (hne : ∀ k ∈ labels, k ≠ "") (h : extractComplete st labels = .ok (sub, rest)) :
    sub.root.WF ∧ rest.root.WF ∧ (∀ e, e ∈ sub.root.leaves ↔ e ∈ st.root.leaves ∧ labels <+: e.1) ∧
      (∀ e, e ∈ rest.root.leaves ↔ e ∈ st.root.leaves ∧ ¬labels <+: e.1) := by
  unfold extractComplete at h
  cases hx : extract st labels false with
  | error e => rw [hx] at h; simp at h
  | ok r =>
    obtain ⟨f, hf, hnil, hr⟩ := extract_found st labels r hx
    obtain ⟨s, t⟩ := r
    rw [hx] at h
    simp only [Except.ok.injEq, Prod.mk.injEq] at h
    obtain ⟨h1, h2⟩ := h
    subst h2
    obtain ⟨c1, c2, c3, c4, _, c6⟩ := C72_extract st s t labels false hw hl _ hf hx
    simp only at hr
    have hsz : s.root.size ≠ 0 := by
      rw [hr]
      cases f with
      | nil => exact absurd rfl hnil
      | cons k n g => simp [Node.size, Forest.size]
    have hroot : sub.root = nest labels s.root := by
      rw [← h1, enclose]
      simp [hsz]
    refine ⟨by rw [hroot]; exact nest_wf labels _ c6 hne, c4, fun e => ?_, c2⟩
    rw [hroot, nest_leaves]
    simp only [List.mem_map]
    constructor
    · rintro ⟨e', he, rfl⟩
      exact ⟨(c1 e'.1 e'.2).1 he, List.prefix_append _ _⟩
    · rintro ⟨he, q, hq⟩
      refine ⟨(q, e.2), (c1 q e.2).2 ?_, ?_⟩
      · rw [hq]; exact he
      · rw [hq]

/-- The configuration of the modus has only keys of the section `Modi`. -/
theorem modusConfig_spec (st m : State) (pre : List AnyKey) (hw : st.root.WF) (hk : Named pre)
    (h : modusConfig st pre = .ok m) :
    m.root.WF ∧ ∀ e ∈ m.root.leaves, ["Modi"] <+: e.1 := by
  unfold modusConfig at h
  cases hx : extractComplete (after st pre) ["Modi"] with
  | error e => rw [hx] at h; simp at h
  | ok r =>
    obtain ⟨s, t⟩ := r
    rw [hx] at h
    simp only [Except.ok.injEq] at h
    subst h
    obtain ⟨h1, _, h3, _⟩ := extractComplete_spec _ _ _ _ (after_spec st pre hw hk).1 (by simp) (by simp) hx
    exact ⟨h1, fun e he => ((h3 e).1 he).2⟩

/-- Taking the option from a configuration with keys of the section `Modi` only. -/
theorem spin_off (m : State) (hw : m.root.WF) (hm : ∀ e ∈ m.root.leaves, ["Modi"] <+: e.1) (s : Spin)
    (h : (take m spinKey).1 = .ok s) : s = .off := by
  rcases take_ok m spinKey hw rfl s h with ⟨n, h1, _⟩ | ⟨_, h2⟩
  · have := hm _ h1
    simp [spinKey] at this
  · exact (Option.some.inj h2).symm

theorem sphereSpin_off (st : State) (pre own : List AnyKey) (hw : st.root.WF) (hp : Named pre) (ho : Named own)
    (s : Spin) (h : sphereSpin st pre own = .ok s) : s = .off := by
  unfold sphereSpin at h
  cases hm : modusConfig st pre with
  | error e => rw [hm] at h; simp at h
  | ok m =>
    rw [hm] at h
    obtain ⟨h1, h2⟩ := modusConfig_spec st m pre hw hp hm
    obtain ⟨h3, h4⟩ := after_spec m own h1 ho
    exact spin_off _ h3 (fun e he => h2 e ((h4 e).1 he).1) s h

theorem nucleusConfig_spec (st n : State) (pre own : List AnyKey) (side : Side) (hw : st.root.WF) (hp : Named pre)
    (ho : Named own) (h : nucleusConfig st pre own side = .ok n) :
    n.root.WF ∧ ∀ e ∈ n.root.leaves, ["Modi"] <+: e.1 := by
  unfold nucleusConfig at h
  cases hm : modusConfig st pre with
  | error e => rw [hm] at h; simp at h
  | ok m =>
    rw [hm] at h
    simp only at h
    obtain ⟨h1, h2⟩ := modusConfig_spec st m pre hw hp hm
    cases hc : extractComplete m ["Modi", "Collider"] with
    | error e => rw [hc] at h; simp at h
    | ok r =>
      obtain ⟨c, c'⟩ := r
      rw [hc] at h
      simp only at h
      obtain ⟨i1, _, i3, _⟩ := extractComplete_spec _ _ _ _ h1 (by simp) (by simp) hc
      obtain ⟨h3, h4⟩ := after_spec c own i1 ho
      cases hq : extractComplete (after c own) ["Modi", "Collider", "Projectile"] with
      | error e => rw [hq] at h; simp at h
      | ok r =>
        obtain ⟨p, rest⟩ := r
        rw [hq] at h
        simp only at h
        obtain ⟨j1, j2, j3, j4⟩ := extractComplete_spec _ _ _ _ h3 (by simp) (by simp) hq
        cases ht : extractComplete rest ["Modi", "Collider", "Target"] with
        | error e => rw [ht] at h; simp at h
        | ok r =>
          obtain ⟨t, t'⟩ := r
          rw [ht] at h
          simp only [Except.ok.injEq] at h
          obtain ⟨k1, _, k3, _⟩ := extractComplete_spec _ _ _ _ j2 (by simp) (by simp) ht
          subst h
          split_ifs
          · exact ⟨j1, fun e he => h2 e ((i3 e).1 ((h4 e).1 ((j3 e).1 he).1).1).1⟩
          · exact ⟨k1, fun e he => h2 e ((i3 e).1 ((h4 e).1 ((j4 e).1 ((k3 e).1 he).1).1).1).1⟩

theorem nucleusSpin_off (st : State) (pre own : List AnyKey) (side : Side) (hw : st.root.WF) (hp : Named pre)
    (ho : Named own) (s : Spin) (h : nucleusSpin st pre own side = .ok s) : s = .off := by
  unfold nucleusSpin at h
  cases hm : nucleusConfig st pre own side with
  | error e => rw [hm] at h; simp at h
  | ok m =>
    rw [hm] at h
    obtain ⟨h1, h2⟩ := nucleusConfig_spec st m pre own side hw hp ho hm
    exact spin_off m h1 h2 s h

/-! ### Spin interactions -/

/-- **C155** (what works): the value the file gives to the option is the one used by the scatterings, the
decays, the box and the list, whatever other keys were taken before; if the file does not give it, spin
interactions are off. -/
theorem C155_experiment_spin (st : State) (pre : List AnyKey) (hw : st.root.WF) (ho : Others pre spinName) :
    (InFile st spinName "On" → experimentSpin st pre = .ok .on) ∧
    (InFile st spinName "Off" → experimentSpin st pre = .ok .off) ∧
    ((∀ n, (spinName, n) ∉ st.root.leaves) → ∀ s, experimentSpin st pre = .ok s → s = .off) := by
  have hk : Named pre := fun k hm he => ho k hm (by rw [he]; exact List.nil_prefix)
  obtain ⟨h1, h2⟩ := after_spec st pre hw hk
  refine ⟨fun h => ?_, fun h => ?_, fun h s hs => ?_⟩
  · have h' := others_keep st pre hw _ _ ho h
    rw [experimentSpin, (C40_value (after st pre) spinKey h1 _ h' (by simp)).2.1]
    rfl
  · have h' := others_keep st pre hw _ _ ho h
    rw [experimentSpin, (C40_value (after st pre) spinKey h1 _ h' (by simp)).2.1]
    rfl
  · rcases take_ok _ spinKey h1 rfl s hs with ⟨n, h3, _⟩ | ⟨_, h3⟩
    · exact absurd ((h2 _).1 h3).1 (h n)
    · exact (Option.some.inj h3).symm

/-- **C155** (the box): with the option on every initial particle has a spin vector, the jet included; with
the option off none has. -/
theorem C155_box (n : Nat) (jet : Bool) :
    boxSpins .on n jet = List.replicate (n + if jet then 1 else 0) true ∧
    boxSpins .off n jet = List.replicate (n + if jet then 1 else 0) false := by
  cases jet <;> simp [boxSpins, List.replicate_succ']

/-- **C155 is false for the sphere**: whatever the file says, no particle of the sphere has a spin vector. -/
theorem C155_sphere_spin_false (st : State) (pre own : List AnyKey) (hw : st.root.WF) (hp : Named pre)
    (ho : Named own) (s : Spin) (h : sphereSpin st pre own = .ok s) (n : Nat) (jet back : Bool) :
    s = .off ∧ true ∉ sphereSpins s n jet back := by
  have := sphereSpin_off st pre own hw hp ho s h
  subst this
  refine ⟨rfl, ?_⟩
  cases jet <;> cases back <;> simp [sphereSpins, List.mem_replicate]

/-- **C155 is false for nuclei**: whatever the file says, no nucleon of projectile or target has a spin
vector. -/
theorem C155_collider_spin_false (st : State) (pre own : List AnyKey) (side : Side) (hw : st.root.WF)
    (hp : Named pre) (ho : Named own) (s : Spin) (h : nucleusSpin st pre own side = .ok s) (n : Nat) :
    s = .off ∧ true ∉ nucleusSpins s n := by
  have := nucleusSpin_off st pre own side hw hp ho s h
  subst this
  exact ⟨rfl, by simp [nucleusSpins, List.mem_replicate]⟩

/-- The antiparticle of a back-to-back jet would not get a spin vector even with the option on; the other
particles of the sphere would. -/
theorem C155_jet_antiparticle_false (n : Nat) :
    sphereSpins .on n true true = List.replicate (n + 1) true ++ [false] ∧
    sphereSpins .on n false false = List.replicate n true := by
  simp [sphereSpins, List.replicate_succ', List.append_assoc]

/-! ### Participants -/

theorem outputConfig_leaves (st o : State) (formats : List AnyKey) (hw : st.root.WF) (hf : Named formats)
    (h : outputConfig st formats = .ok o) :
    o.root.WF ∧ ∀ n, (participantsName, n) ∈ o.root.leaves → (participantsName, n) ∈ st.root.leaves := by
  unfold outputConfig at h
  cases hx : extract st ["Output"] true with
  | error e => rw [hx] at h; simp at h
  | ok r =>
    obtain ⟨s, t⟩ := r
    rw [hx] at h
    simp only [Except.ok.injEq] at h
    have key : ∀ c : State, c = (if isEmpty s then s else enclose s ["Output"]) → c.root.WF ∧
        ∀ n, (participantsName, n) ∈ c.root.leaves → (participantsName, n) ∈ st.root.leaves := by
      intro c hc
      cases hfn : findNode st.root ["Output"] with
      | error e => unfold extract at hx; rw [hfn] at hx; simp at hx
      | ok q =>
        cases q with
        | none =>
          unfold extract at hx
          rw [hfn] at hx
          simp only [if_true, Except.ok.injEq, Prod.mk.injEq] at hx
          rw [← hx.1] at hc
          have hc' : c = ⟨.null, []⟩ := by rw [hc]; simp [isEmpty, Node.size]
          rw [hc']
          exact ⟨trivial, by simp [Node.leaves, participantsName]⟩
        | some m =>
          have hx' : extract st ["Output"] false = .ok (s, t) := by
            unfold extract at hx ⊢
            rw [hfn] at hx ⊢
            cases m with
            | map f => cases f <;> exact hx
            | _ => exact hx
          obtain ⟨f, _, hnil, hr⟩ := extract_found st _ _ hx'
          have hs : isEmpty s = false := by
            simp only at hr
            rw [hr]
            cases f with
            | nil => exact absurd rfl hnil
            | cons k n g => simp [isEmpty, Node.size, Forest.size]
          rw [hs] at hc
          have hxc : extractComplete st ["Output"] = .ok (c, t) := by
            unfold extractComplete
            rw [hx', hc]
            rfl
          obtain ⟨h1, _, h3, _⟩ := extractComplete_spec _ _ _ _ hw (by simp) (by simp) hxc
          exact ⟨h1, fun n hn => ((h3 _).1 hn).1⟩
    obtain ⟨k1, k2⟩ := key _ rfl
    obtain ⟨a1, a2⟩ := after_spec _ formats k1 hf
    subst h
    exact ⟨a1, fun n hn => k2 n ((a2 _).1 hn).1⟩

theorem header_none (o : State) (own : List AnyKey) (hw : o.root.WF) (ho : Named own) (b : Bool)
    (hn : ∀ n, (participantsName, n) ∈ o.root.leaves → n = .null) (h : headerParticipants o own = .ok b) :
    b = false := by
  unfold headerParticipants at h
  cases hs : hasSection o ["Output", "Thermodynamics"] with
  | error e => rw [hs] at h; simp at h
  | ok q =>
    rw [hs] at h
    cases q with
    | false => exact (Except.ok.inj h).symm
    | true =>
      simp only at h
      cases hx : extractComplete o ["Output", "Thermodynamics"] with
      | error e => rw [hx] at h; simp at h
      | ok r =>
        obtain ⟨t, t'⟩ := r
        rw [hx] at h
        simp only at h
        obtain ⟨h1, _, h3, _⟩ := extractComplete_spec _ _ _ _ hw (by simp) (by simp) hx
        obtain ⟨a1, a2⟩ := after_spec t own h1 ho
        rcases take_ok _ participantsKey a1 rfl b h with ⟨n, h4, h5, _⟩ | ⟨_, h5⟩
        · exact absurd (hn n ((h3 _).1 ((a2 _).1 h4).1).1) h5
        · exact (Option.some.inj h5).symm

/-- **C155** (the densities): the value the file gives to the option is the one used for the densities,
whatever other keys are taken before; without a value in the file all particles are counted. -/
theorem C155_density (st : State) (pre : List AnyKey) (hw : st.root.WF) (ho : Others pre participantsName) :
    (InFile st participantsName "True" → (densityParticipants st pre).1 = .ok true) ∧
    (InFile st participantsName "False" → (densityParticipants st pre).1 = .ok false) ∧
    ((∀ n, (participantsName, n) ∉ st.root.leaves) → ∀ b, (densityParticipants st pre).1 = .ok b → b = false) := by
  have hk : Named pre := fun k hm he => ho k hm (by rw [he]; exact List.nil_prefix)
  obtain ⟨h1, h2⟩ := after_spec st pre hw hk
  refine ⟨fun h => ?_, fun h => ?_, fun h s hs => ?_⟩
  · have h' := others_keep st pre hw _ _ ho h
    rw [densityParticipants, (C40_value (after st pre) participantsKey h1 _ h' (by simp)).2.1]
    rfl
  · have h' := others_keep st pre hw _ _ ho h
    rw [densityParticipants, (C40_value (after st pre) participantsKey h1 _ h' (by simp)).2.1]
    rfl
  · rcases take_ok _ participantsKey h1 rfl s hs with ⟨n, h3, _⟩ | ⟨_, h3⟩
    · exact absurd ((h2 _).1 h3).1 (h n)
    · exact (Option.some.inj h3).symm

/-- **C155 is false for the header** of thermodynamics.dat: it never says that only participants are taken
into account, whatever the file says. -/
theorem C155_header_false (st : State) (pre mid formats own : List AnyKey) (hw : st.root.WF) (hp : Named pre)
    (hm : Named mid) (hf : Named formats) (ho : Named own) (d h : Bool)
    (hr : participants st pre mid formats own = .ok (d, h)) : h = false := by
  unfold participants at hr
  obtain ⟨a1, _⟩ := after_spec st pre hw hp
  cases hd : densityParticipants st pre with
  | mk r st1 =>
    rw [hd] at hr
    cases r with
    | error e => simp at hr
    | ok d' =>
      simp only at hr
      have hst1 : st1 = (take (after st pre) participantsKey).2 := by
        have := congrArg Prod.snd hd
        exact this.symm
      obtain ⟨t1, _, _, t4, _⟩ := take_spec (after st pre) participantsKey a1 (by simp [participantsKey])
      rw [← hst1] at t1 t4
      obtain ⟨m1, m2⟩ := after_spec st1 mid t1 hm
      cases ho' : outputConfig (after st1 mid) formats with
      | error e => rw [ho'] at hr; simp at hr
      | ok o =>
        rw [ho'] at hr
        simp only at hr
        obtain ⟨o1, o2⟩ := outputConfig_leaves _ _ _ m1 hf ho'
        cases hh : headerParticipants o own with
        | error e => rw [hh] at hr; simp at hr
        | ok h' =>
          rw [hh] at hr
          simp only [Except.ok.injEq, Prod.mk.injEq] at hr
          rw [← hr.2]
          refine header_none o own o1 ho h' (fun n hn => ?_) hh
          have := (t4 _).1 ((m2 _).1 (o2 n hn)).1
          exact Classical.byContradiction fun hne => this.2 (Or.inl ⟨rfl, hne⟩)

/-! ### Non-triviality -/

/-- A file for the sphere with spin interactions on. -/
def exSphere : State :=
  ⟨.map (.cons "Collision_Term" (.map (.cons "Spin_Interactions" (.scalar "On") .nil))
    (.cons "Modi" (.map (.cons "Sphere" (.map (.cons "Radius" (.scalar "5") .nil)) .nil)) .nil)), []⟩

/-- A file for the collider with spin interactions on. -/
def exCollider : State :=
  ⟨.map (.cons "Collision_Term" (.map (.cons "Spin_Interactions" (.scalar "On") .nil))
    (.cons "Modi" (.map (.cons "Collider" (.map
      (.cons "Projectile" (.map (.cons "Radius" (.scalar "5") .nil))
      (.cons "Target" (.map (.cons "Radius" (.scalar "5") .nil)) .nil))) .nil)) .nil)), []⟩

/-- A file with participants only. -/
def exThermo : State :=
  ⟨.map (.cons "Output" (.map (.cons "Thermodynamics" (.map
    (.cons "Type" (.scalar "hadron") (.cons "Only_Participants" (.scalar "True") .nil))) .nil)) .nil), []⟩

/-- The format key of the thermodynamics output, as a key taken before. -/
def exFormat : AnyKey := ⟨String, strKey ["Output", "Thermodynamics", "Format"] false⟩

example : exSphere.root.WF ∧ InFile exSphere spinName "On" ∧ Others [exFormat] spinName ∧
    experimentSpin exSphere [] = .ok .on ∧ sphereSpin exSphere [] [] = .ok .off := by
  refine ⟨by simp [exSphere, Node.WF, Forest.WF, Forest.keys],
    by simp [InFile, exSphere, Node.leaves, Forest.leaves, spinName],
    by simp [Others, exFormat, strKey, spinName], by rfl, by rfl⟩

example : exCollider.root.WF ∧ experimentSpin exCollider [] = .ok .on ∧
    nucleusSpin exCollider [] [] .projectile = .ok .off ∧ nucleusSpin exCollider [] [] .target = .ok .off := by
  refine ⟨by simp [exCollider, Node.WF, Forest.WF, Forest.keys], by rfl, by rfl, by rfl⟩

example : exThermo.root.WF ∧ InFile exThermo participantsName "True" ∧ Others [exFormat] participantsName ∧
    participants exThermo [] [] [exFormat] [] = .ok (true, false) := by
  refine ⟨by simp [exThermo, Node.WF, Forest.WF, Forest.keys],
    by simp [InFile, exThermo, Node.leaves, Forest.leaves, participantsName],
    by simp [Others, exFormat, strKey, participantsName], by rfl⟩

end Verif.Route
