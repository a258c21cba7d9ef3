import Verif.Sha.Model
import Verif.Sha.Spec
import Mathlib.Data.List.Forall2
/-! C24. -/
namespace Verif.Sha

theorem ror_eq (x : Word) (n : Nat) (h : n < 32) : ror x n = x.rotateRight n := by
  unfold ror
  rw [BitVec.rotateRight_def, Nat.mod_eq_of_lt h]

theorem ch_eq (x y z : Word) : ch x y z = Fips.Ch x y z := by
  unfold ch Fips.Ch
  apply BitVec.eq_of_getLsbD_eq
  intro i hi
  simp only [BitVec.getLsbD_xor, BitVec.getLsbD_and, BitVec.getLsbD_not, hi, decide_true,
    Bool.true_and]
  cases x.getLsbD i <;> cases y.getLsbD i <;> cases z.getLsbD i <;> rfl

theorem maj_eq (x y z : Word) : maj x y z = Fips.Maj x y z := by
  unfold maj Fips.Maj
  apply BitVec.eq_of_getLsbD_eq
  intro i hi
  simp only [BitVec.getLsbD_xor, BitVec.getLsbD_and, BitVec.getLsbD_or]
  cases x.getLsbD i <;> cases y.getLsbD i <;> cases z.getLsbD i <;> rfl

theorem sigma0_eq (x : Word) : sigma0 x = Fips.Sigma0 x := by
  unfold sigma0 Fips.Sigma0; simp only [ror_eq _ _ (by decide : 2 < 32), ror_eq _ _ (by decide : 13 < 32), ror_eq _ _ (by decide : 22 < 32)]
theorem sigma1_eq (x : Word) : sigma1 x = Fips.Sigma1 x := by
  unfold sigma1 Fips.Sigma1; simp only [ror_eq _ _ (by decide : 6 < 32), ror_eq _ _ (by decide : 11 < 32), ror_eq _ _ (by decide : 25 < 32)]
theorem gamma0_eq (x : Word) : gamma0 x = Fips.sig0 x := by
  unfold gamma0 Fips.sig0; simp only [ror_eq _ _ (by decide : 7 < 32), ror_eq _ _ (by decide : 18 < 32)]
theorem gamma1_eq (x : Word) : gamma1 x = Fips.sig1 x := by
  unfold gamma1 Fips.sig1; simp only [ror_eq _ _ (by decide : 17 < 32), ror_eq _ _ (by decide : 19 < 32)]

theorem load32_eq (a b c d : Byte) : load32 a b c d = a ++ b ++ c ++ d := by
  unfold load32
  apply BitVec.eq_of_getLsbD_eq
  intro i hi
  have e (x : Byte) : x &&& 255#8 = x := BitVec.and_allOnes
  rw [e, e, e, e]
  simp only [BitVec.getLsbD_or, BitVec.getLsbD_shiftLeft, BitVec.getLsbD_setWidth,
    BitVec.getLsbD_append, hi, decide_true, Bool.true_and]
  by_cases h1 : i < 8
  · simp [h1, show i < 16 by omega, show i < 24 by omega]
  · by_cases h2 : i < 16
    · have : d.getLsbD i = false := BitVec.getLsbD_of_ge _ _ (by omega)
      simp [h1, h2, show i < 24 by omega, this, show i - 8 < 32 by omega, show i - 8 < 8 by omega]
    · by_cases h3 : i < 24
      · have q1 : d.getLsbD i = false := BitVec.getLsbD_of_ge _ _ (by omega)
        have q2 : c.getLsbD (i - 8) = false := BitVec.getLsbD_of_ge _ _ (by omega)
        simp [h1, h2, h3, q1, q2, show i - 16 < 32 by omega, show i - 8 - 8 = i - 16 by omega,
          show ¬ i - 8 < 8 by omega, show i - 16 < 8 by omega]
      · have q1 : d.getLsbD i = false := BitVec.getLsbD_of_ge _ _ (by omega)
        have q2 : c.getLsbD (i - 8) = false := BitVec.getLsbD_of_ge _ _ (by omega)
        have q3 : b.getLsbD (i - 16) = false := BitVec.getLsbD_of_ge _ _ (by omega)
        simp [h1, h2, h3, q1, q2, q3, show i - 24 < 32 by omega, show ¬ i - 8 < 8 by omega,
          show ¬ i - 8 - 8 < 8 by omega, show i - 8 - 8 - 8 = i - 24 by omega]

theorem byte_eq {w : Nat} (x : BitVec w) (n : Nat) (hw : 8 ≤ w) :
    ((x >>> n) &&& BitVec.ofNat w 255).setWidth 8 = BitVec.ofNat 8 (x.toNat / 2 ^ n) := by
  apply BitVec.eq_of_toNat_eq
  have h : 2 ^ 8 ≤ 2 ^ w := Nat.pow_le_pow_right (by decide) hw
  have e : 255 % 2 ^ w = 2 ^ 8 - 1 := by rw [Nat.mod_eq_of_lt (by omega)]
  simp only [BitVec.toNat_setWidth, BitVec.toNat_and, BitVec.toNat_ushiftRight,
    BitVec.toNat_ofNat, e, Nat.and_two_pow_sub_one_eq_mod, Nat.shiftRight_eq_div_pow, Nat.mod_mod]

theorem store32_eq (x : Word) : store32 x = Fips.bigEndian 4 x.toNat := by
  have h0 := byte_eq x 0 (by decide)
  have h1 := byte_eq x 8 (by decide)
  have h2 := byte_eq x 16 (by decide)
  have h3 := byte_eq x 24 (by decide)
  rw [BitVec.ushiftRight_zero] at h0
  unfold store32 Fips.bigEndian
  rw [h0, h1, h2, h3]
  rfl

theorem store64_eq (x : BitVec 64) : store64 x = Fips.bigEndian 8 x.toNat := by
  have h0 := byte_eq x 0 (by decide)
  have h1 := byte_eq x 8 (by decide)
  have h2 := byte_eq x 16 (by decide)
  have h3 := byte_eq x 24 (by decide)
  have h4 := byte_eq x 32 (by decide)
  have h5 := byte_eq x 40 (by decide)
  have h6 := byte_eq x 48 (by decide)
  have h7 := byte_eq x 56 (by decide)
  rw [BitVec.ushiftRight_zero] at h0
  unfold store64 Fips.bigEndian
  rw [h0, h1, h2, h3, h4, h5, h6, h7]
  rfl

/-! ### The compression function -/

theorem loadBlock_get (buf : List Byte) (t : Nat) (h : t < 16) :
    (loadBlock buf).getD t 0 = Fips.M buf t := by
  unfold loadBlock Fips.M
  rw [List.getD_eq_getElem?_getD, List.getElem?_map, List.getElem?_range h]
  simp only [Option.map_some, Option.getD_some, load32_eq]

theorem extend_inv (buf : List Byte) (n : Nat) :
    ((List.range' 16 n).foldl extend (loadBlock buf)).length = 16 + n ∧
    ∀ t, t < 16 + n → ((List.range' 16 n).foldl extend (loadBlock buf)).getD t 0 = Fips.W buf t := by
  induction n with
  | zero =>
    refine ⟨by simp [loadBlock], fun t ht => ?_⟩
    rw [Fips.W, if_pos (by omega)]
    exact loadBlock_get buf t (by omega)
  | succ n ih =>
    obtain ⟨hl, hg⟩ := ih
    have e : List.range' 16 (n + 1) = List.range' 16 n ++ [16 + n] := by
      rw [List.range'_concat]; simp
    rw [e, List.foldl_append]
    generalize (List.range' 16 n).foldl extend (loadBlock buf) = w at hl hg
    simp only [List.foldl_cons, List.foldl_nil, extend]
    refine ⟨by simp [hl]; omega, fun t ht => ?_⟩
    by_cases h : t < 16 + n
    · rw [List.getD_eq_getElem?_getD, List.getElem?_append_left (by omega),
        ← List.getD_eq_getElem?_getD]
      exact hg t h
    · have ht : t = 16 + n := by omega
      subst ht
      rw [List.getD_eq_getElem?_getD, List.getElem?_append_right (by omega), hl, Nat.sub_self]
      simp only [List.getElem?_cons_zero, Option.getD_some]
      rw [hg _ (by omega), hg _ (by omega), hg _ (by omega), hg _ (by omega), gamma0_eq, gamma1_eq,
        Fips.W.eq_def buf (16 + n), if_neg (by omega)]

theorem schedule_get (buf : List Byte) (t : Nat) (h : t < 64) :
    (schedule buf).getD t 0 = Fips.W buf t := (extend_inv buf 48).2 t h

/-- The eight words as working variables. -/
def vars (s : St) : Fips.Vars := ⟨s.s0, s.s1, s.s2, s.s3, s.s4, s.s5, s.s6, s.s7⟩

/-- The constants of the program, as a function. -/
def Kc (t : Nat) : Word := K.getD t 0

theorem round_eq (buf : List Byte) (s : St) (t : Nat) (h : t < 64) :
    vars (round (schedule buf) s t) = Fips.step Kc buf (vars s) t := by
  unfold round Fips.step vars Kc
  simp only [schedule_get buf t h, ch_eq, maj_eq, sigma0_eq, sigma1_eq]

theorem foldl_round (buf : List Byte) (l : List Nat) (hl : ∀ t ∈ l, t < 64) (s : St) :
    vars (l.foldl (round (schedule buf)) s) = l.foldl (Fips.step Kc buf) (vars s) := by
  induction l generalizing s with
  | nil => rfl
  | cons t l ih =>
    rw [List.foldl_cons, List.foldl_cons, ih (fun x hx => hl x (by simp [hx])),
      round_eq buf s t (hl t (by simp))]

theorem transform_eq (s : St) (buf : List Byte) :
    vars (transform s buf) = Fips.compress Kc (vars s) buf := by
  have h := foldl_round buf (List.range 64) (fun t ht => List.mem_range.1 ht) s
  unfold transform Fips.compress
  rw [← h]
  rfl

/-! ### Buffering -/

theorem W_take (b : List Byte) (t : Nat) : ∀ u ≤ t, u < 64 → Fips.W (b.take 64) u = Fips.W b u := by
  have hM (u : Nat) (hu : u < 16) : Fips.M (b.take 64) u = Fips.M b u := by
    unfold Fips.M
    simp only [List.getD_eq_getElem?_getD]
    rw [List.getElem?_take_of_lt (by omega), List.getElem?_take_of_lt (by omega),
      List.getElem?_take_of_lt (by omega), List.getElem?_take_of_lt (by omega)]
  induction t with
  | zero =>
    intro u hu _
    rw [Fips.W, if_pos (by omega), Fips.W, if_pos (by omega), hM u (by omega)]
  | succ t ih =>
    intro u hu h64
    by_cases h : u < 16
    · rw [Fips.W, if_pos h, Fips.W, if_pos h, hM u h]
    · rw [Fips.W, Fips.W.eq_def b, if_neg h, if_neg h, ih _ (by omega) (by omega),
        ih _ (by omega) (by omega), ih _ (by omega) (by omega), ih _ (by omega) (by omega)]

/-- Only the first 64 bytes matter. -/
theorem transform_take (s : St) (b : List Byte) : transform s (b.take 64) = transform s b := by
  have h : vars (transform s (b.take 64)) = vars (transform s b) := by
    rw [transform_eq, transform_eq]
    unfold Fips.compress
    have : (List.range 64).foldl (Fips.step Kc (b.take 64)) (vars s) =
        (List.range 64).foldl (Fips.step Kc b) (vars s) := by
      have key : ∀ l : List Nat, (∀ t ∈ l, t < 64) → ∀ v,
          l.foldl (Fips.step Kc (b.take 64)) v = l.foldl (Fips.step Kc b) v := by
        intro l
        induction l with
        | nil => intro _ v; rfl
        | cons t l ih =>
          intro hl v
          rw [List.foldl_cons, List.foldl_cons, ih (fun x hx => hl x (by simp [hx]))]
          congr 1
          unfold Fips.step
          rw [W_take b t t (Nat.le_refl _) (hl t (by simp))]
      exact key _ (fun t ht => List.mem_range.1 ht) _
    rw [this]
  cases h1 : transform s (b.take 64)
  cases h2 : transform s b
  rw [h1, h2] at h
  unfold vars at h
  injection h with a b c d e f g i
  subst a b c d e f g i
  rfl

/-- The context has absorbed the bytes `m`. -/
def Rep (c : Ctx) (m : List Byte) : Prop :=
  ∃ (bs : List (List Byte)) (r : List Byte), m = bs.flatten ++ r ∧ (∀ b ∈ bs, b.length = 64) ∧
    r.length < 64 ∧ c.curlen = r.length ∧ c.buf.take r.length = r ∧ c.buf.length = 64 ∧
    c.length = BitVec.ofNat 64 (512 * bs.length) ∧ c.state = bs.foldl transform initState

theorem rep_reset (c : Ctx) (h : c.buf.length = 64) : Rep (reset c) [] :=
  ⟨[], [], rfl, by simp, by simp, rfl, rfl, h, rfl, rfl⟩

theorem len_step (n : Nat) : BitVec.ofNat 64 (512 * n) + 512 = BitVec.ofNat 64 (512 * (n + 1)) := by
  rw [Nat.mul_add, Nat.mul_one, BitVec.ofNat_add]; rfl

theorem memcpy_length (buf : List Byte) (pos : Nat) (src : List Byte) (n : Nat)
    (h : pos + n ≤ buf.length) (hs : n ≤ src.length) :
    (memcpy buf pos src n).length = buf.length := by
  unfold memcpy
  simp; omega

theorem memcpy_take (buf : List Byte) (pos : Nat) (src : List Byte) (n : Nat)
    (h : pos + n ≤ buf.length) (hs : n ≤ src.length) :
    (memcpy buf pos src n).take (pos + n) = buf.take pos ++ src.take n := by
  unfold memcpy
  rw [List.take_append_of_le_length (by simp; omega), List.take_of_length_le (by simp; omega)]

theorem updateLoop_rep (fuel : Nat) : ∀ (c : Ctx) (m b : List Byte), Rep c m → b.length ≤ fuel →
    ∃ c', updateLoop fuel c b = some c' ∧ Rep c' (m ++ b) := by
  induction fuel with
  | zero =>
    intro c m b hr hb
    have hb : b = [] := List.length_eq_zero_iff.1 (by omega)
    subst hb
    exact ⟨c, by simp [updateLoop], by simpa using hr⟩
  | succ fuel ih =>
    intro c m b hr hb
    obtain ⟨bs, r, hm, hbs, hr64, hcur, hbuf, hlen, hL, hS⟩ := hr
    unfold updateLoop
    by_cases h0 : b.length > 0
    · rw [if_pos h0]
      by_cases h1 : c.curlen = 0 ∧ b.length ≥ 64
      · rw [if_pos h1]
        have hrnil : r = [] := List.length_eq_zero_iff.1 (by omega)
        subst hrnil
        obtain ⟨c', e, hc'⟩ := ih { c with state := transform c.state b, length := c.length + 512 }
          (m ++ b.take 64) (b.drop 64)
          ⟨bs ++ [b.take 64], [], by simp [hm], by
            intro x hx
            rcases List.mem_append.1 hx with hx | hx
            · exact hbs x hx
            · rw [List.mem_singleton] at hx
              subst hx; rw [List.length_take]; omega,
            by simp, hcur, rfl, hlen, by
              simp only [hL, len_step, List.length_append, List.length_singleton], by
              rw [List.foldl_append, ← hS, List.foldl_cons, List.foldl_nil, transform_take]⟩
          (by rw [List.length_drop]; omega)
        refine ⟨c', e, ?_⟩
        rw [List.append_assoc, List.take_append_drop] at hc'
        exact hc'
      · rw [if_neg h1]
        simp only
        have hn1 : min b.length (64 - c.curlen) ≤ b.length := Nat.min_le_left _ _
        have hn2 : c.curlen + min b.length (64 - c.curlen) ≤ 64 := by omega
        have hn3 : 0 < min b.length (64 - c.curlen) := by omega
        generalize min b.length (64 - c.curlen) = n at hn1 hn2 hn3
        have hmt := memcpy_take c.buf c.curlen b n (by omega) hn1
        have hml := memcpy_length c.buf c.curlen b n (by omega) hn1
        rw [hlen] at hml
        rw [hcur, hbuf] at hmt
        rw [hcur] at hml hn2 ⊢
        generalize memcpy c.buf r.length b n = buf at hmt hml
        by_cases h64 : r.length + n = 64
        · rw [if_pos h64]
          obtain ⟨c', e, hc'⟩ := ih ⟨c.length + 512, transform c.state buf, 0, buf⟩ (m ++ b.take n) (b.drop n)
            ⟨bs ++ [r ++ b.take n], [], by simp [hm], by
              intro x hx
              rcases List.mem_append.1 hx with hx | hx
              · exact hbs x hx
              · rw [List.mem_singleton] at hx
                subst hx; rw [List.length_append, List.length_take]; omega,
              by simp, rfl, rfl, hml, by
                simp only [hL, len_step, List.length_append, List.length_singleton], by
                rw [List.foldl_append, ← hS, List.foldl_cons, List.foldl_nil, ← hmt, h64,
                  transform_take]⟩
            (by rw [List.length_drop]; omega)
          refine ⟨c', e, ?_⟩
          rw [List.append_assoc, List.take_append_drop] at hc'
          exact hc'
        · rw [if_neg h64]
          have hrl : (r ++ b.take n).length = r.length + n := by
            rw [List.length_append, List.length_take]; omega
          obtain ⟨c', e, hc'⟩ := ih { c with buf := buf, curlen := r.length + n }
            (m ++ b.take n) (b.drop n)
            ⟨bs, r ++ b.take n, by simp [hm], hbs, by omega, hrl.symm, by rw [hrl]; exact hmt,
              hml, hL, hS⟩
            (by rw [List.length_drop]; omega)
          refine ⟨c', e, ?_⟩
          rw [List.append_assoc, List.take_append_drop] at hc'
          exact hc'
    · rw [if_neg h0]
      have hb : b = [] := List.length_eq_zero_iff.1 (by omega)
      subst hb
      exact ⟨c, rfl, bs, r, by simpa using hm, hbs, hr64, hcur, hbuf, hlen, hL, hS⟩

theorem update_rep {c : Ctx} {m b : List Byte} (h : Rep c m) :
    ∃ c', update c b = some c' ∧ Rep c' (m ++ b) := by
  unfold update
  rw [if_neg (by obtain ⟨_, r, _, _, h1, h2, _⟩ := h; omega)]
  exact updateLoop_rep _ c m b h (Nat.le_refl _)

theorem updates_rep {c : Ctx} {m : List Byte} (bs : List (List Byte)) (h : Rep c m) :
    ∃ c', updates c bs = some c' ∧ Rep c' (m ++ bs.flatten) := by
  induction bs generalizing c m with
  | nil => exact ⟨c, rfl, by simpa using h⟩
  | cons b bs ih =>
    obtain ⟨c1, e1, h1⟩ := update_rep (b := b) h
    obtain ⟨c2, e2, h2⟩ := ih h1
    refine ⟨c2, ?_, by simpa using h2⟩
    unfold updates
    rw [e1]
    exact e2

/-! ### Padding -/

theorem set_take (buf : List Byte) (n : Nat) (x : Byte) (h : n < buf.length) :
    (buf.set n x).take (n + 1) = buf.take n ++ [x] := by
  apply List.ext_getElem?
  intro i
  by_cases hi : i < n
  · rw [List.getElem?_take_of_lt (by omega), List.getElem?_set_ne (by omega),
      List.getElem?_append_left (by simp; omega), List.getElem?_take_of_lt hi]
  · by_cases hi' : i = n
    · subst hi'
      rw [List.getElem?_take_of_lt (by omega), List.getElem?_set_self h,
        List.getElem?_append_right (by simp; omega), List.length_take, Nat.min_eq_left (by omega),
        Nat.sub_self]
      rfl
    · rw [List.getElem?_eq_none (by simp; omega), List.getElem?_eq_none (by simp; omega)]

theorem foldl_push (n : Nat) : ∀ c : Ctx, c.curlen + n ≤ c.buf.length →
    let c' := (List.range n).foldl (fun c _ => push c 0) c
    c'.curlen = c.curlen + n ∧ c'.length = c.length ∧ c'.state = c.state ∧
    c'.buf.length = c.buf.length ∧
    c'.buf.take (c.curlen + n) = c.buf.take c.curlen ++ List.replicate n 0 := by
  induction n with
  | zero => intro c _; simp
  | succ n ih =>
    intro c hc
    obtain ⟨h1, h2, h3, h4, h5⟩ := ih c (by omega)
    rw [List.range_succ, List.foldl_append]
    generalize (List.range n).foldl (fun c _ => push c 0) c = d at h1 h2 h3 h4 h5
    simp only [List.foldl_cons, List.foldl_nil, push]
    refine ⟨by omega, h2, h3, by simp [h4], ?_⟩
    rw [← h1] at h5
    rw [← Nat.add_assoc, ← h1, set_take _ _ _ (by omega), h5, List.append_assoc,
      List.replicate_succ']

theorem blocks_append (bs : List (List Byte)) (hbs : ∀ b ∈ bs, b.length = 64) (m : List Byte)
    (k : Nat) : Fips.blocks (bs.length + k) (bs.flatten ++ m) = bs ++ Fips.blocks k m := by
  induction bs with
  | nil => simp
  | cons b bs ih =>
    have hb := hbs b (by simp)
    have ih := ih (fun x hx => hbs x (by simp [hx]))
    rw [List.length_cons, Nat.add_right_comm, Fips.blocks, List.flatten_cons, List.append_assoc,
      ← hb, List.take_left, List.drop_left, ih, List.cons_append]

theorem foldl_vars (bs : List (List Byte)) (s : St) :
    vars (bs.foldl transform s) = bs.foldl (Fips.compress Kc) (vars s) := by
  induction bs generalizing s with
  | nil => rfl
  | cons b bs ih => rw [List.foldl_cons, List.foldl_cons, ih, transform_eq]

theorem digest_eq (s : St) (H : Fips.Vars) (h : vars s = H) :
    [s.s0, s.s1, s.s2, s.s3, s.s4, s.s5, s.s6, s.s7].flatMap store32 =
      [H.a, H.b, H.c, H.d, H.e, H.f, H.g, H.h].flatMap fun x => Fips.bigEndian 4 x.toNat := by
  subst h
  have : store32 = fun x => Fips.bigEndian 4 x.toNat := funext store32_eq
  rw [this]
  rfl

theorem flatten_length (bs : List (List Byte)) (hbs : ∀ b ∈ bs, b.length = 64) :
    bs.flatten.length = 64 * bs.length := by
  induction bs with
  | nil => rfl
  | cons b bs ih =>
    rw [List.flatten_cons, List.length_append, ih (fun x hx => hbs x (by simp [hx])),
      hbs b (by simp), List.length_cons]
    omega

theorem finalize_rep {c : Ctx} {m : List Byte} (h : Rep c m) :
    finalize c = Fips.hash Kc (vars initState) m := by
  obtain ⟨bs, r, hm, hbs, hr64, hcur, hbuf, hlen, hL, hS⟩ := h
  have hml : m.length = 64 * bs.length + r.length := by
    rw [hm, List.length_append, flatten_length bs hbs]
  have hlenm : c.length + BitVec.ofNat 64 (c.curlen * 8) = BitVec.ofNat 64 (8 * m.length) := by
    rw [hL, ← BitVec.ofNat_add]; congr 1; omega
  have hst : store64 (BitVec.ofNat 64 (8 * m.length)) = Fips.bigEndian 8 (8 * m.length % 2 ^ 64) := by
    rw [store64_eq, BitVec.toNat_ofNat]
  have h8 : (Fips.bigEndian 8 (8 * m.length % 2 ^ 64)).length = 8 := by
    simp [Fips.bigEndian]
  have hpad : Fips.pad m = bs.flatten ++ (r ++ [0x80] ++ List.replicate (Fips.zeros m.length) 0 ++
      Fips.bigEndian 8 (8 * m.length % 2 ^ 64)) := by
    unfold Fips.pad
    generalize Fips.bigEndian 8 (8 * m.length % 2 ^ 64) = z
    generalize List.replicate (Fips.zeros m.length) (0 : Byte) = y
    subst hm
    simp only [List.append_assoc]
  unfold finalize Fips.hash
  rw [if_neg (by omega)]
  simp only
  rw [hlenm]
  generalize Fips.bigEndian 8 (8 * m.length % 2 ^ 64) = lenb at hst h8 hpad
  rw [hpad]
  apply digest_eq
  have hpb : (push { c with length := BitVec.ofNat 64 (8 * m.length) } 0x80).buf.take (r.length + 1) =
      r ++ [0x80] := by
    unfold push
    simp only
    rw [hcur, set_take _ _ _ (by omega), hbuf]
  have hpl : (push { c with length := BitVec.ofNat 64 (8 * m.length) } 0x80).buf.length = 64 := by
    unfold push; simp [hlen]
  have hpc : (push { c with length := BitVec.ofNat 64 (8 * m.length) } 0x80).curlen = r.length + 1 := by
    unfold push; simp [hcur]
  have hpL : (push { c with length := BitVec.ofNat 64 (8 * m.length) } 0x80).length =
    BitVec.ofNat 64 (8 * m.length) := rfl
  have hpS : (push { c with length := BitVec.ofNat 64 (8 * m.length) } 0x80).state =
    bs.foldl transform initState := hS
  generalize push { c with length := BitVec.ofNat 64 (8 * m.length) } 0x80 = d at hpb hpl hpc hpL hpS
  by_cases h56 : d.curlen > 56
  · rw [if_pos h56]
    have hz : Fips.zeros m.length = (63 - r.length) + 56 := by
      unfold Fips.zeros; omega
    unfold zeroTo
    have f1 := foldl_push (64 - d.curlen) d (by omega)
    simp only at f1
    obtain ⟨a1, a2, a3, a4, a5⟩ := f1
    generalize (List.range (64 - d.curlen)).foldl (fun c _ => push c 0) d = e at a1 a2 a3 a4 a5
    have f2 := foldl_push (56 - 0) { e with state := transform e.state e.buf, curlen := 0 } (by
      simp only; omega)
    simp only at f2 ⊢
    obtain ⟨b1, b2, b3, b4, b5⟩ := f2
    generalize (List.range (56 - 0)).foldl (fun c _ => push c 0)
      { e with state := transform e.state e.buf, curlen := 0 } = g at b1 b2 b3 b4 b5
    have hebuf : e.buf = r ++ [0x80] ++ List.replicate (63 - r.length) 0 := by
      have h1 : d.curlen + (64 - d.curlen) = 64 := by omega
      rw [h1, hpc, hpb, List.take_of_length_le (by omega)] at a5
      rw [a5]; congr 2; omega
    have hgbuf : memcpy g.buf 56 (store64 g.length) 8 = List.replicate 56 0 ++ lenb := by
      have h1 : g.length = BitVec.ofNat 64 (8 * m.length) := by rw [b2, a2, hpL]
      unfold memcpy
      have h2 : List.take 56 g.buf = List.replicate 56 0 := by simpa using b5
      rw [h1, hst, h2, List.take_of_length_le (by omega), List.drop_eq_nil_of_le (by omega),
        List.append_nil]
    rw [hgbuf, b3, a3, hpS, hebuf]
    have hcount : (bs.flatten ++ (r ++ [0x80] ++ List.replicate (Fips.zeros m.length) (0 : Byte) ++
        lenb)).length / 64 = bs.length + 2 := by
      simp only [List.length_append, flatten_length bs hbs, List.length_singleton,
        List.length_replicate, h8, hz]
      omega
    have hblk : Fips.blocks 2 (r ++ [0x80] ++ List.replicate (Fips.zeros m.length) (0 : Byte) ++ lenb) =
        [r ++ [0x80] ++ List.replicate (63 - r.length) 0, List.replicate 56 0 ++ lenb] := by
      rw [hz, ← List.replicate_append_replicate]
      have e1 : r ++ [0x80] ++ (List.replicate (63 - r.length) (0 : Byte) ++ List.replicate 56 0) ++ lenb =
          (r ++ [0x80] ++ List.replicate (63 - r.length) 0) ++ (List.replicate 56 0 ++ lenb) := by
        simp only [List.append_assoc]
      have e2 : (r ++ [0x80] ++ List.replicate (63 - r.length) (0 : Byte)).length = 64 := by
        simp; omega
      rw [e1]
      unfold Fips.blocks
      rw [← e2, List.take_left, List.drop_left]
      unfold Fips.blocks
      rw [List.take_of_length_le (by simp [h8])]
      rfl
    rw [hcount, blocks_append bs hbs, hblk, List.foldl_append, ← foldl_vars]
    simp only [List.foldl_cons, List.foldl_nil]
    rw [transform_eq, transform_eq]
  · rw [if_neg h56]
    have hz : Fips.zeros m.length = 55 - r.length := by
      unfold Fips.zeros; omega
    unfold zeroTo
    have f1 := foldl_push (56 - d.curlen) d (by omega)
    simp only at f1
    obtain ⟨a1, a2, a3, a4, a5⟩ := f1
    generalize (List.range (56 - d.curlen)).foldl (fun c _ => push c 0) d = e at a1 a2 a3 a4 a5
    have hebuf : memcpy e.buf 56 (store64 e.length) 8 =
        r ++ [0x80] ++ List.replicate (55 - r.length) 0 ++ lenb := by
      have h1 : d.curlen + (56 - d.curlen) = 56 := by omega
      rw [h1, hpc, hpb] at a5
      unfold memcpy
      rw [a5, a2, hpL, hst, List.take_of_length_le (l := lenb) (by omega),
        List.drop_eq_nil_of_le (by omega), List.append_nil]
      congr 3; omega
    rw [hebuf, a3, hpS]
    have hcount : (bs.flatten ++ (r ++ [0x80] ++ List.replicate (Fips.zeros m.length) (0 : Byte) ++
        lenb)).length / 64 = bs.length + 1 := by
      simp only [List.length_append, flatten_length bs hbs, List.length_singleton,
        List.length_replicate, h8, hz]
      omega
    have hblk : Fips.blocks 1 (r ++ [0x80] ++ List.replicate (Fips.zeros m.length) (0 : Byte) ++ lenb) =
        [r ++ [0x80] ++ List.replicate (55 - r.length) 0 ++ lenb] := by
      rw [hz]
      unfold Fips.blocks
      rw [List.take_of_length_le (by simp [h8]; omega)]
      rfl
    rw [hcount, blocks_append bs hbs, hblk, List.foldl_append, ← foldl_vars]
    simp only [List.foldl_cons, List.foldl_nil]
    rw [transform_eq]

/-! ### The property -/

/-- **C24.** Whatever a context was used for before, after `reset`, feeding data in any
chunks, including empty ones, and finalising gives the SHA-256 digest of the concatenated
data (FIPS 180-4, length modulo `2^64` bits). -/
theorem C24_chunks (c : Ctx) (hc : c.buf.length = 64) (chunks : List (List Byte)) :
    (updates (reset c) chunks).map finalize =
      some (Fips.hash Kc (vars initState) chunks.flatten) := by
  obtain ⟨c', e, h⟩ := updates_rep chunks (rep_reset c hc)
  rw [e, Option.map_some, finalize_rep h, List.nil_append]

/-- **C24**, `calculate`. -/
theorem C24_calculate (buf : List Byte) (hb : buf.length = 64) (b : List Byte) :
    calculate buf b = some (Fips.hash Kc (vars initState) b) := by
  have := C24_chunks ⟨0, initState, 0, buf⟩ hb [b]
  unfold updates updates at this
  unfold calculate
  rw [← (by simp : [b].flatten = b)]
  rw [List.flatten_cons, List.flatten_nil, List.append_nil] at *
  rw [← this]
  cases update (reset ⟨0, initState, 0, buf⟩) b <;> rfl

/-- **C24**, constants: the table has 64 entries, and they are the first 32 bits of the
fractional parts of the cube roots of the first 64 primes. -/
theorem C24_round_constants : List.Forall₂ Fips.CubeRootBits Fips.primes K := by
  have key : ∀ (ps : List Nat) (ks : List Word) (ns : List Nat),
      (List.zip ps (List.zip ks ns)).all (fun x => decide (x.2.2 ^ 3 ≤ x.1 * 2 ^ 96 ∧
        x.1 * 2 ^ 96 < (x.2.2 + 1) ^ 3 ∧ x.2.1 = BitVec.ofNat 32 x.2.2)) = true →
      ps.length = ks.length → ks.length = ns.length → List.Forall₂ Fips.CubeRootBits ps ks := by
    intro ps
    induction ps with
    | nil => intro ks ns _ h _; cases ks with
      | nil => exact .nil
      | cons => cases h
    | cons p ps ih =>
      intro ks ns h h1 h2
      cases ks with
      | nil => cases h1
      | cons k ks =>
        cases ns with
        | nil => cases h2
        | cons n ns =>
          simp only [List.zip_cons_cons, List.all_cons, Bool.and_eq_true, decide_eq_true_eq] at h
          exact .cons ⟨n, h.1⟩ (ih ks ns h.2 (by simpa using h1) (by simpa using h2))
  exact key Fips.primes K [
    5411319704, 6194414737, 7344290767, 8215976869, 9551921755, 10098905585, 11043570340,
    11460697813, 12214315672, 13195500289, 13492127166, 14311783875, 14809980276, 15046980094,
    15499789991, 16133124468, 16720292289, 16907126662, 17444216262, 17784676812, 17950125167,
    18429019306, 18734950876, 19175934170, 19734090066, 20001703533, 20132865992, 20390182855,
    20516441075, 20764397895, 21588763473, 21813078375, 22141143685, 22248366392, 22769593852,
    22871018771, 23170020180, 23461497531, 23651862830, 23931792517, 24205322401, 24295138891,
    24734567280, 24820601251, 24990902297, 25075189284, 25569408389, 26045227120, 26200031510,
    26276752392, 26428864332, 26653801653, 26727943347, 27092625994, 27306805839, 27517677555,
    27725365998, 27793908591, 27997534228, 28131656200, 28198240250, 28526537963, 28973835255,
    29099129074] (by decide +kernel) rfl rfl

/-- **C24**, the initial value: the first 32 bits of the fractional parts of the square
roots of the first eight primes. -/
theorem C24_initial_value :
    List.Forall₂ Fips.SquareRootBits (Fips.primes.take 8) [initState.s0, initState.s1,
      initState.s2, initState.s3, initState.s4, initState.s5, initState.s6, initState.s7] := by
  refine .cons ⟨6074000999, by decide +kernel⟩ (.cons ⟨7439101573, by decide +kernel⟩ (.cons ⟨9603838834, by decide +kernel⟩
    (.cons ⟨11363415354, by decide +kernel⟩ (.cons ⟨14244795007, by decide +kernel⟩ (.cons ⟨15485724812, by decide +kernel⟩
    (.cons ⟨17708603819, by decide +kernel⟩ (.cons ⟨18721328409, by decide +kernel⟩ .nil)))))))

/-- The list of primes in the specification is what it says. -/
theorem C24_primes : Fips.primes = (List.range 312).filter fun n =>
    2 ≤ n && (List.range n).all fun d => d < 2 || n % d != 0 := by decide +kernel

/-! ### Hexadecimal output -/

/-- The value of a hexadecimal digit. -/
def hexVal (c : Char) : Option Nat :=
  if '0' ≤ c ∧ c ≤ '9' then some (c.toNat - '0'.toNat)
  else if 'a' ≤ c ∧ c ≤ 'f' then some (c.toNat - 'a'.toNat + 10) else none

/-- Read two digits per byte. -/
def readHex : List Char → Option (List Byte)
  | [] => some []
  | [_] => none
  | a :: b :: r => do
    let x ← hexVal a
    let y ← hexVal b
    let t ← readHex r
    pure (BitVec.ofNat 8 (16 * x + y) :: t)

theorem hexByte_two (b : Byte) : ∃ x y, hexByte b = [x, y] ∧
    ∃ m n, hexVal x = some m ∧ hexVal y = some n ∧ BitVec.ofNat 8 (16 * m + n) = b := by
  have key : ∀ n : Fin 256, ((hexByte (BitVec.ofNat 8 n.1)).length == 2 &&
      ((hexVal ((hexByte (BitVec.ofNat 8 n.1)).getD 0 'x')).any fun m =>
       (hexVal ((hexByte (BitVec.ofNat 8 n.1)).getD 1 'x')).any fun k =>
        BitVec.ofNat 8 (16 * m + k) == BitVec.ofNat 8 n.1)) = true := by decide +kernel
  have h := key ⟨b.toNat, b.isLt⟩
  rw [BitVec.ofNat_toNat, BitVec.setWidth_eq] at h
  simp only [Bool.and_eq_true, beq_iff_eq] at h
  obtain ⟨hl, hv⟩ := h
  match hb : hexByte b, hl with
  | [x, y], _ =>
    rw [hb] at hv
    simp only [List.getD_cons_zero, List.getD_cons_succ] at hv
    refine ⟨x, y, rfl, ?_⟩
    cases hx : hexVal x with
    | none => rw [hx] at hv; cases hv
    | some m =>
      cases hy : hexVal y with
      | none => rw [hx, hy] at hv; cases hv
      | some n => rw [hx, hy] at hv; exact ⟨m, n, rfl, rfl, by simpa using hv⟩

/-- **C24**, `hash_to_string`: two lower-case hexadecimal digits per byte, from which the
hash can be read back. -/
theorem C24_hex (h : List Byte) :
    (hashToString h).length = 2 * h.length ∧
    (∀ c ∈ hashToString h, ('0' ≤ c ∧ c ≤ '9') ∨ ('a' ≤ c ∧ c ≤ 'f')) ∧
    readHex (hashToString h) = some h := by
  induction h with
  | nil => exact ⟨rfl, by simp [hashToString], rfl⟩
  | cons b h ih =>
    obtain ⟨x, y, e, m, n, hx, hy, hb⟩ := hexByte_two b
    have e2 : hashToString (b :: h) = x :: y :: hashToString h := by
      unfold hashToString; rw [List.flatMap_cons, e]; rfl
    rw [e2]
    refine ⟨by simp [ih.1]; omega, ?_, ?_⟩
    · have hd (c : Char) (k : Nat) (hc : hexVal c = some k) :
          ('0' ≤ c ∧ c ≤ '9') ∨ ('a' ≤ c ∧ c ≤ 'f') := by
        unfold hexVal at hc
        split_ifs at hc with h1 h2
        · exact .inl h1
        · exact .inr h2
      intro c hc
      rcases List.mem_cons.1 hc with rfl | hc
      · exact hd _ _ hx
      · rcases List.mem_cons.1 hc with rfl | hc
        · exact hd _ _ hy
        · exact ih.2.1 c hc
    · unfold readHex
      rw [hx, hy, ih.2.2]
      simp [hb]

/-- The digest of "abc" in the standard's example, through the model in two chunks. -/
example : ((updates (reset ⟨5, initState, 3, List.replicate 64 7⟩) [[0x61], [], [0x62, 0x63]]).map
    (fun c => String.ofList (hashToString (finalize c)))) =
    some "ba7816bf8f01cfea414140de5dae2223b00361a396177a9cb410ff61f20015ad" := by decide +kernel

end Verif.Sha
