/-
C43: tabulations in files.
-/
import Verif.Tab.Model

namespace Verif.Tab

theorem bytesOf_length (w : Word) : (bytesOf w).length = 8 := by simp [bytesOf]

theorem wordOf_bytesOf (w : Word) : wordOf (bytesOf w) = w := by
  have h := w.isLt
  apply BitVec.eq_of_toNat_eq
  unfold wordOf bytesOf
  simp [List.range, List.range.loop, Nat.mod_eq_of_lt]
  omega

theorem wordsOf_bytes : ∀ (l : List Word) (r : List Byte),
    wordsOf l.length (l.flatMap bytesOf ++ r) = l := by
  intro l
  induction l with
  | nil => intro r; rfl
  | cons w l ih =>
    intro r
    have h8 := bytesOf_length w
    simp only [List.length_cons, wordsOf, List.flatMap_cons, List.append_assoc]
    rw [List.take_left' h8, List.drop_left' h8, ih r, wordOf_bytesOf]

theorem wordsOf_zero : ∀ n m : Nat, wordsOf n (List.replicate (8 * n + m) 0) =
    List.replicate n 0 := by
  intro n
  induction n with
  | zero => intro m; rfl
  | succ n ih =>
    intro m
    simp only [wordsOf, List.take_replicate, List.drop_replicate]
    rw [show 8 * (n + 1) + m - 8 = 8 * n + m by omega, ih,
      show min 8 (8 * (n + 1) + m) = 8 by omega, List.replicate_succ]
    rfl

theorem wordsOf_append : ∀ (l : List Word) (n : Nat) (r : List Byte),
    wordsOf (l.length + n) (l.flatMap bytesOf ++ r) = l ++ wordsOf n r := by
  intro l
  induction l with
  | nil => intro n r; simp
  | cons w l ih =>
    intro n r
    have h8 := bytesOf_length w
    simp only [List.length_cons, List.flatMap_cons, List.append_assoc]
    rw [show l.length + 1 + n = l.length + n + 1 by omega, wordsOf, List.take_left' h8,
      List.drop_left' h8, ih n r, wordOf_bytesOf]
    rfl

theorem readWord_ok (w : Word) (r : List Byte) :
    readWord ⟨bytesOf w ++ r, false⟩ = (some w, ⟨r, false⟩) := by
  have h8 := bytesOf_length w
  have e : Stream.read ⟨bytesOf w ++ r, false⟩ 8 = (bytesOf w, ⟨r, false⟩) := by
    unfold Stream.read
    rw [if_neg Bool.false_ne_true, if_neg (by simp only [List.length_append, h8]; omega),
      List.take_left' h8, List.drop_left' h8]
  unfold readWord
  simp only [e, h8, if_pos, wordOf_bytesOf]

theorem read_ok (h r : List Byte) :
    Stream.read ⟨h ++ r, false⟩ h.length = (h, ⟨r, false⟩) := by
  unfold Stream.read
  rw [if_neg (by simp), if_neg (by simp), List.take_left' rfl, List.drop_left' rfl]

theorem bytes_length (l : List Word) : (l.flatMap bytesOf).length = 8 * l.length := by
  induction l with
  | nil => rfl
  | cons w l ih => simp [bytesOf_length, ih]; omega

/-- Reading a file that starts like a written one but whose values end after the first `l` of
`n`. -/
theorem fromFile_cut (hash : List Byte) (a b c : Word) (l : List Word) (n : Nat)
    (hn : l.length + n < 2 ^ 60) (rest : List Byte) (hrest : n = 0 ∨ rest = []) :
    fromFile ⟨hash ++ bytesOf a ++ bytesOf b ++ bytesOf c ++
      bytesOf (BitVec.ofNat 64 (l.length + n)) ++ (l.flatMap bytesOf ++ rest), false⟩ hash =
      .ok ⟨l ++ List.replicate n 0, a, b, c⟩ := by
  unfold fromFile
  simp only [List.append_assoc]
  simp only [read_ok, readWord_ok, readVector]
  rw [if_neg (by simp), if_neg (by simp)]
  have hN : (BitVec.ofNat 64 (l.length + n)).toNat = l.length + n := by
    rw [BitVec.toNat_ofNat]; omega
  simp only [hN]
  have hl := bytes_length l
  have hv : wordsOf (l.length + n) ((Stream.read ⟨l.flatMap bytesOf ++ rest, false⟩
      (8 * (l.length + n))).1 ++ List.replicate (8 * (l.length + n) -
      (Stream.read ⟨l.flatMap bytesOf ++ rest, false⟩ (8 * (l.length + n))).1.length) 0) =
      l ++ List.replicate n 0 := by
    unfold Stream.read
    rw [if_neg (by simp)]
    by_cases hz : n = 0
    · subst hz
      simp only [Nat.add_zero]
      rw [if_neg (by simp [hl]), ← hl, List.take_left' rfl]
      have := wordsOf_bytes l []
      simpa using this
    · obtain rfl : rest = [] := hrest.resolve_left hz
      rw [List.append_nil, if_pos (by rw [hl]; omega)]
      simp only
      rw [wordsOf_append, hl, show 8 * (l.length + n) - 8 * l.length = 8 * n + 0 by omega,
        wordsOf_zero]
  rw [hv]

/-- What is written is read again: with the hash it was written with, the same table, bit by
bit; with any other hash, the empty table. -/
theorem C43_roundtrip (t : Stored) (hash hash' : List Byte) (hv : t.values.length < 2 ^ 60)
    (hl : hash'.length = hash.length) :
    fromFile ⟨t.write hash, false⟩ hash' = if hash' = hash then .ok t else .ok .empty := by
  by_cases h : hash' = hash
  · subst h
    rw [if_pos rfl]
    have := fromFile_cut hash' t.xMin t.xMax t.invDx t.values 0 hv [] (Or.inl rfl)
    simpa [Stored.write] using this
  · rw [if_neg h]
    unfold fromFile Stored.write
    simp only [List.append_assoc, hl, read_ok]
    rw [if_neg (by simp), if_pos h]

/-- A file that was cut off while the values were written, for instance because the program
was killed, is accepted: the values that are missing are read as zeros. -/
theorem C43_truncated (t : Stored) (hash : List Byte) (hv : t.values.length < 2 ^ 60) (k : Nat)
    (hk : k ≤ t.values.length) :
    fromFile ⟨(t.write hash).take (hash.length + 32 + 8 * k), false⟩ hash =
      .ok { t with values := t.values.take k ++ List.replicate (t.values.length - k) 0 } := by
  have hcut : (t.write hash).take (hash.length + 32 + 8 * k) =
      hash ++ bytesOf t.xMin ++ bytesOf t.xMax ++ bytesOf t.invDx ++
        bytesOf (BitVec.ofNat 64 t.values.length) ++ ((t.values.take k).flatMap bytesOf ++ []) := by
    unfold Stored.write
    have e1 : (hash ++ bytesOf t.xMin ++ bytesOf t.xMax ++ bytesOf t.invDx ++
        bytesOf (BitVec.ofNat 64 t.values.length)).length = hash.length + 32 := by
      simp [bytesOf_length]
    rw [← e1, List.take_length_add_append, List.append_nil]
    congr 1
    have e2 : t.values.flatMap bytesOf = (t.values.take k).flatMap bytesOf ++
        (t.values.drop k).flatMap bytesOf := by
      rw [← List.flatMap_append, List.take_append_drop]
    rw [e2, List.take_left']
    rw [bytes_length, List.length_take]; omega
  rw [hcut]
  have hlen : (t.values.take k).length = k := by rw [List.length_take]; omega
  have := fromFile_cut hash t.xMin t.xMax t.invDx (t.values.take k) (t.values.length - k)
    (by omega) [] (Or.inr rfl)
  rw [hlen, Nat.add_sub_cancel' hk] at this
  exact this

/-- One call of `cache_integral` in the life of a cache directory. -/
structure Call where
  usable : Bool
  hash : List Byte
  path : Path

/-- The calls one after the other: the tables used and the directory in the end. -/
def runCalls (compute : List Byte → Path → Stored) : List Call → Dir →
    Except Err (List Stored × Dir)
  | [], d => .ok ([], d)
  | c :: cs, d =>
    match cacheIntegral d c.usable c.hash c.path (compute c.hash c.path) with
    | .error e => .error e
    | .ok (t, d1) =>
      match runCalls compute cs d1 with
      | .error e => .error e
      | .ok (ts, d2) => .ok (t :: ts, d2)

/-- For every history of calls by programs with different inputs, starting from an empty
directory, with and without the lock on the directory: every call uses the table that belongs
to its own input.  `compute h p` is the table for the input with hash `h` and the pair of
particles with file name `p`: the hash identifies the input. -/
theorem C43_history (compute : List Byte → Path → Stored)
    (hne : ∀ h p, (compute h p).values ≠ []) (hsz : ∀ h p, (compute h p).values.length < 2 ^ 60)
    (size : Nat) (calls : List Call) (hh : ∀ c ∈ calls, c.hash.length = size) :
    ∃ d, runCalls compute calls (fun _ => none) =
      .ok (calls.map fun c => compute c.hash c.path, d) := by
  -- every file was written completely by a call
  have gen : ∀ (calls : List Call) (d : Dir), (∀ c ∈ calls, c.hash.length = size) →
      (∀ p b, d p = some b → ∃ h, h.length = size ∧ b = (compute h p).write h) →
      ∃ d', runCalls compute calls d = .ok (calls.map fun c => compute c.hash c.path, d') := by
    intro calls
    induction calls with
    | nil => intro d _ _; exact ⟨d, rfl⟩
    | cons c cs ih =>
      intro d hh hd
      have hc := hh c (by simp)
      have key : ∃ d1, cacheIntegral d c.usable c.hash c.path (compute c.hash c.path) =
          .ok (compute c.hash c.path, d1) ∧
          (∀ p b, d1 p = some b → ∃ h, h.length = size ∧ b = (compute h p).write h) := by
        have hnew : ∀ p b, (fun p => if p = c.path then
            some ((compute c.hash c.path).write c.hash) else d p) p = some b →
            ∃ h, h.length = size ∧ b = (compute h p).write h := by
          intro p b hb
          by_cases hp : p = c.path
          · subst hp
            simp only [if_pos] at hb
            exact ⟨c.hash, hc, by injection hb with hb; exact hb.symm⟩
          · simp only [if_neg hp] at hb
            exact hd p b hb
        unfold cacheIntegral
        by_cases hu : c.usable = true
        · simp only [if_pos hu]
          cases hf : d c.path with
          | none =>
            simp only [Stored.empty, List.isEmpty_nil, if_pos]
            exact ⟨_, rfl, hnew⟩
          | some b =>
            obtain ⟨h, h1, rfl⟩ := hd _ _ hf
            simp only
            rw [C43_roundtrip _ _ _ (hsz _ _) (by omega)]
            by_cases he : c.hash = h
            · rw [if_pos he, ← he]
              simp only
              rw [if_neg (by simpa using hne c.hash c.path)]
              exact ⟨d, rfl, hd⟩
            · rw [if_neg he]
              simp only [Stored.empty, List.isEmpty_nil, if_pos]
              exact ⟨_, rfl, hnew⟩
        · simp only [if_neg hu, Stored.empty, List.isEmpty_nil, if_pos]
          exact ⟨d, rfl, hd⟩
      obtain ⟨d1, e1, hd1⟩ := key
      obtain ⟨d2, e2⟩ := ih d1 (fun c' h' => hh c' (by simp [h'])) hd1
      refine ⟨d2, ?_⟩
      rw [runCalls, e1]
      simp only
      rw [e2]
      rfl
  exact gen calls _ hh (fun p b h => by cases h)

/-- Two inputs, alternating: a table with three values each. -/
example : ∃ d, runCalls (fun h _ => ⟨[1, 2, BitVec.ofNat 64 h.sum.toNat], 0, 1, 3⟩)
    [⟨true, [7], [1]⟩, ⟨true, [8], [1]⟩, ⟨true, [7], [1]⟩] (fun _ => none) =
    .ok ([⟨[1, 2, 7], 0, 1, 3⟩, ⟨[1, 2, 8], 0, 1, 3⟩, ⟨[1, 2, 7], 0, 1, 3⟩], d) :=
  C43_history _ (by simp) (by simp) 1 _ (by simp)

/-- A cut off file gives a wrong table. -/
example : ∃ t : Stored, fromFile ⟨(t.write [7]).take 41, false⟩ [7] = .ok { t with values := [1, 0] }
    ∧ t.values = [1, 2] :=
  ⟨⟨[1, 2], 0, 1, 3⟩, C43_truncated ⟨[1, 2], 0, 1, 3⟩ [7] (by decide) 1 (by decide), rfl⟩

end Verif.Tab
