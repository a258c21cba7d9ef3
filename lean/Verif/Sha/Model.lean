/-
Model of sha256.cc / sha256.h.  Bytes are 8 bit words, `uint32_t` 32 bit words and the
message length is a 64 bit word; all arithmetic is modulo the word size, as in C++.
-/
namespace Verif.Sha

abbrev Byte := BitVec 8
abbrev Word := BitVec 32

/-- The macro `ror`, sha256.cc:21. -/
def ror (x : Word) (n : Nat) : Word := (x >>> n) ||| (x <<< (32 - n))

/-- The macro `STORE32H`, sha256.cc:25-31. -/
def store32 (x : Word) : List Byte :=
  [((x >>> 24) &&& 255#32).setWidth 8, ((x >>> 16) &&& 255#32).setWidth 8,
   ((x >>> 8) &&& 255#32).setWidth 8, (x &&& 255#32).setWidth 8]

/-- The macro `LOAD32H` applied to four consecutive bytes, sha256.cc:33-39. -/
def load32 (a b c d : Byte) : Word :=
  ((a &&& 255#8).setWidth 32 <<< 24) ||| ((b &&& 255#8).setWidth 32 <<< 16) |||
  ((c &&& 255#8).setWidth 32 <<< 8) ||| (d &&& 255#8).setWidth 32

/-- The macro `STORE64H`, sha256.cc:41-51. -/
def store64 (x : BitVec 64) : List Byte :=
  [((x >>> 56) &&& 255#64).setWidth 8, ((x >>> 48) &&& 255#64).setWidth 8,
   ((x >>> 40) &&& 255#64).setWidth 8, ((x >>> 32) &&& 255#64).setWidth 8,
   ((x >>> 24) &&& 255#64).setWidth 8, ((x >>> 16) &&& 255#64).setWidth 8,
   ((x >>> 8) &&& 255#64).setWidth 8, (x &&& 255#64).setWidth 8]

/-- The macros `Ch` ... `Gamma1`, sha256.cc:53-60. -/
def ch (x y z : Word) : Word := z ^^^ (x &&& (y ^^^ z))
@[inherit_doc ch] def maj (x y z : Word) : Word := ((x ||| y) &&& z) ||| (x &&& y)
@[inherit_doc ch] def sigma0 (x : Word) : Word := ror x 2 ^^^ ror x 13 ^^^ ror x 22
@[inherit_doc ch] def sigma1 (x : Word) : Word := ror x 6 ^^^ ror x 11 ^^^ ror x 25
@[inherit_doc ch] def gamma0 (x : Word) : Word := ror x 7 ^^^ ror x 18 ^^^ (x >>> 3)
@[inherit_doc ch] def gamma1 (x : Word) : Word := ror x 17 ^^^ ror x 19 ^^^ (x >>> 10)

/-- The table `K`, sha256.cc:71-86. -/
def K : List Word := [
  0x428a2f98, 0x71374491, 0xb5c0fbcf, 0xe9b5dba5, 0x3956c25b,
  0x59f111f1, 0x923f82a4, 0xab1c5ed5, 0xd807aa98, 0x12835b01,
  0x243185be, 0x550c7dc3, 0x72be5d74, 0x80deb1fe, 0x9bdc06a7,
  0xc19bf174, 0xe49b69c1, 0xefbe4786, 0x0fc19dc6, 0x240ca1cc,
  0x2de92c6f, 0x4a7484aa, 0x5cb0a9dc, 0x76f988da, 0x983e5152,
  0xa831c66d, 0xb00327c8, 0xbf597fc7, 0xc6e00bf3, 0xd5a79147,
  0x06ca6351, 0x14292967, 0x27b70a85, 0x2e1b2138, 0x4d2c6dfc,
  0x53380d13, 0x650a7354, 0x766a0abb, 0x81c2c92e, 0x92722c85,
  0xa2bfe8a1, 0xa81a664b, 0xc24b8b70, 0xc76c51a3, 0xd192e819,
  0xd6990624, 0xf40e3585, 0x106aa070, 0x19a4c116, 0x1e376c08,
  0x2748774c, 0x34b0bcb5, 0x391c0cb3, 0x4ed8aa4a, 0x5b9cca4f,
  0x682e6ff3, 0x748f82ee, 0x78a5636f, 0x84c87814, 0x8cc70208,
  0x90befffa, 0xa4506ceb, 0xbef9a3f7, 0xc67178f2]

/-- `W[0..15]`, sha256.cc:109-111. -/
def loadBlock (buf : List Byte) : List Word :=
  (List.range 16).map fun i => load32 (buf.getD (4 * i) 0) (buf.getD (4 * i + 1) 0)
    (buf.getD (4 * i + 2) 0) (buf.getD (4 * i + 3) 0)

/-- One step of the loop filling `W[16..63]`, sha256.cc:114-116; `W` is the prefix filled so
far. -/
def extend (W : List Word) (i : Nat) : List Word :=
  W ++ [gamma1 (W.getD (i - 2) 0) + W.getD (i - 7) 0 + gamma0 (W.getD (i - 15) 0) +
    W.getD (i - 16) 0]

/-- The array `W`, sha256.cc:109-116. -/
def schedule (buf : List Byte) : List Word :=
  (List.range' 16 48).foldl extend (loadBlock buf)

/-- `state_[8]` and `S[8]`. -/
structure St where
  (s0 s1 s2 s3 s4 s5 s6 s7 : Word)
  deriving DecidableEq

/-- One iteration of the compression loop, sha256.cc:119-130: the macro `Sha256Round`
(sha256.cc:62-66), which changes `S[3]` and `S[7]`, and the rotation of `S`. -/
def round (W : List Word) (s : St) (i : Nat) : St :=
  let t0 := s.s7 + sigma1 s.s4 + ch s.s4 s.s5 s.s6 + K.getD i 0 + W.getD i 0
  let t1 := sigma0 s.s0 + maj s.s0 s.s1 s.s2
  let s3 := s.s3 + t0
  let s7 := t0 + t1
  ⟨s7, s.s0, s.s1, s.s2, s3, s.s4, s.s5, s.s6⟩

/-- `transform_function`, sha256.cc:96-136. -/
def transform (s : St) (buf : List Byte) : St :=
  let r := (List.range 64).foldl (round (schedule buf)) s
  ⟨s.s0 + r.s0, s.s1 + r.s1, s.s2 + r.s2, s.s3 + r.s3,
   s.s4 + r.s4, s.s5 + r.s5, s.s6 + r.s6, s.s7 + r.s7⟩

/-- `Context`, sha256.h:28-38.  `buf` stands for the 64 bytes of `buf_`. -/
structure Ctx where
  length : BitVec 64
  state : St
  curlen : Nat
  buf : List Byte

/-- The state set by `reset`, sha256.cc:143-150. -/
def initState : St :=
  ⟨0x6A09E667, 0xBB67AE85, 0x3C6EF372, 0xA54FF53A, 0x510E527F, 0x9B05688C, 0x1F83D9AB, 0x5BE0CD19⟩

/-- `reset`, sha256.cc:140-151; it does not touch the buffer. -/
def reset (c : Ctx) : Ctx := { c with curlen := 0, length := 0, state := initState }

/-- `std::memcpy(buf_ + pos, src, n)`. -/
def memcpy (buf : List Byte) (pos : Nat) (src : List Byte) (n : Nat) : List Byte :=
  buf.take pos ++ src.take n ++ buf.drop (pos + n)

/-- The loop of `update`, sha256.cc:160-178, `fuel` bounding the number of iterations;
`none` if it runs out. -/
def updateLoop : Nat → Ctx → List Byte → Option Ctx
  | 0, c, b => if b.length > 0 then none else some c
  | fuel + 1, c, b =>
    if b.length > 0 then
      if c.curlen = 0 ∧ b.length ≥ 64 then
        updateLoop fuel { c with state := transform c.state b, length := c.length + 512 }
          (b.drop 64)
      else
        let n := min b.length (64 - c.curlen)
        let buf := memcpy c.buf c.curlen b n
        let curlen := c.curlen + n
        if curlen = 64 then
          updateLoop fuel { c with buf := buf, state := transform c.state buf,
                                   length := c.length + 512, curlen := 0 } (b.drop n)
        else updateLoop fuel { c with buf := buf, curlen := curlen } (b.drop n)
    else some c

/-- `update`, sha256.cc:153-179. -/
def update (c : Ctx) (b : List Byte) : Option Ctx :=
  if c.curlen > 64 then some c else updateLoop b.length c b

/-- `buf_[curlen_++] = x`, sha256.cc:195 etc. -/
def push (c : Ctx) (x : Byte) : Ctx :=
  { c with buf := c.buf.set c.curlen x, curlen := c.curlen + 1 }

/-- `while (curlen_ < n) buf_[curlen_++] = 0`, sha256.cc:201-203 and 209-211. -/
def zeroTo (n : Nat) (c : Ctx) : Ctx :=
  (List.range (n - c.curlen)).foldl (fun c _ => push c 0) c

/-- `finalize`, sha256.cc:185-222. -/
def finalize (c : Ctx) : List Byte :=
  if c.curlen ≥ 64 then List.replicate 32 0
  else
    let c := { c with length := c.length + BitVec.ofNat 64 (c.curlen * 8) }
    let c := push c 0x80
    let c := if c.curlen > 56 then
        let c := zeroTo 64 c
        { c with state := transform c.state c.buf, curlen := 0 }
      else c
    let c := zeroTo 56 c
    let buf := memcpy c.buf 56 (store64 c.length) 8
    let s := transform c.state buf
    [s.s0, s.s1, s.s2, s.s3, s.s4, s.s5, s.s6, s.s7].flatMap store32

/-- A sequence of calls of `update`. -/
def updates (c : Ctx) : List (List Byte) → Option Ctx
  | [] => some c
  | b :: bs => (update c b).bind fun c => updates c bs

/-- `calculate`, sha256.cc:224-228; `buf` is the uninitialised buffer of the new context. -/
def calculate (buf : List Byte) (b : List Byte) : Option (List Byte) :=
  (update (reset ⟨0, initState, 0, buf⟩) b).map finalize

/-- A hexadecimal digit as written by an output stream with `std::hex`. -/
def hexDigit (n : Nat) : Char :=
  if n < 10 then Char.ofNat ('0'.toNat + n) else Char.ofNat ('a'.toNat + (n - 10))

/-- `ss << std::hex << setw(2) << setfill('0') << i`, sha256.cc:234: the digits of `i`, at
least one, filled to two characters with `0`. -/
def hexByte (b : Byte) : List Char :=
  let digits := if b.toNat < 16 then [hexDigit b.toNat]
    else [hexDigit (b.toNat / 16), hexDigit (b.toNat % 16)]
  List.replicate (2 - digits.length) '0' ++ digits

/-- `hash_to_string`, sha256.cc:230-237. -/
def hashToString (h : List Byte) : List Char := h.flatMap hexByte

end Verif.Sha
