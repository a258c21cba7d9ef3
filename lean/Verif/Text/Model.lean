/-
Model of stringfunctions.cc and of `line_parser` (inputfunctions.cc).  A `std::string` is a
list of bytes; `size_t` is 64 bits wide.
-/
namespace Verif.Text

abbrev Str := List UInt8

/-- The bytes of a string literal. -/
def lit (s : String) : Str := s.toUTF8.toList

/-- The characters of the literal " \t\n\r". -/
def blanks : Str := [32, 9, 10, 13]
/-- The characters of the literal " \t". -/
def spaceTab : Str := [32, 9]

/-- `s.find_first_not_of(set)`; `none` is `npos`. -/
def findFirstNotOf (s set : Str) : Option Nat := s.findIdx? fun c => !set.contains c

/-- `s.find_last_not_of(set)`. -/
def findLastNotOf (s set : Str) : Option Nat :=
  (findFirstNotOf s.reverse set).map fun i => s.length - 1 - i

/-- `s.substr(pos, n)` for `pos ≤ size`. -/
def substr (s : Str) (pos n : Nat) : Str := (s.drop pos).take n

/-- `trim`, stringfunctions.cc:75-82. -/
def trim (s : Str) : Str :=
  match findFirstNotOf s blanks with
  | none => []
  | some b =>
    match findLastNotOf s blanks with
    | none => []  -- not reached; `end` would be `npos`
    | some e => substr s b (e - b + 1)

/-- `s.find(p)`: the first position where `p` occurs. -/
def find (s p : Str) : Option Nat :=
  if p.isPrefixOf s then some 0
  else match s with
    | [] => none
    | _ :: t => (find t p).map (· + 1)

/-- `s.erase(i, n)`. -/
def erase (s : Str) (i n : Nat) : Str := s.take i ++ s.drop (i + n)

/-- `remove_substr`, stringfunctions.cc:84-90; `fuel` bounds the iterations and `none` means
that it was not enough. -/
def removeSubstr : Nat → Str → Str → Option Str
  | 0, s, p => match find s p with
    | none => some s
    | some _ => none
  | fuel + 1, s, p => match find s p with
    | none => some s
    | some i => removeSubstr fuel (erase s i p.length) p

/-- The loop of `split`, stringfunctions.cc:113-120: `std::getline` with a delimiter.  `item`
is what was read of the current item; `any` whether a character was extracted for it. -/
def splitLoop (delim : UInt8) : Str → Str → Bool → List Str
  | [], item, any => if any then [item] else []
  | c :: s, item, _ =>
    if c = delim then item :: splitLoop delim s [] false
    else splitLoop delim s (item ++ [c]) true

/-- `split`, stringfunctions.cc:122-126. -/
def split (s : Str) (delim : UInt8) : List Str := splitLoop delim s [] false

/-- `join`, stringfunctions.cc:128-133. -/
def join (v : List Str) (delim : Str) : Str :=
  v.foldl (fun ss s => if ss.isEmpty then s else ss ++ delim ++ s) []

/-- `quote`, stringfunctions.cc:135. -/
def quote (s : Str) : Str := [34] ++ s ++ [34]

/-- What `adjust` adds for one byte, stringfunctions.cc:30-42. -/
def extra (c : UInt8) : Nat :=
  if c ≥ 0xFC then 5
  else if c ≥ 0xF8 then 4
  else if c ≥ 0xF0 then 3
  else if c ≥ 0xE0 then 2
  else if c = 0xCC ∨ c = 0xCD then 2
  else if c ≥ 0xC0 then 1
  else 0

/-- `adjust`, stringfunctions.cc:29-45. -/
def adjust (s : Str) (width : BitVec 64) : BitVec 64 :=
  s.foldl (fun w c => w + BitVec.ofNat 64 (extra c)) width

/-- `std::string(n, fill)`: throws `std::length_error` above `max_size` (2^63 - 1). -/
def stringOf (n : BitVec 64) (fill : UInt8) : Option Str :=
  if n.toNat < 9223372036854775808 then some (List.replicate n.toNat fill) else none

/-- `fill_left`, stringfunctions.cc:47-53; `none` is the exception. -/
def fillLeft (s : Str) (width : BitVec 64) (fill : UInt8) : Option Str :=
  let w := adjust s (width - BitVec.ofNat 64 s.length)
  if w > 0 then (stringOf w fill).map fun f => f ++ s else some s

/-- `fill_right`, stringfunctions.cc:55-61. -/
def fillRight (s : Str) (width : BitVec 64) (fill : UInt8) : Option Str :=
  let w := adjust s (width - BitVec.ofNat 64 s.length)
  if w > 0 then (stringOf w fill).map fun f => s ++ f else some s

/-- `fill_both`, stringfunctions.cc:63-71; `l` and `r` are `int` and converted back to
`size_t`. -/
def fillBoth (s : Str) (width : BitVec 64) (fill : UInt8) : Option Str :=
  let w := adjust s (width - BitVec.ofNat 64 s.length)
  if w > 0 then do
    let l : BitVec 32 := (w / 2#64).setWidth 32
    let r : BitVec 32 := (w - l.signExtend 64).setWidth 32
    let a ← stringOf (l.signExtend 64) fill
    let b ← stringOf (r.signExtend 64) fill
    pure (a ++ s ++ b)
  else some s

/-- `std::getline` with '\n' until the stream is exhausted: the lines of the input. -/
def getlines (input : Str) : List Str := split input 10

/-- `line.substr(0, line.find('#'))`, inputfunctions.cc:31-35. -/
def stripComment (line : Str) : Str :=
  match line.findIdx? (· == 35) with
  | some pos => substr line 0 pos
  | none => line

/-- The loop of `line_parser`, inputfunctions.cc:28-43; `n` is `line_number`. -/
def parseLoop : Nat → List Str → List (Nat × Str)
  | _, [] => []
  | n, line :: rest =>
    let line := stripComment line
    if (findFirstNotOf line spaceTab).isNone then parseLoop (n + 1) rest
    else (n + 1, trim line) :: parseLoop (n + 1) rest

/-- `line_parser`, inputfunctions.cc:20-45. -/
def lineParser (input : Str) : List (Nat × Str) := parseLoop 0 (getlines input)

end Verif.Text
