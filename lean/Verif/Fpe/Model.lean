/-
Model of the floating-point traps, fpenvironment.h and fpenvironment.cc, on x86: the two control registers are bit vectors, the functions of <cfenv>
are modelled by what glibc does with these registers.
-/
namespace Verif.Fpe

/-- The floating-point exceptions of C, <cfenv>. -/
inductive Exc | invalid | divByZero | overflow | underflow | inexact
deriving DecidableEq, Repr

/-- The position of an exception in the registers; `FE_INVALID` is `1 << 0` and so on, as asserted in fpenvironment.cc:24-33. -/
def Exc.bit : Exc → Nat
  | .invalid => 0
  | .divByZero => 2
  | .overflow => 3
  | .underflow => 4
  | .inexact => 5

/-- `FE_INVALID` etc., as `int`. -/
def Exc.flag (x : Exc) : BitVec 32 := 1#32 <<< x.bit

/-- `FE_ALL_EXCEPT` of x86. -/
def feAllExcept : BitVec 32 := 0x3d#32

/-- The floating-point environment `fenv_t`: the control word of the x87 unit and the control and status register of the SSE unit.  Bits 0-5 of the
latter are the flags that were raised, bits 7-12 say that the exception does not trap. -/
structure Env where
  cw : BitVec 16
  csr : BitVec 32
deriving DecidableEq

/-- The environment in which a process starts. -/
def Env.initial : Env := ⟨0x37f#16, 0x1f80#32⟩

/-- The variants of `enable_float_traps`: chosen at compile time, fpenvironment.h:16-42. -/
inductive Platform | glibc | sse | other
deriving DecidableEq

/-- `enable_float_traps`, fpenvironment.h:36, 39, 42 and fpenvironment.cc:23-61: success and the new environment.  `feenableexcept` of glibc does the
same to the registers as the second variant. -/
def enable : Platform → BitVec 32 → Env → Bool × Env
  | .other, _, e => (false, e)
  | _, femask, e =>
    let m := femask &&& feAllExcept
    (true, ⟨e.cw &&& ~~~(m.setWidth 16), e.csr &&& ~~~(m <<< 7)⟩)

/-- `std::feholdexcept`: the environment afterwards; no exception traps and no flag is raised. -/
def hold (e : Env) : Env := ⟨e.cw ||| 0x3f#16, (e.csr ||| 0x1f80#32) &&& ~~~0x3f#32⟩

/-- An instruction of the SSE unit raises an exception: `none` if it traps, otherwise the flag is set. -/
def raise (x : Exc) (e : Env) : Option Env :=
  if e.csr.getLsbD (x.bit + 7) then some ⟨e.cw, e.csr ||| x.flag⟩ else none

/-- What a program does as far as floating-point exceptions are concerned. -/
inductive Prog
  | skip
  | raise (x : Exc)                -- an operation with this exception
  | throw                          -- a C++ exception is thrown
  | seq (p q : Prog)
  | catch_ (p q : Prog)            -- `try {p} catch (...) {q}`
  | guard (mask : BitVec 32) (p : Prog)  -- `{DisableFloatTraps guard(mask); p}`
  | enable (mask : BitVec 32)      -- `enable_float_traps(mask)`, result ignored

/-- How a program ends; the signal handler aborts after a trap, fpenvironment.cc:101-137. -/
inductive Out | done | thrown | aborted (x : Exc)
deriving DecidableEq

/-- Outcome, environment and the masks of the warnings "Failed to setup traps on". -/
structure Result where
  out : Out
  env : Env
  warned : List (BitVec 32)
deriving DecidableEq

/-- The constructor of `DisableFloatTraps` after the environment was saved, fpenvironment.h:93-98 and fpenvironment.cc:64-68: environment and
warnings. -/
def construct (pl : Platform) (mask : BitVec 32) (e : Env) : Env × List (BitVec 32) :=
  let h := hold e
  if mask ≠ 0 then
    let r := enable pl mask h
    (r.2, if !r.1 then [mask] else [])
  else (h, [])

/-- Execution of a program.  The destructor of the guard, fpenvironment.h:104, restores the saved environment when the scope is left, also by a C++
exception; `std::abort` runs no destructors. -/
def exec (pl : Platform) : Prog → Env → Result
  | .skip, e => ⟨.done, e, []⟩
  | .raise x, e =>
    match raise x e with
    | some e' => ⟨.done, e', []⟩
    | none => ⟨.aborted x, e, []⟩
  | .throw, e => ⟨.thrown, e, []⟩
  | .seq p q, e =>
    let r := exec pl p e
    match r.out with
    | .done =>
      let r' := exec pl q r.env
      ⟨r'.out, r'.env, r.warned ++ r'.warned⟩
    | _ => r
  | .catch_ p q, e =>
    let r := exec pl p e
    match r.out with
    | .thrown =>
      let r' := exec pl q r.env
      ⟨r'.out, r'.env, r.warned ++ r'.warned⟩
    | _ => r
  | .guard mask p, e =>
    let c := construct pl mask e
    let r := exec pl p c.1
    match r.out with
    | .aborted x => ⟨.aborted x, r.env, c.2 ++ r.warned⟩
    | o => ⟨o, e, c.2 ++ r.warned⟩
  | .enable mask, e => ⟨.done, (enable pl mask e).2, []⟩

/-- `setup_default_float_traps`, fpenvironment.cc:70-86: environment and exceptions warned about (pole error, domain error, overflow). -/
def setup (pl : Platform) (e : Env) : Env × List Exc :=
  let r1 := enable pl (Exc.divByZero).flag e
  let r2 := enable pl (Exc.invalid).flag r1.2
  let r3 := enable pl (Exc.overflow).flag r2.2
  (r3.2, (if !r1.1 then [.divByZero] else []) ++ (if !r2.1 then [.invalid] else []) ++
    (if !r3.1 then [.overflow] else []))

end Verif.Fpe
