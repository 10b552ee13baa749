import Verif.Model.Cipher
import Verif.Model.Ghash
/-
The choice, at run time, between the code that uses special instructions and the code that does
not: src/stubs-aes.c, src/stubs-ghash.c and the global variables `aesni_available`
(src/aesni.c:24-35) and `pclmul_available` (src/pclmul.c:26-37), under any interleaving of the
stubs by any number of threads of execution (domains). Reads and writes of the global variable are
atomic and sequentially consistent; the rest of a stub works on data that the caller owns.
-/
namespace Verif.Dispatch

/-- The two implementations of a keyed function on blocks: key preparation and use, without (`S`)
and with (`H`) the special instructions; `none` is undefined behaviour.
src/stubs-aes.c:33-40, 67-77, src/stubs-ghash.c:44-55, 60-64. -/
structure Impls (κ β : Type) where
  S : Type
  H : Type
  prepS : κ → Option S
  prepH : κ → Option H
  runS : S → β → Option β
  runH : H → β → Option β

/-- A prepared key, with the key it was prepared from. src/stubs-aes.c:29, src/stubs-ghash.c:45, 48. -/
structure Ctx (I : Impls κ β) where
  key : κ
  data : Option (I.S ⊕ I.H)

/-- What a thread is doing: nothing; or at the test, in `aesni_check_available()`, or at the choice.
src/stubs-aes.c:32-33, src/stubs-ghash.c:43-44. -/
inductive Local (κ : Type) where
  | idle
  | atTest (k : κ)
  | atCheck (k : κ)
  | atChoice (k : κ)

/-- The global variable, the threads, the keys prepared so far (any thread may use any of them) and
the calls made: key, block, result (`none` is undefined behaviour).
src/aesni.c:24, src/stubs-aes.c:26-62. -/
structure State (I : Impls κ β) where
  flag : Int
  thr : Nat → Local κ
  ctxs : List (Ctx I)
  log : List (κ × β × Option β)

/-- A change of the state of one thread. src/stubs-aes.c:26-62. -/
def State.put {I : Impls κ β} (s : State I) (i : Nat) (l : Local κ) : State I :=
  { s with thr := fun j => if j = i then l else s.thr j }

/-- At the start of the program: src/aesni.c:24, src/pclmul.c:26, or, if the library was compiled
without the special instructions, src/aesni.c:304, src/pclmul.c:105. -/
def start (I : Impls κ β) (compiled : Bool) : State I :=
  { flag := if compiled then -1 else 0, thr := fun _ => .idle, ctxs := [], log := [] }

/-- The effect of `aesni_check_available()`, src/aesni.c:26-35, 306, and `pclmul_check_available()`,
src/pclmul.c:28-37, 107. `cpu` is the bit returned by `__get_cpuid`. -/
def check (compiled cpu : Bool) (flag : Int) : Int :=
  if compiled then (if cpu then 1 else 0) else flag

/-- The choice of an implementation and the preparation of the key. src/stubs-aes.c:33-40,
src/stubs-ghash.c:44-55. -/
def prepare (I : Impls κ β) (flag : Int) (k : κ) : Ctx I :=
  { key := k
    data := if flag = 1 then (I.prepH k).map .inr else (I.prepS k).map .inl }

/-- `caml_aes_encrypt`, `caml_aes_decrypt`, `caml_ghash_mult`: the code run depends on the global
variable only; running it on a key prepared by the other code is undefined.
src/stubs-aes.c:64-94, src/stubs-ghash.c:58-66. -/
def use (I : Impls κ β) (flag : Int) (c : Ctx I) (b : β) : Option β :=
  match c.data with
  | none => none
  | some (.inl s) => if flag = 1 then none else I.runS s b
  | some (.inr h) => if flag = 1 then I.runH h b else none

/-- One atomic step of one thread. src/stubs-aes.c:26-94, src/stubs-ghash.c:41-66. -/
inductive Step (I : Impls κ β) (compiled cpu : Bool) : State I → State I → Prop
  /-- A thread calls the key preparation stub. src/stubs-aes.c:26-31. -/
  | call {s} (i : Nat) (k : κ) : s.thr i = .idle → Step I compiled cpu s (s.put i (.atTest k))
  /-- `if (aesni_available == -1)`, src/stubs-aes.c:32, 51, src/stubs-ghash.c:43. -/
  | test {s} (i : Nat) (k : κ) : s.thr i = .atTest k →
      Step I compiled cpu s (s.put i (if s.flag = -1 then .atCheck k else .atChoice k))
  /-- `aesni_check_available()`, src/stubs-aes.c:32, 51, src/stubs-ghash.c:43. -/
  | check {s} (i : Nat) (k : κ) : s.thr i = .atCheck k →
      Step I compiled cpu s ({ s with flag := Dispatch.check compiled cpu s.flag }.put i (.atChoice k))
  /-- `if (aesni_available == 1)` and the key preparation, src/stubs-aes.c:33-42, 52-61,
  src/stubs-ghash.c:44-55. -/
  | prepare {s} (i : Nat) (k : κ) : s.thr i = .atChoice k →
      Step I compiled cpu s
        ({ s with ctxs := Dispatch.prepare I s.flag k :: s.ctxs }.put i .idle)
  /-- A use of a key by a thread. src/stubs-aes.c:64-94, src/stubs-ghash.c:58-66. -/
  | use {s} (i : Nat) (c : Ctx I) (b : β) : s.thr i = .idle → c ∈ s.ctxs →
      Step I compiled cpu s { s with log := (c.key, b, Dispatch.use I s.flag c b) :: s.log }

/-- The states reachable by some interleaving. Modelling device for src/stubs-aes.c:26-94. -/
inductive Reach (I : Impls κ β) (compiled cpu : Bool) : State I → Prop
  | start : Reach I compiled cpu (Dispatch.start I compiled)
  | step {s s'} : Reach I compiled cpu s → Step I compiled cpu s s' → Reach I compiled cpu s'

/-- A request to prepare an AES key, with the contents of the memory of the key schedule and after
the key. src/stubs-aes.c:26-62. -/
structure AesReq where
  dir : Dir
  key : Bytes
  junkS : List W32
  junkH : Bytes
  pad : Bytes

/-- src/stubs-aes.c:26-94. -/
def aes : Impls AesReq Bytes where
  S := Aes.CKey × Dir
  H := Aesni.CKey × Dir
  prepS r := some (match r.dir with
    | .encrypt => Aes.cookEnc r.junkS r.key
    | .decrypt => Aes.cookDec r.junkS r.key, r.dir)
  prepH r := (match r.dir with
    | .encrypt => Aesni.cookEnc r.junkH r.key r.pad
    | .decrypt => Aesni.cookDec r.junkH r.key r.pad).map (·, r.dir)
  runS k b := match k.2 with
    | .encrypt => Rijndael.encrypt k.1.sched k.1.nr.toNat b
    | .decrypt => Rijndael.decrypt k.1.sched k.1.nr.toNat b
  runH k b := match k.2 with
    | .encrypt => Aesni.crypt Aesni.aesenc Aesni.aesenclast k.1.sched k.1.nr.toNat b
    | .decrypt => Aesni.crypt Aesni.aesdec Aesni.aesdeclast k.1.sched k.1.nr.toNat b

/-- src/stubs-ghash.c:41-66. -/
def ghash : Impls Bytes Bytes where
  S := GhashKey
  H := GhashKey
  prepS k := cGhashInit false k
  prepH k := cGhashInit true k
  runS := cGhashMult
  runH := cGhashMult

end Verif.Dispatch
