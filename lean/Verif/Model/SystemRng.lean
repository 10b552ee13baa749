import Verif.Model.Random
/-
The three versions of the system generator, src/stubs-rng.c:21-116. The first one (`getentropy`) is
in Model/Random.lean; here are that of Windows and that of systems with neither.
-/
namespace Verif

/-- The cryptographic provider of Windows: whether `CryptAcquireContext` succeeds, the bytes that
`CryptGenRandom` delivers, in order, and which calls of it fail. For src/stubs-rng.c:53-95. -/
structure WinCrypto where
  acquires : Bool
  byte : Nat → Byte
  fails : Nat → Bool

/-- How many bytes have been delivered, how many calls have been made, whether the handle has been released.
For src/stubs-rng.c:69-95. -/
structure WinSt where
  pos : Nat
  calls : Nat
  released : Bool

/-- `CryptGenRandom(prov, dwLen, p)`, src/stubs-rng.c:92-94: fills `dwLen` bytes at `p`, or fails; a call with a handle that has
been released fails (`ERROR_INVALID_HANDLE`). That a call that fails leaves the buffer unchanged is assumed. -/
def cryptGenRandom (w : WinCrypto) (dwLen : Nat) (p : Int) : M (WinSt × Bytes) Bool := fun (st, dst) =>
  if st.released ∨ w.fails st.calls then .ok false ({ st with calls := st.calls + 1 }, dst)
  else
    match cWrite dst p (bytesFrom w.byte st.pos dwLen) with
    | none => .ub
    | some dst => .ok true (⟨st.pos + dwLen, st.calls + 1, st.released⟩, dst)

/-- `caml_system_rng_random_bytes`, src/stubs-rng.c:89-95: the parameter `dwLen` of `CryptGenRandom` is a
`DWORD`, an unsigned integer of 32 bits, to which `Long_val(len)` is converted. -/
def winRandomBytes (w : WinCrypto) (ofs len : Int) : M (WinSt × Bytes) Bool :=
  cryptGenRandom w (len % 2 ^ 32).toNat ofs

/-- Class `system_rng`, src/cryptokit.ml:1833-1844, on Windows. `wipe` releases the handle, src/stubs-rng.c:83-87
(the result of `CryptReleaseContext` is ignored). -/
def winRng (w : WinCrypto) : Rng WinSt where
  randomBytes ofs len := do
    let st ← M.get
    if badRange st.2 ofs len then M.raise .invalidArg
    else
      let ok ← winRandomBytes w ofs len
      if ok then pure () else M.raise (.error .entropySourceClosed)
  wipe := M.modify fun st => { st with released := true }

/-- Which of the three versions is compiled, src/stubs-rng.c:21, 53, 97. On Windows, whether
`CryptAcquireContext` succeeds. -/
inductive SystemBuild where
  | getentropy
  | win32 (acquires : Bool)
  | absent
  deriving DecidableEq

/-- `caml_get_system_rng`, src/stubs-rng.c:30-33, 69-81, 99-103. -/
def getSystemRng : SystemBuild → Except Exn RngKind
  | .getentropy => .ok .system
  | .win32 acquires => if ¬ acquires then .error .notFound else .ok .system
  | .absent => .error .notFound

/-- `Random.system_rng ()`, src/cryptokit.ml:1846-1847. -/
def systemRngOf (b : SystemBuild) : Except Exn RngKind :=
  match getSystemRng b with
  | .error .notFound => .error (.error .noEntropySource)
  | r => r

/-- `Random.secure_rng`, src/cryptokit.ml:1890-1899: `opens` tells which files can be opened, `hardware` whether
`hardware_rng_available ()` is true. -/
def secureRngOf (b : SystemBuild) (opens : String → Bool) (hardware : Bool) : Except Exn RngKind :=
  match getSystemRng b with
  | .error .notFound =>
    match deviceRngNew ⟨false, opens, hardware⟩ "/dev/random" with
    | .error .unixError => .ok (if hardware then .hardware else .none)
    | r => r
  | r => r

end Verif
