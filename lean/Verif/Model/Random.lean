import Verif.Model.Stream
import Verif.Model.Aes
import Verif.Model.Bignum
/-
Random number generators, module `Random` of src/cryptokit.ml:1813-1951, src/stubs-rng.c.
-/
namespace Verif

/-- Class type `rng`, src/cryptokit.ml:1815-1819: `random_bytes buf ofs len` acts on the generator
and on `buf`. -/
structure Rng (ρ : Type) where
  randomBytes : Int → Int → M (ρ × Bytes) Unit
  wipe : M ρ Unit

/-- `Random.string rng len`, src/cryptokit.ml:1821-1824. -/
def randomString (env : Env) (r : Rng ρ) (len : Int) : M ρ Bytes := fun s =>
  if len < 0 ∨ len > env.maxLen then .exn .invalidArg s
  else
    match r.randomBytes 0 len (s, env.create len.toNat) with
    | .ok () (s, b) => .ok b s
    | .exn e (s, _) => .exn e s
    | .ub => .ub
    | .loop => .loop

/-- The way Model/Bignum.lean uses generators: fill a new buffer of `n` bytes.
src/cryptokitBignum.ml:96-99. -/
def Rng.toRandomBytes (env : Env) (r : Rng ρ) : RandomBytes ρ := fun n => randomString env r n

/-- The test `ofs < 0 || len < 0 || ofs > Bytes.length buf - len`. src/cryptokit.ml:1837, 1870. -/
def badRange (b : Bytes) (ofs len : Int) : Prop := ofs < 0 ∨ len < 0 ∨ ofs > (b.length : Int) - len

/-- The test of src/cryptokit.ml:1837 is computable. -/
instance (b : Bytes) (ofs len : Int) : Decidable (badRange b ofs len) := by
  unfold badRange; infer_instance

/-! ### `pseudo_rng` -/

/-- The loop of `chacha20_extract`, src/chacha20.c:123-132: successive bytes of the generator `next`
are stored from `ofs` on. -/
def extractLoop (next : σ → Option (Byte × σ)) (ofs : Int) : Nat → M (σ × Bytes) Unit
  | 0 => pure ()
  | len + 1 => do
    let st ← M.get
    let r ← M.orUB (next st.1)
    let dst ← M.orUB (cWrite st.2 ofs [r.1])
    M.modify fun _ => (r.2, dst)
    extractLoop next (ofs + 1) len

/-- The key made from the seed, src/cryptokit.ml:1905-1909. -/
def pseudoKey (seed : Bytes) : Bytes :=
  if seed.length ≥ 32 then seed.take 32
  else if seed.length > 16 then seed ++ List.replicate (32 - seed.length) 0
  else seed

/-- `new pseudo_rng seed`, src/cryptokit.ml:1901-1910. -/
def pseudoRngNew (env : Env) (seed : Bytes) : Except Exn ChaCha :=
  if seed.length < 16 then .error (.error .seedTooShort)
  else .ok (chachaInit env (pseudoKey seed) (List.replicate 8 0) 0)

/-- Class `pseudo_rng`, src/cryptokit.ml:1901-1917. `wipe` also overwrites the string `seed` of the
caller, which is not part of the state here. -/
def pseudoRng : Rng ChaCha where
  randomBytes ofs len := do
    let st ← M.get
    if badRange st.2 ofs len then M.raise .invalidArg
    else extractLoop chachaNext ofs len.toNat
  wipe := M.modify ChaCha.wipe

/-! ### `pseudo_rng_aes_ctr` -/

/-- The values of class `pseudo_rng_aes_ctr`, src/cryptokit.ml:1924-1927. -/
structure AesCtrRng (κ : Type) where
  cipher : κ
  ctr : Bytes
  obuf : Bytes
  opos : Nat

/-- `new pseudo_rng_aes_ctr seed`, src/cryptokit.ml:1921-1927. -/
def aesCtrRngNew (env : Env) (junk : List W32) (seed : Bytes) :
    Except Exn (AesCtrRng Aes.CKey) := do
  if seed.length < 16 then throw (.error .seedTooShort)
  else
    let k ← Aes.encNew junk (seed.take 16)
    pure ⟨k, List.replicate 16 0, env.create 16, 16⟩

/-- `if opos >= 16 then begin ... end`, src/cryptokit.ml:1931-1938. -/
def aesCtrRefill (c : BlockCipher κ) : M (AesCtrRng κ × Bytes) Unit := fun (g, dst) =>
  if g.opos ≥ 16 then
    match c.transform (.other g.ctr) 0 0 (g.cipher, g.obuf) with
    | .ok () (k, obuf) =>
      match incrementCounter g.ctr 0 16 with
      | some ctr => .ok () (⟨k, ctr, obuf, 0⟩, dst)
      | none => .exn .invalidArg (⟨k, g.ctr, obuf, g.opos⟩, dst)
    | .exn e (k, obuf) => .exn e (⟨k, g.ctr, obuf, g.opos⟩, dst)
    | .ub => .ub
    | .loop => .loop
  else .ok () (g, dst)

/-- `random_bytes` of class `pseudo_rng_aes_ctr`, src/cryptokit.ml:1929-1943. The first argument
bounds the number of recursive calls. -/
def aesCtrRandomBytes (c : BlockCipher κ) : Nat → Int → Int → M (AesCtrRng κ × Bytes) Unit
  | 0, _, len => if len > 0 then M.diverge else pure ()
  | fuel + 1, ofs, len => do
    if len > 0 then
      aesCtrRefill c
      let st ← M.get
      let r : Int := min (16 - (st.1.opos : Int)) len
      let dst ← M.orRaise .invalidArg (bytesBlit st.1.obuf st.1.opos st.2 ofs r)
      M.modify fun st => ({ st.1 with opos := st.1.opos + r.toNat }, dst)
      if r < len then aesCtrRandomBytes c fuel (ofs + r) (len - r) else pure ()
    else pure ()

/-- Class `pseudo_rng_aes_ctr`, src/cryptokit.ml:1921-1947. -/
def aesCtrRng (c : BlockCipher κ) : Rng (AesCtrRng κ) where
  randomBytes ofs len := aesCtrRandomBytes c len.toNat ofs len
  wipe := M.modify fun g => { g with obuf := wipeBytes g.obuf }

/-! ### `system_rng` -/

/-- The system's entropy source, seen through `getentropy`: the bytes that it delivers, in order,
and which calls fail. src/stubs-rng.c:40-51. -/
structure Entropy where
  byte : Nat → Byte
  fails : Nat → Bool

/-- How many bytes have been delivered, how many calls have been made. src/stubs-rng.c:40-51. -/
structure EntropySt where
  pos : Nat
  calls : Nat

/-- The next `n` bytes of the source. src/stubs-rng.c:40-51. -/
def bytesFrom (byte : Nat → Byte) (pos n : Nat) : Bytes := (List.range n).map fun i => byte (pos + i)

/-- `getentropy(p, n)`, `n <= 256`; `none` is the result -1. src/stubs-rng.c:47. -/
def getentropy (src : Entropy) (n : Nat) (st : EntropySt) : Option Bytes × EntropySt :=
  if src.fails st.calls then (none, { st with calls := st.calls + 1 })
  else (some (bytesFrom src.byte st.pos n), ⟨st.pos + n, st.calls + 1⟩)

/-- `caml_system_rng_random_bytes`, src/stubs-rng.c:40-51: the boolean result. The first argument
bounds the number of iterations. -/
def systemRandomLoop (src : Entropy) : Nat → Int → Int → M (EntropySt × Bytes) Bool
  | 0, _, l => if l > 0 then M.diverge else pure true
  | fuel + 1, p, l => do
    if l > 0 then
      let n : Int := if l < 256 then l else 256
      let st ← M.get
      match getentropy src n.toNat st.1 with
      | (none, s) =>
        M.modify fun st => (s, st.2)
        pure false
      | (some b, s) =>
        let dst ← M.orUB (cWrite st.2 p b)
        M.modify fun _ => (s, dst)
        systemRandomLoop src fuel (p + n) (l - n)
    else pure true

/-- Class `system_rng`, src/cryptokit.ml:1833-1844, with `getentropy`. -/
def systemRng (src : Entropy) : Rng EntropySt where
  randomBytes ofs len := do
    let st ← M.get
    if badRange st.2 ofs len then M.raise .invalidArg
    else
      let ok ← systemRandomLoop src len.toNat ofs len
      if ok then pure () else M.raise (.error .entropySourceClosed)
  wipe := pure ()

/-! ### `device_rng` -/

/-- What one call of `read` on the device does: deliver at most this number of bytes (at least
one), report the end of the file, or fail. For src/cryptokit.ml:1854. -/
inductive ReadEvent where
  | upto (n : Nat)
  | eof
  | fails
  deriving DecidableEq

/-- The device: the bytes that it delivers and the outcome of each call.
For src/cryptokit.ml:1849-1860. -/
structure Device where
  byte : Nat → Byte
  event : Nat → ReadEvent

/-- How many bytes have been read, how many calls have been made, whether the descriptor is closed.
For src/cryptokit.ml:1849-1860. -/
structure DeviceSt where
  pos : Nat
  calls : Nat
  closed : Bool

/-- `Unix.read fd buf ofs len` (OCaml's library): checks the range, reads at most 65536 bytes, stores
what the system call returned, and returns the number of bytes, 0 at the end of the file.
Used at src/cryptokit.ml:1854. -/
def unixRead (dev : Device) (ofs len : Int) : M (DeviceSt × Bytes) Int := fun (st, dst) =>
  if badRange dst ofs len then .exn .invalidArg (st, dst)
  else if st.closed then .exn .unixError (st, dst)
  else
    match dev.event st.calls with
    | .fails => .exn .unixError (⟨st.pos, st.calls + 1, false⟩, dst)
    | .eof => .ok 0 (⟨st.pos, st.calls + 1, false⟩, dst)
    | .upto n =>
      let n := min (max 1 n) (min len.toNat 65536)
      .ok n (⟨st.pos + n, st.calls + 1, false⟩, splice dst ofs.toNat (bytesFrom dev.byte st.pos n))

/-- `random_bytes` of class `device_rng`, src/cryptokit.ml:1852-1857. The first argument bounds the
number of recursive calls. -/
def deviceRandomBytes (dev : Device) : Nat → Int → Int → M (DeviceSt × Bytes) Unit
  | 0, _, len => if len > 0 then M.diverge else pure ()
  | fuel + 1, ofs, len => do
    if len > 0 then
      let n ← unixRead dev ofs len
      if n = 0 then M.raise (.error .entropySourceClosed)
      else if n < len then deviceRandomBytes dev fuel (ofs + n) (len - n)
      else pure ()
    else pure ()

/-- Class `device_rng`, src/cryptokit.ml:1849-1860, once the file is open. That `Unix.close` can fail on
an open descriptor is not modelled. -/
def deviceRng (dev : Device) : Rng DeviceSt where
  randomBytes ofs len := deviceRandomBytes dev len.toNat ofs len
  wipe := fun st => if st.closed then .exn .unixError st else .ok () { st with closed := true }

/-! ### `hardware_rng` -/

/-- The loop of `rdrand64`, src/stubs-rng.c:125-136, with `n` attempts left. `rdrand i` is the outcome of
the `i`-th execution of the instruction, `none` if it does not set the carry flag. The state is the
number of executions. -/
def rdrand64 (rdrand : Nat → Option (BitVec 64)) : Nat → Nat → Option (BitVec 64) × Nat
  | 0, i => (none, i)
  | n + 1, i =>
    match rdrand i with
    | some v => (some v, i + 1)
    | none => rdrand64 rdrand n (i + 1)

/-- The loop of `caml_hardware_rng_available`, src/stubs-rng.c:150-152, with `n` attempts left. -/
def rdrandUsable (rdrand : Nat → Option (BitVec 64)) : Nat → Nat → Bool × Nat
  | 0, i => (false, i)
  | n + 1, i =>
    match rdrand64 rdrand 20 i with
    | (some v, i) => if v ≠ BitVec.allOnes 64 then (true, i) else rdrandUsable rdrand n i
    | (none, i) => rdrandUsable rdrand n i

/-- `caml_hardware_rng_available`, src/stubs-rng.c:138-157. `cx` is what `cpuid` returns in `ecx`. -/
def hardwareAvailable (cx : BitVec 32) (rdrand : Nat → Option (BitVec 64)) (i : Nat) : Bool × Nat :=
  if cx &&& (1#32 <<< 30) = 0 then (false, i) else rdrandUsable rdrand 8 i

/-- `caml_hardware_rng_random_bytes`, src/stubs-rng.c:159-176: the boolean result. The processor is
little endian. The first argument bounds the number of iterations. -/
def hardwareLoop (rdrand : Nat → Option (BitVec 64)) : Nat → Int → Int → M (Nat × Bytes) Bool
  | 0, _, _ => M.diverge
  | fuel + 1, p, nbytes => do
    let st ← M.get
    if nbytes ≥ 8 then
      match rdrand64 rdrand 20 st.1 with
      | (none, i) =>
        M.modify fun st => (i, st.2)
        pure false
      | (some r, i) =>
        let dst ← M.orUB (cWrite st.2 p (natToLE 8 r.toNat))
        M.modify fun _ => (i, dst)
        hardwareLoop rdrand fuel (p + 8) (nbytes - 8)
    else if nbytes > 0 then
      match rdrand64 rdrand 20 st.1 with
      | (none, i) =>
        M.modify fun st => (i, st.2)
        pure false
      | (some r, i) =>
        let dst ← M.orUB (cWrite st.2 p ((natToLE 8 r.toNat).take nbytes.toNat))
        M.modify fun _ => (i, dst)
        pure true
    else pure true

/-- Class `hardware_rng`, src/cryptokit.ml:1867-1876. -/
def hardwareRng (rdrand : Nat → Option (BitVec 64)) : Rng Nat where
  randomBytes ofs len := do
    let st ← M.get
    if badRange st.2 ofs len then M.raise .invalidArg
    else
      let ok ← hardwareLoop rdrand (len.toNat + 1) ofs len
      if ok then pure () else M.raise (.error .entropySourceClosed)
  wipe := pure ()

/-! ### Choice of a source -/

/-- Class `no_rng`, src/cryptokit.ml:1883-1888. -/
def noRng : Rng Unit where
  randomBytes _ _ := M.raise (.error .noEntropySource)
  wipe := pure ()

/-- The generator that a function of module `Random` returns. src/cryptokit.ml:1846-1900. -/
inductive RngKind where
  | system | device (filename : String) | hardware | none
  deriving DecidableEq

/-- What the machine offers. `caml_get_system_rng` raises `Not_found` unless `hasGetentropy`
(src/stubs-rng.c:30-33, 99-103; for the Windows version, 53-95, see Model/SystemRng.lean); `opens` tells which files can be
opened. -/
structure Machine where
  hasGetentropy : Bool
  opens : String → Bool
  hardware : Bool

/-- `system_rng ()`, src/cryptokit.ml:1846-1847. -/
def systemRngNew (m : Machine) : Except Exn RngKind :=
  if m.hasGetentropy then .ok .system else .error (.error .noEntropySource)

/-- `device_rng filename`, src/cryptokit.ml:1851, 1862. -/
def deviceRngNew (m : Machine) (f : String) : Except Exn RngKind :=
  if m.opens f then .ok (.device f) else .error .unixError

/-- `hardware_rng ()`, src/cryptokit.ml:1878-1881. -/
def hardwareRngNew (m : Machine) : Except Exn RngKind :=
  if m.hardware then .ok .hardware else .error (.error .noEntropySource)

/-- `secure_rng`, src/cryptokit.ml:1890-1899. -/
def secureRng (m : Machine) : RngKind :=
  if m.hasGetentropy then .system
  else
    match deviceRngNew m "/dev/random" with
    | .ok k => k
    | .error _ => if m.hardware then .hardware else .none

end Verif
