import Verif.Model.Random
import Verif.Model.InterruptAead
/-
Asynchronous exceptions in the pseudo-random generators: the methods of `pseudo_rng` and
`pseudo_rng_aes_ctr` with interruption points before, between and after their statements. Calls to C code
and assignments are atomic.
-/
namespace Verif

/-- Class `pseudo_rng`, src/cryptokit.ml:1901-1917, with interruption points: the range is checked, then
the bytes are extracted by one call to C code. In `wipe`, the string `seed` of the caller is not part of
the state. -/
def pseudoRngI : Rng (Sched × ChaCha) where
  randomBytes ofs len := do
    poll
    let st ← M.get
    if badRange st.2 ofs len then M.raise .invalidArg
    else do
      poll
      M.zoom (fun p : (Sched × ChaCha) × Bytes => (p.1.2, p.2)) (fun r p => ((p.1.1, r.1), r.2))
        (extractLoop chachaNext ofs len.toNat)
      poll
  wipe := do
    poll
    M.modify fun p => (p.1, p.2.wipe)
    poll

instance [Ticking κ] : Ticking (AesCtrRng κ) where
  tick g := ((Ticking.tick g.cipher).1, { g with cipher := (Ticking.tick g.cipher).2 })

section aesCtr

variable {κ : Type} [Ticking κ]

/-- `cipher#transform ctr 0 obuf 0`, src/cryptokit.ml:1933. -/
def aesCtrBlock (c : BlockCipher κ) : M (AesCtrRng κ × Bytes) Unit := do
  let st ← M.get
  M.zoom (fun p : AesCtrRng κ × Bytes => (p.1.cipher, p.1.obuf))
    (fun r p => ({ p.1 with cipher := r.1, obuf := r.2 }, p.2)) (c.transform (.other st.1.ctr) 0 0)

/-- `Block.increment_counter ctr 0 15`, src/cryptokit.ml:1935, with interruption points. The counter takes
the place of the variable `iv` in `incrementCounterI`. -/
def aesCtrIncrementI : M (AesCtrRng κ × Bytes) Unit :=
  M.zoom (fun p => ((⟨p.1.cipher, p.1.ctr, p.1.obuf⟩ : ModeSt κ), p.2))
    (fun r p => ({ p.1 with cipher := r.1.c, ctr := r.1.iv }, r.2)) (incrementCounterI 0 16)

/-- `if opos >= 16 then begin ... end`, src/cryptokit.ml:1931-1938, with interruption points. -/
def aesCtrRefillI (c : BlockCipher κ) : M (AesCtrRng κ × Bytes) Unit := do
  let st ← M.get
  if st.1.opos ≥ 16 then do
    aesCtrBlock c
    poll
    aesCtrIncrementI
    poll
    M.modify fun st => ({ st.1 with opos := 0 }, st.2)
    poll
  else pure ()

/-- `random_bytes` of class `pseudo_rng_aes_ctr`, src/cryptokit.ml:1929-1943, with interruption points.
The first argument bounds the number of recursive calls. -/
def aesCtrRandomBytesI (c : BlockCipher κ) : Nat → Int → Int → M (AesCtrRng κ × Bytes) Unit
  | 0, _, len => if len > 0 then M.diverge else poll
  | fuel + 1, ofs, len => do
    poll
    if len > 0 then do
      aesCtrRefillI c
      let st ← M.get
      let r : Int := min (16 - (st.1.opos : Int)) len
      let dst ← M.orRaise .invalidArg (bytesBlit st.1.obuf st.1.opos st.2 ofs r)
      M.modify fun st => (st.1, dst)
      poll
      M.modify fun st => ({ st.1 with opos := st.1.opos + r.toNat }, st.2)
      poll
      if r < len then aesCtrRandomBytesI c fuel (ofs + r) (len - r) else pure ()
    else pure ()

/-- Class `pseudo_rng_aes_ctr`, src/cryptokit.ml:1921-1947, with interruption points. -/
def aesCtrRngI (c : BlockCipher κ) : Rng (AesCtrRng κ) where
  randomBytes ofs len := aesCtrRandomBytesI c len.toNat ofs len
  wipe := do
    poll
    M.modify fun g => { g with obuf := wipeBytes g.obuf }
    poll

end aesCtr

/-- `new pseudo_rng_aes_ctr seed`, src/cryptokit.ml:1921-1927, with the interruptions to come. -/
def aesCtrRngNewI (env : Env) (junk : List W32) (seed : Bytes) (sched : Sched) :
    Except Exn (AesCtrRng (Sched × Aes.CKey)) :=
  (aesCtrRngNew env junk seed).map fun g => ⟨(sched, g.cipher), g.ctr, g.obuf, g.opos⟩

end Verif
