import Verif.Model.Transform
import Verif.Model.Words
/-
Stream ciphers, module `Stream` of src/cryptokit.ml:984-1070, src/arcfour.c, src/chacha20.c.
-/
namespace Verif

/-- Class type `stream_cipher`, src/cryptokit.ml:988-992: `transform src so dofs len` acts on
the object and the destination. -/
structure StreamCipher (σ : Type) where
  transform : Src → Int → Int → Int → M (σ × Bytes) Unit
  wipe : σ → σ

/-- The C loop `for (; len > 0; len--) *dst++ = *src++ ^ <next keystream byte>`,
src/arcfour.c:45-52, src/chacha20.c:116-119. `next` is `none` when it reads outside its
context. -/
def streamLoop (next : σ → Option (Byte × σ)) (src : Src) (so dofs : Int) :
    Nat → M (σ × Bytes) Unit
  | 0 => pure ()
  | len + 1 => do
    let (s, dst) ← M.get
    let (kb, s') ← M.orUB (next s)
    let a ← M.orUB (cRead (src.read dst) so 1)
    let dst' ← M.orUB (cWrite dst dofs (a.map (· ^^^ kb)))
    M.modify fun _ => (s', dst')
    streamLoop next src (so + 1) (dofs + 1) len

/-- `transform` of `arcfour` and `chacha20`, src/cryptokit.ml:1000-1005, 1024-1029. -/
def checkedStream (next : σ → Option (Byte × σ)) (wipe : σ → σ) : StreamCipher σ where
  transform src so dofs len := do
    let (_, dst) ← M.get
    if len < 0 ∨ so < 0 ∨ so > ((src.read dst).length : Int) - len
        ∨ dofs < 0 ∨ dofs > (dst.length : Int) - len then
      M.raise .invalidArg
    streamLoop next src so dofs len.toNat
  wipe := wipe

/-! ### ARCfour -/

/-- `struct arcfour_key`, src/arcfour.h:16-20. -/
structure Arcfour where
  state : Bytes
  x : Byte
  y : Byte
  deriving DecidableEq

/-- `t = s[i]; s[i] = s[j]; s[j] = t`. src/arcfour.c:32. -/
def swapAt (s : Bytes) (i j : Nat) : Bytes := (s.set i (byteAt s j)).set j (byteAt s i)

/-- The key-mixing loop of `arcfour_cook_key`, src/arcfour.c:30-35, from iteration `i` on
(`n` iterations left). `index1` and `index2` are `unsigned char`: additions wrap. -/
def arcfourMix (key : Bytes) : (n i : Nat) → (index1 index2 : Byte) → Bytes → Bytes
  | 0, _, _, _, s => s
  | n + 1, i, index1, index2, s =>
    let index2 := byteAt key index1.toNat + byteAt s i + index2
    let s := swapAt s i index2.toNat
    let index1 := index1 + 1
    let index1 := if index1.toNat ≥ key.length then 0 else index1
    arcfourMix key n (i + 1) index1 index2 s

/-- `arcfour_cook_key`, src/arcfour.c:16-36. -/
def arcfourCookKey (key : Bytes) : Arcfour :=
  { state := arcfourMix key 256 0 0 0 ((List.range 256).map (BitVec.ofNat 8)), x := 0, y := 0 }

/-- One iteration of `arcfour_encrypt`, src/arcfour.c:38-55: the keystream byte and the new
key state. (`x`, `y` are kept in registers during the loop and stored at its end.)
`none` if an index is outside `state`. -/
def arcfourNext (k : Arcfour) : Option (Byte × Arcfour) :=
  let x := k.x + 1
  match k.state[x.toNat]? with
  | none => none
  | some kx =>
    let y := kx + k.y
    match k.state[y.toNat]? with
    | none => none
    | some ky =>
      let state := (k.state.set x.toNat ky).set y.toNat kx
      match state[(kx + ky).toNat]? with
      | none => none
      | some b => some (b, { state := state, x := x, y := y })

/-- `wipe_bytes ckey`. src/cryptokit.ml:1006-1007. -/
def Arcfour.wipe (k : Arcfour) : Arcfour := { state := wipeBytes k.state, x := 0, y := 0 }

/-- Class `arcfour`, src/cryptokit.ml:994-1008. -/
def arcfour : StreamCipher Arcfour := checkedStream arcfourNext Arcfour.wipe

/-- `new arcfour key`, src/cryptokit.ml:994-999. -/
def arcfourInit (key : Bytes) : Except Exn Arcfour :=
  if key.length > 0 ∧ key.length ≤ 256 then .ok (arcfourCookKey key)
  else .error (.error .wrongKeySize)

/-! ### ChaCha20 -/

/-- `QUARTERROUND(a,b,c,d)`, src/chacha20.c:37-41. -/
def quarterRound (a b c d : W32) : W32 × W32 × W32 × W32 :=
  let a := a + b; let d := rol32 (d ^^^ a) 16
  let c := c + d; let b := rol32 (b ^^^ c) 12
  let a := a + b; let d := rol32 (d ^^^ a) 8
  let c := c + d; let b := rol32 (b ^^^ c) 7
  (a, b, c, d)

/-- The sixteen local variables `x0` ... `x15` of `chacha20_block`. src/chacha20.c:45. -/
structure X16 where
  (x0 x1 x2 x3 x4 x5 x6 x7 x8 x9 x10 x11 x12 x13 x14 x15 : W32)
  deriving DecidableEq

/-- Body of the loop of `chacha20_block`, src/chacha20.c:64-73. -/
def doubleRound (x : X16) : X16 :=
  let ⟨x0, x1, x2, x3, x4, x5, x6, x7, x8, x9, x10, x11, x12, x13, x14, x15⟩ := x
  let (x0, x4, x8, x12) := quarterRound x0 x4 x8 x12
  let (x1, x5, x9, x13) := quarterRound x1 x5 x9 x13
  let (x2, x6, x10, x14) := quarterRound x2 x6 x10 x14
  let (x3, x7, x11, x15) := quarterRound x3 x7 x11 x15
  let (x0, x5, x10, x15) := quarterRound x0 x5 x10 x15
  let (x1, x6, x11, x12) := quarterRound x1 x6 x11 x12
  let (x2, x7, x8, x13) := quarterRound x2 x7 x8 x13
  let (x3, x4, x9, x14) := quarterRound x3 x4 x9 x14
  ⟨x0, x1, x2, x3, x4, x5, x6, x7, x8, x9, x10, x11, x12, x13, x14, x15⟩

/-- `for (i = 10; i > 0; i --)`, src/chacha20.c:64. -/
def doubleRounds : Nat → X16 → X16
  | 0, x => x
  | n + 1, x => doubleRounds n (doubleRound x)

/-- `chacha20_ctx`, src/chacha20.h:8-13. -/
structure ChaCha where
  input : X16
  output : Bytes
  next : Nat
  ivLength : Nat
  deriving DecidableEq

/-- `chacha20_block`, src/chacha20.c:43-110: fills `output` and increments the counter. -/
def chachaBlock (c : ChaCha) : ChaCha :=
  let i := c.input
  let x := doubleRounds 10 i
  let output := toLE32 (x.x0 + i.x0) ++ toLE32 (x.x1 + i.x1) ++ toLE32 (x.x2 + i.x2)
    ++ toLE32 (x.x3 + i.x3) ++ toLE32 (x.x4 + i.x4) ++ toLE32 (x.x5 + i.x5)
    ++ toLE32 (x.x6 + i.x6) ++ toLE32 (x.x7 + i.x7) ++ toLE32 (x.x8 + i.x8)
    ++ toLE32 (x.x9 + i.x9) ++ toLE32 (x.x10 + i.x10) ++ toLE32 (x.x11 + i.x11)
    ++ toLE32 (x.x12 + i.x12) ++ toLE32 (x.x13 + i.x13) ++ toLE32 (x.x14 + i.x14)
    ++ toLE32 (x.x15 + i.x15)
  let x12 := i.x12 + 1
  let x13 := if x12 = 0 ∧ c.ivLength = 8 then i.x13 + 1 else i.x13
  { c with output := output, input := { i with x12 := x12, x13 := x13 } }

/-- One iteration of `chacha20_transform` / `chacha20_extract`, src/chacha20.c:112-132: the
keystream byte and the new context. (`next` is kept in a register during the loop.) -/
def chachaNext (c : ChaCha) : Option (Byte × ChaCha) :=
  let c := if c.next ≥ 64 then { chachaBlock c with next := 0 } else c
  match c.output[c.next]? with
  | none => none
  | some b => some (b, { c with next := c.next + 1 })

/-- ASCII bytes of a string. For the constants of src/chacha20.c:140. -/
def ascii (s : String) : Bytes := s.toList.map fun c => BitVec.ofNat 8 c.toNat

/-- `chacha20_init`, src/chacha20.c:134-168. `output` is uninitialised (`env.junk`). -/
def chachaInit (env : Env) (key iv : Bytes) (counter : W64) : ChaCha :=
  let constants := if key.length = 32 then ascii "expand 32-byte k" else ascii "expand 16-byte k"
  let key2 := if key.length = 32 then key.drop 16 else key
  { input :=
      { x0 := le32 constants, x1 := le32 (constants.drop 4), x2 := le32 (constants.drop 8),
        x3 := le32 (constants.drop 12),
        x4 := le32 key, x5 := le32 (key.drop 4), x6 := le32 (key.drop 8), x7 := le32 (key.drop 12),
        x8 := le32 key2, x9 := le32 (key2.drop 4), x10 := le32 (key2.drop 8),
        x11 := le32 (key2.drop 12),
        x12 := counter.setWidth 32,
        x13 := if iv.length = 8 then (counter >>> 32).setWidth 32 else le32 iv,
        x14 := if iv.length = 8 then le32 iv else le32 (iv.drop 4),
        x15 := if iv.length = 8 then le32 (iv.drop 4) else le32 (iv.drop 8) },
    output := env.create 64, next := 64, ivLength := iv.length }

/-- `wipe_bytes ckey` on the context. src/cryptokit.ml:1030-1031. -/
def ChaCha.wipe (c : ChaCha) : ChaCha :=
  { input := ⟨0, 0, 0, 0, 0, 0, 0, 0, 0, 0, 0, 0, 0, 0, 0, 0⟩, output := wipeBytes c.output,
    next := 0, ivLength := 0 }

/-- Class `chacha20`, src/cryptokit.ml:1010-1032. -/
def chacha20 : StreamCipher ChaCha := checkedStream chachaNext ChaCha.wipe

/-- `new chacha20 ?iv ?ctr key`, src/cryptokit.ml:1010-1023. `ctr < 0x1_000_000L` is a
signed comparison on `int64`. -/
def chacha20Init (env : Env) (key : Bytes) (iv : Option Bytes) (ctr : Option W64) :
    Except Exn ChaCha :=
  let ctr := ctr.getD 0
  if ¬ (key.length = 16 ∨ key.length = 32) then .error (.error .wrongKeySize)
  else
    match iv with
    | none => .ok (chachaInit env key (List.replicate 8 0) ctr)
    | some s =>
      if s.length = 8 ∨ (s.length = 12 ∧ ctr.toInt < 0x1000000) then
        .ok (chachaInit env key s ctr)
      else .error (.error .wrongIVSize)

/-! ### `Stream.cipher` -/

/-- State of class `Stream.cipher`, src/cryptokit.ml:1036-1040. -/
structure StreamSt (σ : Type) where
  c : σ
  charbuf : Bytes
  ob : OBuf

/-- `new Stream.cipher cipher`, src/cryptokit.ml:1036-1040. -/
def streamInit (env : Env) (s : σ) : StreamSt σ :=
  { c := s, charbuf := env.create 1, ob := OBuf.init env 256 }

/-- `self#ensure_capacity len; cipher#transform src ofs obuf oend len; oend <- oend + len`,
src/cryptokit.ml:1044-1047. -/
def streamPut (env : Env) (c : StreamCipher σ) (src : Bytes) (ofs len : Int) :
    M (StreamSt σ) Unit := do
  M.zoom (·.ob) (fun o t => { t with ob := o }) (OBuf.ensureCapacity env len)
  (fun st =>
    match c.transform (.other src) ofs st.ob.oend len (st.c, st.ob.obuf) with
    | .ok () (s, b) => .ok () { st with c := s, ob := { st.ob with obuf := b } }
    | .exn e (s, b) => .exn e { st with c := s, ob := { st.ob with obuf := b } }
    | .ub => .ub
    | .loop => .loop)
  -- `len >= 0` here: a negative `len` makes `transform` raise
  M.modify fun st => { st with ob := { st.ob with oend := st.ob.oend + len.toNat } }

/-- `put_char`, src/cryptokit.ml:1052-1056. -/
def streamPutChar (env : Env) (c : StreamCipher σ) (ch : Byte) : M (StreamSt σ) Unit := do
  let st ← M.get
  let cb ← M.orRaise .invalidArg (bytesSet st.charbuf 0 ch)
  M.modify fun st => { st with charbuf := cb }
  streamPut env c cb 0 1

/-- Methods of a transform that inherits from `buffered_output` its output methods.
src/cryptokit.ml:1044-1059. -/
structure PutMethods (τ : Type) where
  putSubstring : Bytes → Int → Int → M τ Unit
  putString : Bytes → M τ Unit
  putChar : Byte → M τ Unit
  putByte : Int → M τ Unit
  flush : M τ Unit
  finish : M τ Unit
  wipe : M τ Unit

/-- `inherit buffered_output`, src/cryptokit.ml:319-370: the output methods act on the
component `ob` of the state. -/
def inheritBuf (get : τ → OBuf) (set : OBuf → τ → τ) (p : PutMethods τ) : Transform τ where
  putSubstring := p.putSubstring
  putString := p.putString
  putChar := p.putChar
  putByte := p.putByte
  flush := p.flush
  finish := p.finish
  wipe := p.wipe
  availableOutput := M.zoom get set OBuf.availableOutput
  getString := M.zoom get set OBuf.getString
  getSubstring := M.zoom get set OBuf.getSubstring
  getChar := M.zoom get set OBuf.getChar
  getByte := M.zoom get set OBuf.getByte

/-- Class `Stream.cipher`, src/cryptokit.ml:1036-1068. -/
def streamTransform (env : Env) (c : StreamCipher σ) : Transform (StreamSt σ) :=
  inheritBuf (·.ob) (fun o t => { t with ob := o })
    { putSubstring := streamPut env c
      putString := fun s => streamPut env c s 0 s.length
      putChar := streamPutChar env c
      putByte := fun b => streamPutChar env c (BitVec.ofInt 8 b)
      flush := M.pure ()
      finish := M.pure ()
      wipe := do
        M.modify fun st => { st with c := c.wipe st.c }
        M.zoom (·.ob) (fun o t => { t with ob := o }) OBuf.wipe
        M.modify fun st => { st with charbuf := wipeBytes st.charbuf } }

end Verif
