import Verif.Model.Interrupt
import Verif.Model.Codec
/-
Asynchronous exceptions in modules `Base64` and `Hexa`. The interruptions to come are beside the state of the
object.
-/
namespace Verif

variable {κ : Type} [Ticking κ]

/-- The characters of `OBuf.emit`, src/cryptokit.ml:2264-2267, with interruption points. -/
def OBuf.setsI : Nat → Bytes → M (κ × OBuf) Unit
  | _, [] => poll
  | i, c :: cs => do
    poll
    let (_, o) ← M.get
    let b ← M.orRaise .invalidArg (bytesSet o.obuf (o.oend + i) c)
    OBuf.assign fun o => { o with obuf := b }
    OBuf.setsI (i + 1) cs

/-- `OBuf.emit`, src/cryptokit.ml:2263-2268 and similar, with interruption points. -/
def OBuf.emitI (env : Env) (cs : Bytes) : M (κ × OBuf) Unit := do
  OBuf.ensureCapacityI env cs.length
  OBuf.setsI 0 cs
  OBuf.assign fun o => { o with oend := o.oend + cs.length }
  poll

namespace Codec

/-- The instance variables. src/cryptokit.ml:2252-2254. -/
def self : M (κ × τ) τ := fun p => .ok p.2 p

/-- Assignment to instance variables. src/cryptokit.ml:2257-2258. -/
def assignI (f : τ → τ) : M (κ × τ) Unit := M.modify fun p => (p.1, f p.2)

/-- A method of `buffered_output`. src/cryptokit.ml:2250, 2341, 2411, 2446. -/
def outI (get : τ → OBuf) (set : OBuf → τ → τ) (m : M (κ × OBuf) α) : M (κ × τ) α :=
  M.zoom (fun p : κ × τ => (p.1, get p.2)) (fun r p => (r.1, set r.2 p.2)) m

/-- The methods inherited from `buffered_output`, with interruption points. src/cryptokit.ml:2250, 2341,
2411, 2446. -/
def inheritI (get : τ → OBuf) (set : OBuf → τ → τ) (p : PutMethods (κ × τ)) : Transform (κ × τ) where
  putSubstring := p.putSubstring
  putString := p.putString
  putChar := p.putChar
  putByte := p.putByte
  flush := p.flush
  finish := p.finish
  wipe := p.wipe
  availableOutput := outI get set OBuf.availableOutputI
  getString := outI get set OBuf.getStringI
  getSubstring := outI get set OBuf.getSubstringI
  getChar := outI get set OBuf.getCharI
  getByte := outI get set OBuf.getByteI

end Codec

open Codec

namespace B64

/-- `Enc.out`, src/cryptokit.ml:2250, with interruption points. -/
def Enc.outI (m : M (κ × OBuf) α) : M (κ × Enc) α := Codec.outI (·.ob) (fun o t => { t with ob := o }) m

/-- `encGroup`, src/cryptokit.ml:2260-2276, with interruption points. -/
def encGroupI (env : Env) (multiline : Bool) : M (κ × Enc) Unit := do
  let t ← self
  let b0 ← M.orRaise .invalidArg (bytesGet t.ibuf 0)
  let b1 ← M.orRaise .invalidArg (bytesGet t.ibuf 1)
  let b2 ← M.orRaise .invalidArg (bytesGet t.ibuf 2)
  let cs ← M.orRaise .invalidArg (charsAt convTable
    [lsr b0 2, land b0 2 * 2 ^ 4 + lsr b1 4, land b1 4 * 2 ^ 2 + lsr b2 6, land b2 6])
  Enc.outI (OBuf.emitI env cs)
  assignI fun t => { t with ipos := 0 }
  poll
  assignI fun t => { t with ocolumn := t.ocolumn + 4 }
  poll
  let t ← self
  if multiline ∧ t.ocolumn ≥ 72 then
    Enc.outI (OBuf.emitI env (ascii "\n"))
    assignI fun t => { t with ocolumn := 0 }
    poll

/-- `put_char`, src/cryptokit.ml:2256-2277, with interruption points. -/
def encPutCharI (env : Env) (multiline : Bool) (c : Byte) : M (κ × Enc) Unit := do
  poll
  let t ← self
  let ib ← M.orRaise .invalidArg (bytesSet t.ibuf t.ipos c)
  assignI fun t => { t with ibuf := ib }
  poll
  assignI fun t => { t with ipos := t.ipos + 1 }
  poll
  let t ← self
  if t.ipos = 3 then encGroupI env multiline

/-- `encRest`, src/cryptokit.ml:2290-2306, with interruption points (all in `emitI`). -/
def encRestI : M (κ × Enc) Bytes := M.zoom (·.2) (fun t p => (p.1, t)) encRest

/-- `encPad`, src/cryptokit.ml:2307-2313, with interruption points. -/
def encPadI (env : Env) (multiline padding : Bool) : M (κ × Enc) Unit := do
  let t ← self
  if multiline ∨ padding then
    Enc.outI (OBuf.emitI env (List.replicate (numEquals t.ipos) (61 : Byte)))

/-- `encNewline`, src/cryptokit.ml:2314-2318, with interruption points. -/
def encNewlineI (env : Env) (multiline : Bool) : M (κ × Enc) Unit := do
  let t ← self
  if multiline ∧ t.ocolumn > 0 then
    Enc.outI (OBuf.emitI env (ascii "\n"))

/-- `finish`, src/cryptokit.ml:2289-2319, with interruption points. -/
def encFinishI (env : Env) (multiline padding : Bool) : M (κ × Enc) Unit := do
  poll
  let cs ← encRestI
  Enc.outI (OBuf.emitI env cs)
  encPadI env multiline padding
  encNewlineI env multiline
  assignI fun t => { t with ocolumn := 0 }
  poll

/-- `wipe`, src/cryptokit.ml:2321-2322, with interruption points. -/
def encWipeI : M (κ × Enc) Unit := do
  poll
  assignI fun t => { t with ibuf := wipeBytes t.ibuf }
  Enc.outI OBuf.wipeI

/-- Class `encode`, src/cryptokit.ml:2245-2323, with interruption points. -/
def encodeI (env : Env) (multiline padding : Bool) : Transform (κ × Enc) :=
  inheritI (·.ob) (fun o t => { t with ob := o })
    (charMethods (encPutCharI env multiline) (putByteChr (encPutCharI env multiline))
      (M.raise (.error .wrongDataLength)) (encFinishI env multiline padding) encWipeI)

/-- `Dec.out`, src/cryptokit.ml:2341, with interruption points. -/
def Dec.outI (m : M (κ × OBuf) α) : M (κ × Dec) α := Codec.outI (·.ob) (fun o t => { t with ob := o }) m

/-- `decGroup`, src/cryptokit.ml:2359-2366, with interruption points. -/
def decGroupI (env : Env) : M (κ × Dec) Unit := do
  let t ← self
  let a0 ← M.orRaise .invalidArg (t.at 0)
  let a1 ← M.orRaise .invalidArg (t.at 1)
  let a2 ← M.orRaise .invalidArg (t.at 2)
  let a3 ← M.orRaise .invalidArg (t.at 3)
  let c0 ← M.orRaise .invalidArg (byte0 a0 a1)
  let c1 ← M.orRaise .invalidArg (byte1 a1 a2)
  let c2 ← M.orRaise .invalidArg (byte2 a2 a3)
  Dec.outI (OBuf.emitI env [c0, c1, c2])
  assignI fun t => { t with ipos := 0 }
  poll

/-- `decDigit`, src/cryptokit.ml:2356-2366, with interruption points. -/
def decDigitI (env : Env) (n : Int) : M (κ × Dec) Unit := do
  let t ← self
  if t.finished then M.raise (.error .badEncoding)
  else if t.ipos ≥ t.ibuf.length then M.raise .invalidArg
  else do
    assignI fun t => { t with ibuf := t.ibuf.set t.ipos n.toNat }
    poll
    assignI fun t => { t with ipos := t.ipos + 1 }
    poll
    let t ← self
    if t.ipos = 4 then decGroupI env

/-- `put_char`, src/cryptokit.ml:2350-2366, with interruption points. -/
def decPutCharI (env : Env) (c : Byte) : M (κ × Dec) Unit := do
  poll
  if c = (61 : Byte) then do
    assignI fun t => { t with finished := true }
    poll
  else do
    let n ← ofExcept (decodeChar c)
    if n ≥ 0 then decDigitI env n

/-- `finish`, src/cryptokit.ml:2378-2391, with interruption points. -/
def decFinishI (env : Env) : M (κ × Dec) Unit := do
  poll
  assignI fun t => { t with finished := true }
  poll
  let cs ← M.zoom (·.2) (fun t p => (p.1, t)) decRest
  Dec.outI (OBuf.emitI env cs)

/-- `wipe`, src/cryptokit.ml:2393-2394, with interruption points. -/
def decWipeI : M (κ × Dec) Unit := do
  poll
  assignI fun t => { t with ibuf := t.ibuf.map fun _ => 0 }
  Dec.outI OBuf.wipeI

/-- Class `decode`, src/cryptokit.ml:2339-2395, with interruption points. -/
def decodeI (env : Env) : Transform (κ × Dec) :=
  inheritI (·.ob) (fun o t => { t with ob := o })
    (charMethods (decPutCharI env) (putByteChr (decPutCharI env))
      (M.raise (.error .wrongDataLength)) (decFinishI env) decWipeI)

end B64

namespace Hex

/-- `put_byte` of class `encode`, src/cryptokit.ml:2414-2418, with interruption points. -/
def encPutByteI (env : Env) (b : Int) : M (κ × OBuf) Unit := do
  poll
  OBuf.ensureCapacityI env 2
  poll
  let cs ← M.orRaise .invalidArg
    (if b < 0 then none else charsAt convTable [b / 16, b % 16])
  OBuf.emitI env cs

/-- Class `encode`, src/cryptokit.ml:2407-2432, with interruption points. -/
def encodeI (env : Env) : Transform (κ × OBuf) :=
  inheritI id (fun o _ => o)
    (charMethods (fun c => encPutByteI env c.toNat) (encPutByteI env) poll poll OBuf.wipeI)

/-- `Dec.out`, src/cryptokit.ml:2446, with interruption points. -/
def Dec.outI (m : M (κ × OBuf) α) : M (κ × Dec) α := Codec.outI (·.ob) (fun o t => { t with ob := o }) m

/-- `decGroup`, src/cryptokit.ml:2459-2464, with interruption points. -/
def decGroupI (env : Env) : M (κ × Dec) Unit := do
  let t ← self
  let a0 ← M.orRaise .invalidArg t.ibuf[0]?
  let a1 ← M.orRaise .invalidArg t.ibuf[1]?
  let c ← M.orRaise .invalidArg (charChr ((a0 * 16 ||| a1 : Nat) : Int))
  Dec.outI (OBuf.emitI env [c])
  assignI fun t => { t with ipos := 0 }
  poll

/-- `decDigit`, src/cryptokit.ml:2457-2464, with interruption points. -/
def decDigitI (env : Env) (n : Int) : M (κ × Dec) Unit := do
  let t ← self
  if t.ipos ≥ t.ibuf.length then M.raise .invalidArg
  else do
    assignI fun t => { t with ibuf := t.ibuf.set t.ipos n.toNat }
    poll
    assignI fun t => { t with ipos := t.ipos + 1 }
    poll
    let t ← self
    if t.ipos = 2 then decGroupI env

/-- `put_char`, src/cryptokit.ml:2454-2465, with interruption points. -/
def decPutCharI (env : Env) (c : Byte) : M (κ × Dec) Unit := do
  poll
  let n ← ofExcept (decodeChar c)
  if n ≥ 0 then decDigitI env n

/-- `flush`, src/cryptokit.ml:2475-2476, with interruption points. -/
def decFlushI : M (κ × Dec) Unit := do
  poll
  let t ← self
  if t.ipos ≠ 0 then M.raise (.error .wrongDataLength)

/-- `finish`, src/cryptokit.ml:2478-2479, with interruption points. -/
def decFinishI : M (κ × Dec) Unit := do
  poll
  let t ← self
  if t.ipos ≠ 0 then M.raise (.error .badEncoding)

/-- `wipe`, src/cryptokit.ml:2481-2482, with interruption points. -/
def decWipeI : M (κ × Dec) Unit := do
  poll
  assignI fun t => { t with ibuf := t.ibuf.map fun _ => 0 }
  Dec.outI OBuf.wipeI

/-- Class `decode`, src/cryptokit.ml:2444-2483, with interruption points. -/
def decodeI (env : Env) : Transform (κ × Dec) :=
  inheritI (·.ob) (fun o t => { t with ob := o })
    (charMethods (decPutCharI env) (putByteChr (decPutCharI env)) decFlushI decFinishI decWipeI)

end Hex
end Verif
