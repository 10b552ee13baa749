import Verif.Model.Stream
/-
Modules `Base64` and `Hexa` of src/cryptokit.ml:2238-2487.
-/
namespace Verif

/-- `self#ensure_capacity n; Bytes.set obuf oend c0; ...; Bytes.set obuf (oend + n-1) cn;
oend <- oend + n`: the idiom by which these classes output the characters `c0 ... cn`
(src/cryptokit.ml:2264-2269 and similar). The characters are those computed by the arguments
of `Bytes.set`; they do not depend on the buffer. -/
def OBuf.emit (env : Env) (cs : Bytes) : M OBuf Unit := do
  OBuf.ensureCapacity env cs.length
  let rec sets : Nat → Bytes → M OBuf Unit
    | _, [] => pure ()
    | i, c :: cs => do
      let o ← M.get
      let b ← M.orRaise .invalidArg (bytesSet o.obuf (o.oend + i) c)
      M.modify fun o => { o with obuf := b }
      sets (i + 1) cs
  sets 0 cs
  M.modify fun o => { o with oend := o.oend + cs.length }

/-- `Char.chr`. Used at src/cryptokit.ml:2285, 2359. -/
def charChr (n : Int) : Option Byte := if 0 ≤ n ∧ n < 256 then some (BitVec.ofInt 8 n) else none

/-- `s.[i]` for every index in a list. For the loops of src/cryptokit.ml:2280, 2423. -/
def charsAt (s : Bytes) (is : List Int) : Option Bytes := is.mapM (bytesGet s)

/-- `for i = ofs to ofs + len - 1 do self#put_char (Bytes.get s i) done`,
src/cryptokit.ml:2279-2280, 2368-2369, 2422-2423, 2467-2468; `n` iterations left. -/
def putLoop (put : Byte → M τ Unit) (s : Bytes) : (i : Int) → (n : Nat) → M τ Unit
  | _, 0 => pure ()
  | i, n + 1 => do
    let c ← M.orRaise .invalidArg (bytesGet s i)
    put c
    putLoop put s (i + 1) n

/-- `String.iter self#put_char s`. src/cryptokit.ml:2283, 2372, 2426, 2471. -/
def iterChars (put : Byte → M τ Unit) : Bytes → M τ Unit
  | [] => pure ()
  | c :: s => do
    put c
    iterChars put s

/-- The methods `put_substring` and `put_string` of these classes, in terms of `put_char`.
src/cryptokit.ml:2279-2283, 2422-2426. -/
def charMethods (put : Byte → M τ Unit) (putByte : Int → M τ Unit) (flush finish wipe : M τ Unit) :
    PutMethods τ where
  putSubstring s ofs len := putLoop put s ofs len.toNat
  putString := iterChars put
  putChar := put
  putByte := putByte
  flush := flush
  finish := finish
  wipe := wipe

/-- `method put_byte b = self#put_char (Char.chr b)`, src/cryptokit.ml:2285, 2374, 2473. -/
def putByteChr (put : Byte → M τ Unit) (b : Int) : M τ Unit := do
  let c ← M.orRaise .invalidArg (charChr b)
  put c

namespace B64

/-- `base64_conv_table`, src/cryptokit.ml:2242-2243. -/
def convTable : Bytes := ascii "ABCDEFGHIJKLMNOPQRSTUVWXYZabcdefghijklmnopqrstuvwxyz0123456789+/"

/-- Class `encode`, src/cryptokit.ml:2245-2254: the instance variables. -/
structure Enc where
  ibuf : Bytes
  ipos : Nat
  ocolumn : Nat
  ob : OBuf

/-- `new encode multiline padding`, src/cryptokit.ml:2245-2254. -/
def encInit (env : Env) : Enc := ⟨env.create 3, 0, 0, OBuf.init env 256⟩

/-- A method of `buffered_output`. src/cryptokit.ml:2250. -/
def Enc.out (m : M OBuf α) : M Enc α := M.zoom (·.ob) (fun o t => { t with ob := o }) m

/-- `b land m` for `m = 2^k - 1`. Used at src/cryptokit.ml:2265-2267. -/
def land (b : Byte) (k : Nat) : Int := b.toNat % 2 ^ k
/-- `b lsr k`. Used at src/cryptokit.ml:2264-2266. -/
def lsr (b : Byte) (k : Nat) : Int := b.toNat / 2 ^ k

/-- The body of `if ipos = 3` in `put_char`, src/cryptokit.ml:2260-2276. -/
def encGroup (env : Env) (multiline : Bool) : M Enc Unit := do
  let t ← M.get
  let b0 ← M.orRaise .invalidArg (bytesGet t.ibuf 0)
  let b1 ← M.orRaise .invalidArg (bytesGet t.ibuf 1)
  let b2 ← M.orRaise .invalidArg (bytesGet t.ibuf 2)
  let cs ← M.orRaise .invalidArg (charsAt convTable
    [lsr b0 2, land b0 2 * 2 ^ 4 + lsr b1 4, land b1 4 * 2 ^ 2 + lsr b2 6, land b2 6])
  Enc.out (OBuf.emit env cs)
  M.modify fun t => { t with ipos := 0, ocolumn := t.ocolumn + 4 }
  let t ← M.get
  if multiline ∧ t.ocolumn ≥ 72 then
    Enc.out (OBuf.emit env (ascii "\n"))
    M.modify fun t => { t with ocolumn := 0 }

/-- `put_char`, src/cryptokit.ml:2256-2277. -/
def encPutChar (env : Env) (multiline : Bool) (c : Byte) : M Enc Unit := do
  let t ← M.get
  let ib ← M.orRaise .invalidArg (bytesSet t.ibuf t.ipos c)
  M.modify fun t => { t with ibuf := ib, ipos := t.ipos + 1 }
  let t ← M.get
  if t.ipos = 3 then encGroup env multiline

/-- The characters of the last, incomplete group: src/cryptokit.ml:2290-2306. -/
def encRest : M Enc Bytes := do
  let t ← M.get
  match t.ipos with
  | 1 => do
    let b0 ← M.orRaise .invalidArg (bytesGet t.ibuf 0)
    M.orRaise .invalidArg (charsAt convTable [lsr b0 2, land b0 2 * 2 ^ 4])
  | 2 => do
    let b0 ← M.orRaise .invalidArg (bytesGet t.ibuf 0)
    let b1 ← M.orRaise .invalidArg (bytesGet t.ibuf 1)
    M.orRaise .invalidArg (charsAt convTable
      [lsr b0 2, land b0 2 * 2 ^ 4 + lsr b1 4, land b1 4 * 2 ^ 2])
  | _ => pure []

/-- `num_equals`, src/cryptokit.ml:2308-2309. -/
def numEquals (ipos : Nat) : Nat :=
  match ipos with
  | 1 => 2
  | 2 => 1
  | _ => 0

/-- The padding, src/cryptokit.ml:2307-2313. -/
def encPad (env : Env) (multiline padding : Bool) : M Enc Unit := do
  let t ← M.get
  if multiline ∨ padding then
    Enc.out (OBuf.emit env (List.replicate (numEquals t.ipos) (61 : Byte)))

/-- The last newline, src/cryptokit.ml:2314-2318. -/
def encNewline (env : Env) (multiline : Bool) : M Enc Unit := do
  let t ← M.get
  if multiline ∧ t.ocolumn > 0 then
    Enc.out (OBuf.emit env (ascii "\n"))

/-- `finish`, src/cryptokit.ml:2289-2319. (With no character to output, `ensure_capacity` is not
called in the real code; `ensure_capacity 0` has no effect.) -/
def encFinish (env : Env) (multiline padding : Bool) : M Enc Unit := do
  let cs ← encRest
  Enc.out (OBuf.emit env cs)
  encPad env multiline padding
  encNewline env multiline
  M.modify fun t => { t with ocolumn := 0 }

/-- `wipe`, src/cryptokit.ml:2321-2322. -/
def encWipe : M Enc Unit := do
  M.modify fun t => { t with ibuf := wipeBytes t.ibuf }
  Enc.out OBuf.wipe

/-- Class `encode`, src/cryptokit.ml:2245-2323, and the three functions 2325-2327. -/
def encode (env : Env) (multiline padding : Bool) : Transform Enc :=
  inheritBuf (·.ob) (fun o t => { t with ob := o })
    (charMethods (encPutChar env multiline) (putByteChr (encPutChar env multiline))
      (M.raise (.error .wrongDataLength)) (encFinish env multiline padding) encWipe)

/-- `base64_decode_char`, src/cryptokit.ml:2329-2337. -/
def decodeChar (c : Byte) : Except Exn Int :=
  let n : Int := c.toNat
  if 65 ≤ n ∧ n ≤ 90 then .ok (n - 65)
  else if 97 ≤ n ∧ n ≤ 122 then .ok (n - 97 + 26)
  else if 48 ≤ n ∧ n ≤ 57 then .ok (n - 48 + 52)
  else if n = 43 then .ok 62
  else if n = 47 then .ok 63
  else if n = 32 ∨ n = 9 ∨ n = 10 ∨ n = 13 then .ok (-1)
  else .error (.error .badEncoding)

/-- Class `decode`, src/cryptokit.ml:2339-2348: the instance variables (`ibuf` holds
non-negative integers). -/
structure Dec where
  ibuf : List Nat
  ipos : Nat
  finished : Bool
  ob : OBuf

/-- `new decode`, src/cryptokit.ml:2339-2348. -/
def decInit (env : Env) : Dec := ⟨List.replicate 4 0, 0, false, OBuf.init env 256⟩

/-- A method of `buffered_output`. src/cryptokit.ml:2341. -/
def Dec.out (m : M OBuf α) : M Dec α := M.zoom (·.ob) (fun o t => { t with ob := o }) m

/-- `ibuf.(i)`. src/cryptokit.ml:2359. -/
def Dec.at (t : Dec) (i : Nat) : Option Int := t.ibuf[i]?.map (fun n => (n : Int))

/-- First byte of a group, src/cryptokit.ml:2359. -/
def byte0 (a0 a1 : Int) : Option Byte := charChr (a0 * 4 + a1 / 16)
/-- Second byte of a group, src/cryptokit.ml:2360. -/
def byte1 (a1 a2 : Int) : Option Byte := charChr (a1 % 16 * 16 + a2 / 4)
/-- Third byte of a group, src/cryptokit.ml:2361. -/
def byte2 (a2 a3 : Int) : Option Byte := charChr (a2 % 4 * 64 + a3)

/-- The body of `if ipos = 4` in `put_char`, src/cryptokit.ml:2359-2366. -/
def decGroup (env : Env) : M Dec Unit := do
  let t ← M.get
  let a0 ← M.orRaise .invalidArg (t.at 0)
  let a1 ← M.orRaise .invalidArg (t.at 1)
  let a2 ← M.orRaise .invalidArg (t.at 2)
  let a3 ← M.orRaise .invalidArg (t.at 3)
  let c0 ← M.orRaise .invalidArg (byte0 a0 a1)
  let c1 ← M.orRaise .invalidArg (byte1 a1 a2)
  let c2 ← M.orRaise .invalidArg (byte2 a2 a3)
  Dec.out (OBuf.emit env [c0, c1, c2])
  M.modify fun t => { t with ipos := 0 }

/-- `ibuf.(ipos) <- n; ipos <- ipos + 1; if ipos = 4 ...`, src/cryptokit.ml:2356-2366. -/
def decDigit (env : Env) (n : Int) : M Dec Unit := do
  let t ← M.get
  if t.finished then M.raise (.error .badEncoding)
  else if t.ipos ≥ t.ibuf.length then M.raise .invalidArg
  else do
    M.modify fun t => { t with ibuf := t.ibuf.set t.ipos n.toNat, ipos := t.ipos + 1 }
    let t ← M.get
    if t.ipos = 4 then decGroup env

/-- `put_char`, src/cryptokit.ml:2350-2366. -/
def decPutChar (env : Env) (c : Byte) : M Dec Unit :=
  if c = (61 : Byte) then M.modify fun t => { t with finished := true }
  else do
    let n ← ofExcept (decodeChar c)
    if n ≥ 0 then decDigit env n

/-- The bytes of the last, incomplete group: src/cryptokit.ml:2380-2391. -/
def decRest : M Dec Bytes := do
  let t ← M.get
  match t.ipos with
  | 1 => M.raise (.error .badEncoding)
  | 2 => do
    let a0 ← M.orRaise .invalidArg (t.at 0)
    let a1 ← M.orRaise .invalidArg (t.at 1)
    let c0 ← M.orRaise .invalidArg (byte0 a0 a1)
    pure [c0]
  | 3 => do
    let a0 ← M.orRaise .invalidArg (t.at 0)
    let a1 ← M.orRaise .invalidArg (t.at 1)
    let a2 ← M.orRaise .invalidArg (t.at 2)
    let c0 ← M.orRaise .invalidArg (byte0 a0 a1)
    let c1 ← M.orRaise .invalidArg (byte1 a1 a2)
    pure [c0, c1]
  | _ => pure []

/-- `finish`, src/cryptokit.ml:2378-2391. -/
def decFinish (env : Env) : M Dec Unit := do
  M.modify fun t => { t with finished := true }
  let cs ← decRest
  Dec.out (OBuf.emit env cs)

/-- `wipe`, src/cryptokit.ml:2393-2394. -/
def decWipe : M Dec Unit := do
  M.modify fun t => { t with ibuf := t.ibuf.map fun _ => 0 }
  Dec.out OBuf.wipe

/-- Class `decode`, src/cryptokit.ml:2339-2395. -/
def decode (env : Env) : Transform Dec :=
  inheritBuf (·.ob) (fun o t => { t with ob := o })
    (charMethods (decPutChar env) (putByteChr (decPutChar env))
      (M.raise (.error .wrongDataLength)) (decFinish env) decWipe)

end B64

namespace Hex

/-- `hex_conv_table`, src/cryptokit.ml:2405. -/
def convTable : Bytes := ascii "0123456789abcdef"

/-- `put_byte` of class `encode`, src/cryptokit.ml:2414-2418. `b lsr 4` of a negative `b` is
larger than any index. (`emit` calls `ensure_capacity` again, which has no effect then.) -/
def encPutByte (env : Env) (b : Int) : M OBuf Unit := do
  OBuf.ensureCapacity env 2
  let cs ← M.orRaise .invalidArg
    (if b < 0 then none else charsAt convTable [b / 16, b % 16])
  OBuf.emit env cs

/-- `put_char` of class `encode`, src/cryptokit.ml:2420. -/
def encPutChar (env : Env) (c : Byte) : M OBuf Unit := encPutByte env c.toNat

/-- Class `encode`, src/cryptokit.ml:2407-2432: its only state is the output buffer. -/
def encode (env : Env) : Transform OBuf :=
  inheritBuf id (fun o _ => o)
    (charMethods (encPutChar env) (encPutByte env) (M.pure ()) (M.pure ()) OBuf.wipe)

/-- `new encode`: `inherit buffered_output 256`, src/cryptokit.ml:2408-2411. -/
def encInit (env : Env) : OBuf := OBuf.init env 256

/-- `hex_decode_char`, src/cryptokit.ml:2436-2442. -/
def decodeChar (c : Byte) : Except Exn Int :=
  let n : Int := c.toNat
  if 48 ≤ n ∧ n ≤ 57 then .ok (n - 48)
  else if 65 ≤ n ∧ n ≤ 70 then .ok (n - 65 + 10)
  else if 97 ≤ n ∧ n ≤ 102 then .ok (n - 97 + 10)
  else if n = 32 ∨ n = 9 ∨ n = 10 ∨ n = 13 then .ok (-1)
  else .error (.error .badEncoding)

/-- Class `decode`, src/cryptokit.ml:2444-2452: the instance variables. -/
structure Dec where
  ibuf : List Nat
  ipos : Nat
  ob : OBuf

/-- `new decode`, src/cryptokit.ml:2444-2450. -/
def decInit (env : Env) : Dec := ⟨List.replicate 2 0, 0, OBuf.init env 256⟩

/-- A method of `buffered_output`. src/cryptokit.ml:2446. -/
def Dec.out (m : M OBuf α) : M Dec α := M.zoom (·.ob) (fun o t => { t with ob := o }) m

/-- The body of `if ipos = 2`, src/cryptokit.ml:2459-2464; `lor` is `Nat.lor`. -/
def decGroup (env : Env) : M Dec Unit := do
  let t ← M.get
  let a0 ← M.orRaise .invalidArg t.ibuf[0]?
  let a1 ← M.orRaise .invalidArg t.ibuf[1]?
  let c ← M.orRaise .invalidArg (charChr ((a0 * 16 ||| a1 : Nat) : Int))
  Dec.out (OBuf.emit env [c])
  M.modify fun t => { t with ipos := 0 }

/-- `ibuf.(ipos) <- n; ipos <- ipos + 1; if ipos = 2 ...`, src/cryptokit.ml:2457-2464. -/
def decDigit (env : Env) (n : Int) : M Dec Unit := do
  let t ← M.get
  if t.ipos ≥ t.ibuf.length then M.raise .invalidArg
  else do
    M.modify fun t => { t with ibuf := t.ibuf.set t.ipos n.toNat, ipos := t.ipos + 1 }
    let t ← M.get
    if t.ipos = 2 then decGroup env

/-- `put_char`, src/cryptokit.ml:2454-2465. -/
def decPutChar (env : Env) (c : Byte) : M Dec Unit := do
  let n ← ofExcept (decodeChar c)
  if n ≥ 0 then decDigit env n

/-- `flush`, src/cryptokit.ml:2475-2476. -/
def decFlush : M Dec Unit := do
  let t ← M.get
  if t.ipos ≠ 0 then M.raise (.error .wrongDataLength)

/-- `finish`, src/cryptokit.ml:2478-2479. -/
def decFinish : M Dec Unit := do
  let t ← M.get
  if t.ipos ≠ 0 then M.raise (.error .badEncoding)

/-- `wipe`, src/cryptokit.ml:2481-2482. -/
def decWipe : M Dec Unit := do
  M.modify fun t => { t with ibuf := t.ibuf.map fun _ => 0 }
  Dec.out OBuf.wipe

/-- Class `decode`, src/cryptokit.ml:2444-2483. -/
def decode (env : Env) : Transform Dec :=
  inheritBuf (·.ob) (fun o t => { t with ob := o })
    (charMethods (decPutChar env) (putByteChr (decPutChar env)) decFlush decFinish decWipe)

end Hex
end Verif
