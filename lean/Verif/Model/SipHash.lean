import Verif.Model.Hash
/-
SipHash-2-4: src/siphash.c, src/stubs-siphash.c, class `MAC.siphash`.
-/
namespace Verif

/-- The fields `v0` ... `v3`, src/siphash.h:17. -/
structure SipState where
  v0 : W64
  v1 : W64
  v2 : W64
  v3 : W64
  deriving DecidableEq

/-- `siphash_round`, src/siphash.c:69-85. -/
def sipRound (st : SipState) : SipState :=
  let st := { st with v0 := st.v0 + st.v1 }
  let st := { st with v1 := rol64 st.v1 13 }
  let st := { st with v1 := st.v1 ^^^ st.v0 }
  let st := { st with v0 := rol64 st.v0 32 }
  let st := { st with v2 := st.v2 + st.v3 }
  let st := { st with v3 := rol64 st.v3 16 }
  let st := { st with v3 := st.v3 ^^^ st.v2 }
  let st := { st with v0 := st.v0 + st.v3 }
  let st := { st with v3 := rol64 st.v3 21 }
  let st := { st with v3 := st.v3 ^^^ st.v0 }
  let st := { st with v2 := st.v2 + st.v1 }
  let st := { st with v1 := rol64 st.v1 17 }
  let st := { st with v1 := st.v1 ^^^ st.v2 }
  { st with v2 := rol64 st.v2 32 }

/-- `siphash_mix`, src/siphash.c:87-93. -/
def sipMix (st : SipState) (x : W64) : SipState :=
  let st := { st with v3 := st.v3 ^^^ x }
  let st := sipRound st
  let st := sipRound st
  { st with v0 := st.v0 ^^^ x }

/-- `struct siphash`, src/siphash.h:16-21. -/
structure SipCtx where
  buf : MDBuf SipState
  len8 : BitVec 8
  deriving DecidableEq

/-- `siphash_init`, src/siphash.c:52-67; `buf0` is the initial contents of the allocated buffer. -/
def sipInit (key : Bytes) (outlen : Nat) (buf0 : Bytes) : SipCtx :=
  let k0 := le64or key
  let k1 := le64or (key.drop 8)
  let st : SipState := ⟨0x736f6d6570736575, 0x646f72616e646f6d, 0x6c7967656e657261, 0x7465646279746573⟩
  let st := { st with v3 := st.v3 ^^^ k1 }
  let st := { st with v2 := st.v2 ^^^ k0 }
  let st := { st with v1 := st.v1 ^^^ k1 }
  let st := { st with v0 := st.v0 ^^^ k0 }
  let st := if outlen = 16 then { st with v1 := st.v1 ^^^ 0xEE } else st
  ⟨⟨st, 0, buf0⟩, 0⟩

/-- `siphash_mix(st, U8TO64_LE(p))`. src/siphash.c:108, 113. -/
def sipBlock (st : SipState) (p : Bytes) : SipState := sipMix st (le64or p)

/-- `siphash_add`, src/siphash.c:95-119. The loop and the saving of the rest (lines 112-118) are
those of `mdTail`. -/
def sipAdd (c : SipCtx) (data : Bytes) : Option SipCtx :=
  let len8 := c.len8 + BitVec.ofNat 8 data.length
  let free := 8 - c.buf.numbytes
  if data.length < free then
    match cWrite c.buf.buffer c.buf.numbytes data with
    | none => none
    | some b => some ⟨{ c.buf with buffer := b, numbytes := c.buf.numbytes + data.length }, len8⟩
  else if c.buf.numbytes > 0 then
    match cWrite c.buf.buffer c.buf.numbytes (data.take free) with
    | none => none
    | some b =>
      (mdTail 8 false sipBlock { c.buf with buffer := b, h := sipBlock c.buf.h b } (data.drop free)).map
        fun buf => ⟨buf, len8⟩
  else (mdTail 8 false sipBlock c.buf data).map fun buf => ⟨buf, len8⟩

/-- `siphash_final_rounds`, src/siphash.c:121-127. -/
def sipFinalRounds (st : SipState) : SipState × W64 :=
  let st := sipRound (sipRound (sipRound (sipRound st)))
  (st, st.v0 ^^^ st.v1 ^^^ st.v2 ^^^ st.v3)

/-- The last word, src/siphash.c:134-144. -/
def sipLast (len8 : BitVec 8) (buffer : Bytes) : W64 :=
  (List.range (len8 &&& 7).toNat).reverse.foldl
    (fun w i => w ||| ((byteAt buffer i).setWidth 64 <<< (8 * i))) (len8.setWidth 64 <<< 56)

/-- `siphash_final`, src/siphash.c:129-154, into a string of `outlen` bytes. -/
def sipFinal (outlen : Nat) (c : SipCtx) : Option (Bytes × SipCtx) :=
  let st := sipMix c.buf.h (sipLast c.len8 c.buf.buffer)
  let st := { st with v2 := st.v2 ^^^ (if outlen = 16 then 0xEE else 0xFF) }
  let (st, r) := sipFinalRounds st
  match cWrite (List.replicate outlen 0) 0 (toLE64 r) with
  | none => none
  | some out =>
    if outlen = 16 then
      let st := { st with v1 := st.v1 ^^^ 0xDD }
      let (st, r) := sipFinalRounds st
      match cWrite out 8 (toLE64 r) with
      | none => none
      | some out => some (out, { c with buf := { c.buf with h := st } })
    else some (out, { c with buf := { c.buf with h := st } })

/-- `wipe_bytes` of the context. src/cryptokit.ml:1524. -/
def sipWipe (c : SipCtx) : SipCtx := ⟨⟨⟨0, 0, 0, 0⟩, 0, wipeBytes c.buf.buffer⟩, 0⟩

/-- Class `siphash`, src/cryptokit.ml:1505-1525. -/
def sipClass (sz : Int) : HashObj SipCtx :=
  stubHash (sz / 8).toNat sipAdd (sipFinal (sz / 8).toNat) sipWipe

/-- `new siphash sz key`, src/cryptokit.ml:1507-1510. -/
def sipNew (sz : Int) (key : Bytes) (buf0 : Bytes) : Except Exn SipCtx :=
  if key.length = 16 ∧ (sz = 64 ∨ sz = 128) then .ok (sipInit key (sz / 8).toNat buf0)
  else .error (.error .wrongKeySize)

end Verif
