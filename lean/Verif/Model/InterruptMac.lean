import Verif.Model.Interrupt
import Verif.Model.MacEntry
/-
The MACs built from block ciphers with interruption points (see Model/Interrupt): src/cryptokit.ml:876-981
and 1472-1503.
-/
namespace Verif

instance [Ticking σ] : Ticking (MacSt σ) where
  tick st := ((Ticking.tick st.c).1, { st with c := (Ticking.tick st.c).2 })

instance [Ticking σ] : Ticking (Mac3St σ σ2 σ3) where
  tick st := ((Ticking.tick st.m).1, { st with m := (Ticking.tick st.m).2 })

instance [Ticking σ] : Ticking (CmacSt σ) where
  tick st := ((Ticking.tick st.m).1, { st with m := (Ticking.tick st.m).2 })

section mac

variable {σ : Type} [Ticking σ]

/-- `xor_bytes iv 0 buffer 0 blocksize; cipher#transform buffer 0 iv 0`,
src/cryptokit.ml:895-896, 911-912, 927-928, 937-938, with interruption points. -/
def macBlockI (c : BlockCipher σ) : M (MacSt σ) Unit := do
  let st ← M.get
  macXor c st.iv
  poll
  macCall c
  poll

/-- `...; used <- 0`, src/cryptokit.ml:895-897, 927-929, 937-939, with interruption points. -/
def macBlockResetI (c : BlockCipher σ) : M (MacSt σ) Unit := do
  macBlockI c
  M.modify fun st => { st with used := 0 }
  poll

/-- `mac#add_substring`, src/cryptokit.ml:884-901, with interruption points. (`used` is 0 before
the recursive call: the test of it is for Lean's termination check only. A block size of 0 would make
the real method loop.) -/
def macAddSubstringI (c : BlockCipher σ) (src : Bytes) (ofs len : Int) (st : MacSt σ) :
    Out (MacSt σ) Unit :=
  if len ≤ 0 then poll st
  else if (st.used : Int) + len ≤ c.blocksize then
    (do
      poll
      let st ← M.get
      let b ← M.orRaise .invalidArg (bytesBlit src ofs st.buffer st.used len)
      M.modify fun st => { st with buffer := b }
      poll
      M.modify fun st => { st with used := st.used + len.toNat }
      poll : M (MacSt σ) Unit) st
  else
    let n : Int := (c.blocksize : Int) - st.used
    match _h : bytesBlit src ofs st.buffer st.used n with
    | none => (do poll; M.raise .invalidArg : M (MacSt σ) Unit) st
    | some b =>
      match _hr : (do
          poll
          M.modify fun st => { st with buffer := b }
          poll
          macBlockResetI c : M (MacSt σ) Unit) st with
      | .ok () st' =>
        if _hb : c.blocksize = 0 ∨ st'.used ≠ 0 then .loop
        else macAddSubstringI c src (ofs + n) (len - n) st'
      | .exn e st' => .exn e st'
      | .ub => .ub
      | .loop => .loop
termination_by len.toNat * 2 + (if st.used = 0 then 0 else 1)
decreasing_by
  have := bytesBlit_len_nonneg _h
  rw [if_pos (show st'.used = 0 by omega), Nat.add_zero]
  split <;> omega

/-- `mac#add_char`, src/cryptokit.ml:906-915, with interruption points. -/
def macAddCharI (c : BlockCipher σ) (ch : Byte) : M (MacSt σ) Unit := do
  poll
  let st ← M.get
  if st.used < c.blocksize then do
    let b ← M.orRaise .invalidArg (bytesSet st.buffer st.used ch)
    M.modify fun st => { st with buffer := b }
    poll
    M.modify fun st => { st with used := st.used + 1 }
    poll
  else do
    macBlockI c
    let st ← M.get
    let b ← M.orRaise .invalidArg (bytesSet st.buffer 0 ch)
    M.modify fun st => { st with buffer := b }
    poll
    M.modify fun st => { st with used := 1 }
    poll

/-- The end of `mac#result`, src/cryptokit.ml:931-941, with interruption points. The method `pad` of the
padding scheme is taken to be atomic: it works on `buffer` only, of which nothing is assumed here
but its length. -/
def macLastI (c : BlockCipher σ) (pad : Option PadScheme) : M (MacSt σ) Bytes := do
  poll
  let st ← M.get
  match pad with
  | none => if st.used ≠ 0 then M.raise (.error .wrongDataLength)
  | some p =>
    let b ← ofExcept (p.pad st.buffer st.used)
    M.modify fun st => { st with buffer := b }
    poll
    macBlockResetI c
  poll
  let st ← M.get
  pure st.iv

/-- `mac#result`, src/cryptokit.ml:925-941, with interruption points. -/
def macResultI (c : BlockCipher σ) (pad : Option PadScheme) : M (MacSt σ) Bytes := do
  poll
  let st ← M.get
  if st.used = c.blocksize then macBlockResetI c
  macLastI c pad

/-- `mac#wipe`, src/cryptokit.ml:920-923, with interruption points. -/
def macWipeI (c : BlockCipher σ) : M (MacSt σ) Unit := do
  poll
  M.modify fun st => { st with c := c.wipe st.c }
  poll
  M.modify fun st => { st with buffer := wipeBytes st.buffer }
  poll
  M.modify fun st => { st with iv := wipeBytes st.iv }
  poll

/-- Class `mac`, src/cryptokit.ml:876-942, with interruption points. -/
def macI (c : BlockCipher σ) (pad : Option PadScheme) : HashObj (MacSt σ) where
  hashSize := c.blocksize
  addSubstring := macAddSubstringI c
  addString s := macAddSubstringI c s 0 s.length
  addChar := macAddCharI c
  addByte b := macAddCharI c (BitVec.ofInt 8 b)
  result := macResultI c pad
  wipe := macWipeI c

/-- `cipher#transform r 0 r 0` for one of the ciphers of the object, src/cryptokit.ml:953-954. -/
def mac3CallI {κ τ : Type} (c : BlockCipher κ) (get : τ → κ) (set : κ → τ → τ) (r : Bytes) : M τ Bytes :=
  fun t =>
    match c.transform .self 0 0 (get t, r) with
    | .ok () (s, r) => .ok r (set s t)
    | .exn e (s, _) => .exn e (set s t)
    | .ub => .ub
    | .loop => .loop

/-- `cipher2#transform r 0 r 0; cipher3#transform r 0 r 0`, src/cryptokit.ml:953-954, with interruption
points. -/
def mac3FinishI (c2 : BlockCipher σ2) (c3 : BlockCipher σ3) (r : Bytes) : M (Mac3St σ σ2 σ3) Bytes := do
  poll
  let r ← mac3CallI c2 (·.c2) (fun s t => { t with c2 := s }) r
  poll
  let r ← mac3CallI c3 (·.c3) (fun s t => { t with c3 := s }) r
  poll
  pure r

/-- Class `mac_final_triple`, src/cryptokit.ml:944-959, with interruption points. -/
def macFinalTripleI (c1 : BlockCipher σ) (c2 : BlockCipher σ2) (c3 : BlockCipher σ3)
    (pad : Option PadScheme) : HashObj (Mac3St σ σ2 σ3) where
  hashSize := c1.blocksize
  addSubstring src ofs len := Mac3St.onMac ((macI c1 pad).addSubstring src ofs len)
  addString s := Mac3St.onMac ((macI c1 pad).addString s)
  addChar ch := Mac3St.onMac ((macI c1 pad).addChar ch)
  addByte b := Mac3St.onMac ((macI c1 pad).addByte b)
  result := do
    let r ← Mac3St.onMac (macResultI c1 pad)
    mac3FinishI c2 c3 r
  wipe := do
    Mac3St.onMac (macWipeI c1)
    M.modify fun st => { st with c2 := c2.wipe st.c2 }
    poll
    M.modify fun st => { st with c3 := c3.wipe st.c3 }
    poll

/-- The end of `cmac#result`, `k'` being computed, src/cryptokit.ml:971-975, with interruption points. -/
def cmacLastI (c : BlockCipher σ) (k : Bytes) : M (MacSt σ) Bytes := do
  poll
  let st ← M.get
  macXor c st.iv
  poll
  macXor c k
  poll
  macCall c
  poll
  M.modify fun st => { st with used := 0 }
  poll
  let st ← M.get
  pure st.iv

/-- `cmac#result`, src/cryptokit.ml:967-975, with interruption points. -/
def cmacResultI (c : BlockCipher σ) (k1 k2 : Bytes) : M (MacSt σ) Bytes := do
  poll
  let st ← M.get
  if st.used = c.blocksize then cmacLastI c k1
  else do
    let b ← ofExcept (Padding._8000.pad st.buffer st.used)
    M.modify fun st => { st with buffer := b }
    cmacLastI c k2

/-- Class `cmac`, src/cryptokit.ml:963-981, with interruption points. -/
def cmacI (c : BlockCipher σ) : HashObj (CmacSt σ) where
  hashSize := c.blocksize
  addSubstring src ofs len := CmacSt.onMac ((macI c none).addSubstring src ofs len)
  addString s := CmacSt.onMac ((macI c none).addString s)
  addChar ch := CmacSt.onMac ((macI c none).addChar ch)
  addByte b := CmacSt.onMac ((macI c none).addByte b)
  result := do
    let st ← M.get
    CmacSt.onMac (cmacResultI c st.k1 st.k2)
  wipe := do
    CmacSt.onMac (macWipeI c)
    M.modify fun st => { st with k1 := wipeBytes st.k1 }
    poll
    M.modify fun st => { st with k2 := wipeBytes st.k2 }
    poll

end mac

namespace MAC

open Cipher

/-- `new Block.mac ?iv ?pad (...)`, src/cryptokit.ml:1472-1477, `sched` being the interruptions to come once
the object has been made. -/
def ofBlockI (env : Env) (iv : Option Bytes) (pad : Option PadScheme)
    (b : Option (Except Exn AnyBlock)) (sched : Sched) : Option (Except Exn AnyHash) :=
  b.map fun r => r.bind fun b => (macInit env b.c.atomic (sched, b.s) iv).map fun st =>
    ⟨macI b.c.atomic pad, st⟩

/-- `MAC.aes ?iv ?pad key`, src/cryptokit.ml:1472-1473, interrupted according to `sched`. -/
def aesI (env : Env) (host : AesHost) (iv : Option Bytes) (pad : Option PadScheme) (key : Bytes)
    (sched : Sched) : Option (Except Exn AnyHash) := ofBlockI env iv pad (aesBlock host .encrypt key) sched

/-- `MAC.des ?iv ?pad key`, src/cryptokit.ml:1474-1475, interrupted according to `sched`. -/
def desI (env : Env) (iv : Option Bytes) (pad : Option PadScheme) (key : Bytes) (sched : Sched) :
    Option (Except Exn AnyHash) := ofBlockI env iv pad (desBlock .encrypt key) sched

/-- `MAC.triple_des ?iv ?pad key`, src/cryptokit.ml:1476-1477, interrupted according to `sched`. -/
def tripleDesI (env : Env) (iv : Option Bytes) (pad : Option PadScheme) (key : Bytes) (sched : Sched) :
    Option (Except Exn AnyHash) := ofBlockI env iv pad (tripleDesBlock .encrypt key) sched

/-- `MAC.des_final_triple_des ?iv ?pad key`, src/cryptokit.ml:1478-1487, interrupted according to
`sched`. -/
def desFinalTripleDesI (env : Env) (iv : Option Bytes) (pad : Option PadScheme) (key : Bytes)
    (sched : Sched) : Option (Except Exn AnyHash) :=
  if ¬ (key.length = 16 ∨ key.length = 24) then some (.error (.error .wrongKeySize))
  else
    let k1 := slice key 0 8
    let k2 := slice key 8 8
    let k3 := if key.length = 24 then slice key 16 8 else k1
    match desBlock .encrypt k1, desBlock .decrypt k2, desBlock .encrypt k3 with
    | some r1, some r2, some r3 => some do
      let c1 ← r1
      let c2 ← r2
      let c3 ← r3
      (mac3Init env c1.c.atomic c2.c c3.c (sched, c1.s) c2.s c3.s iv).map fun st =>
        ⟨macFinalTripleI c1.c.atomic c2.c c3.c pad, st⟩
    | _, _, _ => none

/-- `MAC.aes_cmac ?iv key`, src/cryptokit.ml:1488-1503, interrupted according to `sched`. -/
def aesCmacI (env : Env) (host : AesHost) (iv : Option Bytes) (key : Bytes) (sched : Sched) :
    Option (Except Exn AnyHash) :=
  (aesBlock host .encrypt key).bind fun r =>
    match r with
    | .error e => some (.error e)
    | .ok b =>
      match aesCmacNew env b.c.atomic (sched, b.s) iv with
      | .ok st _ => some (.ok ⟨cmacI b.c.atomic, st⟩)
      | .exn e _ => some (.error e)
      | .ub => none
      | .loop => none

end MAC
end Verif
