import Verif.Model.Hash
import Verif.Model.Transform
/-
MACs built from block ciphers, src/cryptokit.ml:876-981 and 1480-1503.
-/
namespace Verif

/-- Instance variables of class `mac`, src/cryptokit.ml:878-881, and the cipher. -/
structure MacSt (σ : Type) where
  c : σ
  iv : Bytes
  buffer : Bytes
  used : Nat

/-- `new mac ?iv ?pad cipher`, src/cryptokit.ml:876-881. -/
def macInit (env : Env) (c : BlockCipher σ) (s : σ) (iv : Option Bytes) : Except Exn (MacSt σ) :=
  match makeInitialIV c.blocksize iv with
  | .ok iv => .ok { c := s, iv := iv, buffer := env.create c.blocksize, used := 0 }
  | .error e => .error e

/-- `cipher#transform buffer 0 iv 0`. src/cryptokit.ml:897. -/
def macCall (c : BlockCipher σ) : M (MacSt σ) Unit := fun st =>
  match c.transform (.other st.buffer) 0 0 (st.c, st.iv) with
  | .ok () (s, iv) => .ok () { st with c := s, iv := iv }
  | .exn e (s, iv) => .exn e { st with c := s, iv := iv }
  | .ub => .ub
  | .loop => .loop

/-- `xor_bytes b 0 buffer 0 blocksize` (the unchecked C function). src/cryptokit.ml:896. -/
def macXor (c : BlockCipher σ) (b : Bytes) : M (MacSt σ) Unit := do
  let st ← M.get
  let buf ← M.orUB (xorC (.other b) 0 st.buffer 0 c.blocksize)
  M.modify fun st => { st with buffer := buf }

/-- `xor_bytes iv 0 buffer 0 blocksize; cipher#transform buffer 0 iv 0`,
src/cryptokit.ml:895-896, 911-912, 927-928, 937-938. -/
def macBlock (c : BlockCipher σ) : M (MacSt σ) Unit := do
  let st ← M.get
  macXor c st.iv
  macCall c

/-- `mac#add_substring`, src/cryptokit.ml:884-901. (A block size of 0 would make the real method
loop.) -/
def macAddSubstring (c : BlockCipher σ) (src : Bytes) (ofs len : Int) (st : MacSt σ) :
    Out (MacSt σ) Unit :=
  if len ≤ 0 then .ok () st
  else if (st.used : Int) + len ≤ c.blocksize then
    match bytesBlit src ofs st.buffer st.used len with
    | none => .exn .invalidArg st
    | some b => .ok () { st with buffer := b, used := st.used + len.toNat }
  else
    let n : Int := (c.blocksize : Int) - st.used
    match _h : bytesBlit src ofs st.buffer st.used n with
    | none => .exn .invalidArg st
    | some b =>
      match macBlock c { st with buffer := b } with
      | .ok () st' =>
        if _hb : c.blocksize = 0 then .loop
        else macAddSubstring c src (ofs + n) (len - n) { st' with used := 0 }
      | .exn e st' => .exn e st'
      | .ub => .ub
      | .loop => .loop
termination_by len.toNat * 2 + (if st.used = 0 then 0 else 1)
decreasing_by
  have := bytesBlit_len_nonneg _h
  simp only [if_true, Nat.add_zero]
  split <;> omega

/-- `mac#add_char`, src/cryptokit.ml:906-915. -/
def macAddChar (c : BlockCipher σ) (ch : Byte) : M (MacSt σ) Unit := fun st =>
  if st.used < c.blocksize then
    match bytesSet st.buffer st.used ch with
    | none => .exn .invalidArg st
    | some b => .ok () { st with buffer := b, used := st.used + 1 }
  else
    (do
      macBlock c
      let st ← M.get
      let b ← M.orRaise .invalidArg (bytesSet st.buffer 0 ch)
      M.modify fun st => { st with buffer := b, used := 1 }) st

/-- `mac#result`, src/cryptokit.ml:925-941. -/
def macResult (c : BlockCipher σ) (pad : Option PadScheme) : M (MacSt σ) Bytes := do
  let st ← M.get
  if st.used = c.blocksize then
    macBlock c
    M.modify fun st => { st with used := 0 }
  let st ← M.get
  match pad with
  | none => if st.used ≠ 0 then M.raise (.error .wrongDataLength)
  | some p =>
    let b ← ofExcept (p.pad st.buffer st.used)
    M.modify fun st => { st with buffer := b }
    macBlock c
    M.modify fun st => { st with used := 0 }
  let st ← M.get
  pure st.iv

/-- `mac#wipe`, src/cryptokit.ml:920-923. -/
def macWipe (c : BlockCipher σ) : M (MacSt σ) Unit := M.modify fun st =>
  { st with c := c.wipe st.c, buffer := wipeBytes st.buffer, iv := wipeBytes st.iv }

/-- Class `mac`, src/cryptokit.ml:876-942. -/
def mac (c : BlockCipher σ) (pad : Option PadScheme) : HashObj (MacSt σ) where
  hashSize := c.blocksize
  addSubstring := macAddSubstring c
  addString s := macAddSubstring c s 0 s.length
  addChar := macAddChar c
  addByte b := macAddChar c (BitVec.ofInt 8 b)
  result := macResult c pad
  wipe := macWipe c

/-- State of `mac_final_triple`: the MAC, and the other two ciphers. src/cryptokit.ml:944-959. -/
structure Mac3St (σ σ2 σ3 : Type) where
  m : MacSt σ
  c2 : σ2
  c3 : σ3

/-- A method inherited from `mac`. src/cryptokit.ml:951. -/
def Mac3St.onMac (m : M (MacSt σ) α) : M (Mac3St σ σ2 σ3) α :=
  M.zoom (·.m) (fun m t => { t with m := m }) m

/-- `cipher2#transform r 0 r 0; cipher3#transform r 0 r 0`, src/cryptokit.ml:953-954. -/
def mac3Finish (c2 : BlockCipher σ2) (c3 : BlockCipher σ3) (r : Bytes) :
    M (Mac3St σ σ2 σ3) Bytes := fun st =>
  match c2.transform .self 0 0 (st.c2, r) with
  | .ok () (s2, r) =>
    match c3.transform .self 0 0 (st.c3, r) with
    | .ok () (s3, r) => .ok r { st with c2 := s2, c3 := s3 }
    | .exn e (s3, _) => .exn e { st with c2 := s2, c3 := s3 }
    | .ub => .ub
    | .loop => .loop
  | .exn e (s2, _) => .exn e { st with c2 := s2 }
  | .ub => .ub
  | .loop => .loop

/-- Class `mac_final_triple`, src/cryptokit.ml:944-959. -/
def macFinalTriple (c1 : BlockCipher σ) (c2 : BlockCipher σ2) (c3 : BlockCipher σ3)
    (pad : Option PadScheme) : HashObj (Mac3St σ σ2 σ3) where
  hashSize := c1.blocksize
  addSubstring src ofs len := Mac3St.onMac ((mac c1 pad).addSubstring src ofs len)
  addString s := Mac3St.onMac ((mac c1 pad).addString s)
  addChar ch := Mac3St.onMac ((mac c1 pad).addChar ch)
  addByte b := Mac3St.onMac ((mac c1 pad).addByte b)
  result := do
    let r ← Mac3St.onMac (macResult c1 pad)
    mac3Finish c2 c3 r
  wipe := do
    Mac3St.onMac (macWipe c1)
    M.modify fun st => { st with c2 := c2.wipe st.c2, c3 := c3.wipe st.c3 }

/-- `new mac_final_triple ?iv ?pad c1 c2 c3`, src/cryptokit.ml:944-950. -/
def mac3Init (env : Env) (c1 : BlockCipher σ) (c2 : BlockCipher σ2) (c3 : BlockCipher σ3)
    (s1 : σ) (s2 : σ2) (s3 : σ3) (iv : Option Bytes) : Except Exn (Mac3St σ σ2 σ3) :=
  if c1.blocksize ≠ c2.blocksize ∨ c2.blocksize ≠ c3.blocksize then
    .error (.error .incompatibleBlockSize)
  else
    match macInit env c1 s1 iv with
    | .ok m => .ok ⟨m, s2, s3⟩
    | .error e => .error e

/-- State of `cmac`: that of `mac`, and the subkeys. src/cryptokit.ml:963-981. -/
structure CmacSt (σ : Type) where
  m : MacSt σ
  k1 : Bytes
  k2 : Bytes

/-- A method inherited from `mac`, src/cryptokit.ml:965. -/
def CmacSt.onMac (m : M (MacSt σ) α) : M (CmacSt σ) α :=
  M.zoom (·.m) (fun m t => { t with m := m }) m

/-- `cmac#result`, src/cryptokit.ml:967-975. -/
def cmacResult (c : BlockCipher σ) (k1 k2 : Bytes) : M (MacSt σ) Bytes := do
  let st ← M.get
  let k ← if st.used = c.blocksize then pure k1 else do
    let b ← ofExcept (Padding._8000.pad st.buffer st.used)
    M.modify fun st => { st with buffer := b }
    pure k2
  let st ← M.get
  macXor c st.iv
  macXor c k
  macCall c
  M.modify fun st => { st with used := 0 }
  let st ← M.get
  pure st.iv

/-- Class `cmac`, src/cryptokit.ml:963-981 (as `mac` without padding, except `result`, `wipe`). -/
def cmac (c : BlockCipher σ) : HashObj (CmacSt σ) where
  hashSize := c.blocksize
  addSubstring src ofs len := CmacSt.onMac ((mac c none).addSubstring src ofs len)
  addString s := CmacSt.onMac ((mac c none).addString s)
  addChar ch := CmacSt.onMac ((mac c none).addChar ch)
  addByte b := CmacSt.onMac ((mac c none).addByte b)
  result := do
    let st ← M.get
    CmacSt.onMac (cmacResult c st.k1 st.k2)
  wipe := do
    CmacSt.onMac (macWipe c)
    M.modify fun st => { st with k1 := wipeBytes st.k1, k2 := wipeBytes st.k2 }

/-- One subkey from the previous value, src/cryptokit.ml:1496-1497 and 1499-1500:
`shl1_bytes l 0 k 0 16; if Char.code (Bytes.get l 0) land 0x80 > 0 then xor_bytes b 0 k 0 16`. -/
def cmacSubkey (env : Env) (b l : Bytes) : M σ Bytes := do
  let k ← M.orRaise .invalidArg (shl1Bytes l (env.create 16) 16)
  let l0 ← M.orRaise .invalidArg (bytesGet l 0)
  if l0.toNat &&& 0x80 > 0 then M.orUB (xorC (.other b) 0 k 0 16) else pure k

/-- `aes_cmac ?iv key`, src/cryptokit.ml:1488-1503, after the creation of the cipher `c` (in state
`s`). -/
def aesCmacNew (env : Env) (c : BlockCipher σ) (s : σ) (iv : Option Bytes) : Out σ (CmacSt σ) :=
  let b := List.replicate 16 0
  match c.transform (.other b) 0 0 (s, env.create 16) with
  | .ok () (s, l) =>
    (do
      let b ← M.orRaise .invalidArg (bytesSet b 15 0x87)
      let k1 ← cmacSubkey env b l
      let k2 ← cmacSubkey env b k1
      match macInit env c s iv with
      | .ok m => pure (CmacSt.mk m k1 k2)
      | .error e => M.raise e) s
  | .exn e (s, _) => .exn e s
  | .ub => .ub
  | .loop => .loop

end Verif
