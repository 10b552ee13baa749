import Verif.Spec.Blake2
import Verif.Spec.Blake3
import Verif.Spec.Hmac
/-
The applications of the compression functions of BLAKE2 and BLAKE3 when a message is hashed.
-/
namespace Verif.Spec

/-- Two different elements of the lists have the same image. -/
def CollisionIn (f : α → β) (l l' : List α) : Prop :=
  ∃ x ∈ l, ∃ y ∈ l', x ≠ y ∧ f x = f y

namespace B3

/-- The compressions that chunk `c` goes through, but the last one. The arguments are those of `chunkFrom`. -/
def chunkCalls (h : List (BitVec 32)) (t : BitVec 64) (d start : BitVec 32) (c : Bytes) : List Node :=
  if c.length ≤ 64 then []
  else
    let n : Node := ⟨h, toWords (c.take 64), t, 64, d ||| start⟩
    n :: chunkCalls n.cv t d 0 (c.drop 64)
termination_by c.length
decreasing_by rw [List.length_drop]; omega

/-- The compressions that the message `m` goes through, but the last one. The arguments are those of
`tree`. -/
def innerCalls (key : List (BitVec 32)) (d : BitVec 32) (t : Nat) (m : Bytes) : List Node :=
  if h : m.length ≤ 1024 then chunkCalls key (BitVec.ofNat 64 t) d CHUNK_START m
  else
    let l := leftLen m.length
    innerCalls key d t (m.take l) ++ [tree key d t (m.take l)] ++
      (innerCalls key d (t + l / 1024) (m.drop l) ++ [tree key d (t + l / 1024) (m.drop l)])
termination_by m.length
decreasing_by
  · have := leftLen_bounds (n := m.length) (by omega)
    rw [List.length_take]; omega
  · have := leftLen_bounds (n := m.length) (by omega)
    rw [List.length_drop]; omega

/-- The last compression, that of the root, which gives the first 64 bytes of the result. -/
def rootCall (key m : Bytes) : Node :=
  let n := tree (keyWords key) (modeFlag key) 0 m
  { n with t := 0, d := n.d ||| ROOT }

/-- The compressions before that of the root. -/
def inner (key m : Bytes) : List Node := innerCalls (keyWords key) (modeFlag key) 0 m

/-- All the compressions for the first 64 bytes of the result. -/
def hashCalls (key m : Bytes) : List Node := inner key m ++ [rootCall key m]

end B3

namespace Blake2Params
variable (p : Blake2Params)

/-- The arguments of `F`: chaining value, block, counter (two words), final block flag. -/
abbrev Call := List (BitVec p.w) × Bytes × BitVec (2 * p.w) × Bool

def Fcall (x : p.Call) : List (BitVec p.w) := p.F x.1 x.2.1 x.2.2.1.toNat x.2.2.2

/-- The applications of `F` by `absorb`. -/
def absorbCalls : Nat → List (BitVec p.w) → List Bytes → List p.Call
  | _, _, [] => []
  | i, h, d :: ds =>
    (h, d, BitVec.ofNat _ ((i + 1) * p.bb), false) :: absorbCalls (i + 1) (p.F h d ((i + 1) * p.bb) false) ds

/-- The initial chaining value. -/
def start (nn : Nat) (key : Bytes) : List (BitVec p.w) :=
  p.IV.set 0 (p.IV.getD 0 0 ^^^ 0x01010000#p.w ^^^ BitVec.ofNat p.w (key.length * 2 ^ 8) ^^^ BitVec.ofNat p.w nn)

/-- The applications of `F` when `m` is hashed, but the last one. -/
def innerCalls (nn : Nat) (key m : Bytes) : List p.Call :=
  p.absorbCalls 0 (p.start nn key) (p.blocks key m).dropLast

/-- The last application of `F`. -/
def lastCall (nn : Nat) (key m : Bytes) : p.Call :=
  (p.absorb 0 (p.start nn key) (p.blocks key m).dropLast, (p.blocks key m).getLastD [],
    BitVec.ofNat _ (if key.length = 0 then m.length else m.length + p.bb), true)

/-- All the applications of `F` when `m` is hashed. -/
def hashCalls (nn : Nat) (key m : Bytes) : List p.Call := p.innerCalls nn key m ++ [p.lastCall nn key m]

/-- The bytes of a chaining value. -/
def toBytes (h : List (BitVec p.w)) : Bytes := (h.map fun x => natToLE (p.w / 8) x.toNat).flatten

end Blake2Params

/-- RFC 2104: the key used. -/
def hmacKey (H : Bytes → Bytes) (B : Nat) (key : Bytes) : Bytes :=
  let K := if key.length > B then H key else key
  K ++ List.replicate (B - K.length) 0

/-- What HMAC of `text` gives to the hash function first. -/
def hmacInner (H : Bytes → Bytes) (B : Nat) (key text : Bytes) : Bytes :=
  xorb (hmacKey H B key) (List.replicate B 0x36) ++ text

/-- What HMAC of `text` gives to the hash function, but for the key. -/
def hmacCalls (H : Bytes → Bytes) (B : Nat) (key text : Bytes) : List Bytes :=
  [hmacInner H B key text, xorb (hmacKey H B key) (List.replicate B 0x5c) ++ H (hmacInner H B key text)]

end Verif.Spec
