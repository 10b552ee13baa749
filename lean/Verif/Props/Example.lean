import Verif.Proof.Checked
import Verif.Spec.History
/-
A small concrete cipher and environment, used by the non-vacuity examples.
-/
namespace Verif.Example

deriving instance DecidableEq for Except

/-- 64-bit OCaml: `Sys.max_string_length`; `Bytes.create` returns arbitrary bytes. -/
def env64 : Env := ⟨144115188075855863, fun _ i => BitVec.ofNat 8 (7 * i + 3)⟩

/-- A block cipher on 4-byte blocks: xor with the key, then reverse the block. -/
def toyE (k b : Bytes) : Bytes := (xorb b k).reverse
def toyD (k b : Bytes) : Bytes := xorb b.reverse k

def toyEnc : BlockCipher Bytes := checkedCipher 4 (fun k b => some (toyE k b)) (fun _ => []) id
def toyDec : BlockCipher Bytes := checkedCipher 4 (fun k b => some (toyD k b)) (fun _ => []) id

def key : Bytes := [0x17, 0x2a, 0x99, 0x04]
def iv : Bytes := [0xff, 0xff, 0xff, 0xfe]

theorem toyEnc_pure : PureCipher toyEnc key (toyE key) :=
  checkedCipher_pure (Es := []) (by decide) (fun _ _ => rfl) (fun _ _ => rfl)
    (by intro b hb; simp [toyE, key, hb]) (by simp)

theorem toyDec_pure : PureCipher toyDec key (toyD key) :=
  checkedCipher_pure (Es := []) (by decide) (fun _ _ => rfl) (fun _ _ => rfl)
    (by intro b hb; simp [toyD, key, hb]) (by simp)

theorem toy_inverse (b : Bytes) (hb : b.length = 4) : toyD key (toyE key b) = b := by
  match b, hb with
  | [a, b, c, d], _ => simp [toyD, toyE, key, BitVec.xor_assoc]

/-- An 8-byte message fed in three unequal pieces, with output read in between. -/
def ops : List TOp :=
  [.putSubstring [9, 1, 2, 3, 4, 5, 9] 1 5, .getString, .putChar 6, .putByte 0x107, .putString [],
   .getChar, .putString [8], .getSubstring]

theorem ops_legal : ∀ op ∈ ops, op.Legal := by
  intro op h
  simp only [ops, List.mem_cons, List.not_mem_nil, or_false] at h
  rcases h with rfl | rfl | rfl | rfl | rfl | rfl | rfl | rfl <;>
    simp [TOp.Legal, InRange]

theorem ops_input : inputOf ops = [1, 2, 3, 4, 5, 6, 7, 8] := by decide

end Verif.Example
