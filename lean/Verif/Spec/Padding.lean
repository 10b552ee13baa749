import Verif.Spec.Common
/-
Padding schemes (documentation of `Padding` in src/cryptokit.mli).
-/
namespace Verif.Spec

/-- Fill the block of `n` bytes with copies of the number of bytes added. -/
def padLength (n : Nat) (x : Bytes) : Bytes :=
  x ++ List.replicate (n - x.length) (BitVec.ofNat 8 (n - x.length))

/-- One byte 0x80, then zeroes. -/
def pad8000 (n : Nat) (x : Bytes) : Bytes :=
  x ++ 0x80 :: List.replicate (n - x.length - 1) 0

/-- The message with its last, incomplete (possibly empty) block padded. -/
def padMessage (n : Nat) (pad : Bytes → Bytes) (m : Bytes) : Bytes :=
  m.take (m.length / n * n) ++ pad (m.drop (m.length / n * n))

/-- What a padded decryption of the ciphertext `ct` must show, where `d` is the
block-by-block decryption of `ct` and `pad` the padding function. -/
structure DecryptOutcome (n : Nat) (pad : Bytes → Bytes) (ct d : Bytes)
    (result : Option (Except Exn Bytes)) : Prop where
  /-- empty or incomplete ciphertext -/
  bad_length : ct = [] ∨ ¬ n ∣ ct.length → result = some (.error (.error .wrongDataLength))
  /-- the last decrypted block is a padded block -/
  good : ct ≠ [] → n ∣ ct.length → ∀ x : Bytes, x.length < n → d.drop (ct.length - n) = pad x →
    result = some (.ok (d.take (ct.length - n) ++ x))
  /-- the last decrypted block is not a padded block -/
  bad_padding : ct ≠ [] → n ∣ ct.length →
    (¬ ∃ x : Bytes, x.length < n ∧ d.drop (ct.length - n) = pad x) →
    result = some (.error (.error .badPadding))

end Verif.Spec
