import Verif.Spec.CipherModes
/-
What two ciphertexts made with the same key and the same IV reveal about the two messages.
-/
namespace Verif.Spec

open Cipher (Mode AnyTransform)

/-- Unit `i` of a message, for units of `u` bytes. -/
def unitAt (u : Nat) (m : Bytes) (i : Nat) : Bytes := (m.drop (u * i)).take u

/-- The unit of ciphertext before unit `i`: the IV before the first one. -/
def unitBefore (u : Nat) (iv c : Bytes) : Nat → Bytes
  | 0 => iv
  | i + 1 => unitAt u c i

/-- The ciphertexts begin with the same units exactly as far as the messages do. -/
def SamePrefixes (u : Nat) (m m' c c' : Bytes) : Prop :=
  ∀ i, u * i ≤ m.length → u * i ≤ m'.length →
    (c.take (u * i) = c'.take (u * i) ↔ m.take (u * i) = m'.take (u * i))

/-- What the chaining mode reveals, with blocks of `n` bytes, beyond common prefixes:
* OFB and CTR: the xor of the messages (up to the length of the shorter one);
* CFB: the xor of the first units that differ;
* ECB: which units are equal, at the same position or not;
* CBC: when two units of ciphertext are equal, the xor of the two units of message. -/
def Reveals (n : Nat) (iv : Bytes) (mode : Mode) (m m' c c' : Bytes) : Prop :=
  match mode with
  | .OFB _ | .CTR | .CTR_N _ => xorb c c' = xorb m m'
  | .CFB k => ∀ i, k.toNat * i < m.length → k.toNat * i < m'.length →
      m.take (k.toNat * i) = m'.take (k.toNat * i) →
      xorb (unitAt k.toNat c i) (unitAt k.toNat c' i)
        = xorb (unitAt k.toNat m i) (unitAt k.toNat m' i)
  | .ECB => ∀ i j, n * i < m.length → n * j < m'.length →
      (unitAt n c i = unitAt n c' j ↔ unitAt n m i = unitAt n m' j)
  | .CBC => ∀ i j, n * i < m.length → n * j < m'.length →
      (unitAt n c i = unitAt n c' j ↔
        xorb (unitAt n m i) (unitAt n m' j) = xorb (unitBefore n iv c i) (unitBefore n iv c' j))

/-- Two objects give, on any two histories of calls that input acceptable messages, ciphertexts as
long as the (padded) messages and which reveal what is said above. -/
def RevealsMode (t t' : AnyTransform) (ok : Bytes → Prop) (padf : Bytes → Bytes) (n : Nat)
    (iv : Bytes) (mode : Mode) : Prop :=
  ∀ ops ops' : List TOp, (∀ op ∈ ops, op.Legal) → (∀ op ∈ ops', op.Legal) →
    ok (inputOf ops) → ok (inputOf ops') →
    ∃ c c', t.run ops = some (.ok c) ∧ t'.run ops' = some (.ok c')
      ∧ c.length = (padf (inputOf ops)).length ∧ c'.length = (padf (inputOf ops')).length
      ∧ SamePrefixes (unitOf n mode) (padf (inputOf ops)) (padf (inputOf ops')) c c'
      ∧ Reveals n iv mode (padf (inputOf ops)) (padf (inputOf ops')) c c'

/-- Two objects give, on any two histories of calls that input acceptable messages, outputs as long
as the messages whose xor is the xor of the messages, up to the length of the shorter one. -/
def RevealsXor (t t' : AnyTransform) (ok : Bytes → Prop) : Prop :=
  ∀ ops ops' : List TOp, (∀ op ∈ ops, op.Legal) → (∀ op ∈ ops', op.Legal) →
    ok (inputOf ops) → ok (inputOf ops') →
    ∃ c c', t.run ops = some (.ok c) ∧ t'.run ops' = some (.ok c')
      ∧ c.length = (inputOf ops).length ∧ c'.length = (inputOf ops').length
      ∧ xorb c c' = xorb (inputOf ops) (inputOf ops')

end Verif.Spec
