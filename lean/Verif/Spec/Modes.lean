import Verif.Spec.Common
/-
Modes of operation, after NIST SP 800-38A. `E` is the forward block function, `D`
its inverse; a message is a list of blocks (segments of `n` bytes for CFB and OFB).
-/
namespace Verif.Spec

/-- CBC encryption: C_i = E(P_i xor C_{i-1}), C_0 = IV. -/
def cbcEnc (E : Bytes → Bytes) (iv : Bytes) : List Bytes → List Bytes
  | [] => []
  | p :: ps => let c := E (xorb p iv); c :: cbcEnc E c ps

/-- CBC decryption: P_i = D(C_i) xor C_{i-1}, C_0 = IV. -/
def cbcDec (D : Bytes → Bytes) (iv : Bytes) : List Bytes → List Bytes
  | [] => []
  | c :: cs => xorb (D c) iv :: cbcDec D c cs

/-- CFB encryption with segments of `n` bytes: C_i = P_i xor MSB_n(E(I_i)),
I_1 = IV, I_{i+1} = LSB(I_i) | C_i. -/
def cfbEnc (E : Bytes → Bytes) (n : Nat) (reg : Bytes) : List Bytes → List Bytes
  | [] => []
  | p :: ps => let c := xorb p ((E reg).take n); c :: cfbEnc E n (reg.drop n ++ c) ps

/-- CFB decryption. -/
def cfbDec (E : Bytes → Bytes) (n : Nat) (reg : Bytes) : List Bytes → List Bytes
  | [] => []
  | c :: cs => xorb c ((E reg).take n) :: cfbDec E n (reg.drop n ++ c) cs

/-- `E` applied `i` times. -/
def iter (E : Bytes → Bytes) : Nat → Bytes → Bytes
  | 0, x => x
  | i + 1, x => iter E i (E x)

/-- OFB keystream segment `i` (counting from 0): the first `n` bytes of E^(i+1)(IV). -/
def ofbKey (E : Bytes → Bytes) (n : Nat) (iv : Bytes) (i : Nat) : Bytes :=
  (iter E (i + 1) iv).take n

/-- Counter block `i`: the last `k` bytes of `iv`, as a big-endian number, plus `i`
modulo 2^(8k). -/
def counterBlock (iv : Bytes) (k i : Nat) : Bytes :=
  iv.take (iv.length - k)
    ++ natToBE k ((beNat (iv.drop (iv.length - k)) + i) % 256 ^ k)

/-- Xor block `i` of the message with keystream block `i`, starting at `i`. -/
def xorStream (key : Nat → Bytes) (i : Nat) : List Bytes → List Bytes
  | [] => []
  | p :: ps => xorb p (key i) :: xorStream key (i + 1) ps

/-- OFB: C_i = P_i xor O_i. -/
def ofb (E : Bytes → Bytes) (n : Nat) (iv : Bytes) (ps : List Bytes) : List Bytes :=
  xorStream (ofbKey E n iv) 0 ps

/-- CTR: C_i = P_i xor E(T_i). -/
def ctr (E : Bytes → Bytes) (k : Nat) (iv : Bytes) (ps : List Bytes) : List Bytes :=
  xorStream (fun i => E (counterBlock iv k i)) 0 ps

/-- The IV used: the given one, or all zeroes. -/
def ivOf (n : Nat) (iv : Option Bytes) : Bytes := iv.getD (List.replicate n 0)

/-- The IV, if given, has the size of a block. -/
def IVOk (n : Nat) (iv : Option Bytes) : Prop := ∀ v, iv = some v → v.length = n

end Verif.Spec
