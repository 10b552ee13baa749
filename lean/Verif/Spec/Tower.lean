import Verif.Spec.CipherModes
/-
Chaining modes on top of any block cipher, in particular on top of other chaining modes. A block
cipher may here depend on the blocks that it has processed before: it is a machine that reads a
block, writes a block and changes state.
-/
namespace Verif.Spec

open Cipher (Mode AnyBlock)

/-- A machine that maps blocks to blocks. -/
structure Machine where
  σ : Type
  init : σ
  step : σ → Bytes → Bytes × σ

/-- The blocks that the machine writes. -/
def Machine.run (M : Machine) : M.σ → List Bytes → List Bytes
  | _, [] => []
  | s, b :: bs => (M.step s b).1 :: M.run (M.step s b).2 bs

/-- The machine that applies a function to each block. -/
def Machine.map (E : Bytes → Bytes) : Machine := ⟨Unit, (), fun _ b => (E b, ())⟩

/-- CBC, encryption: each block is xored with the previous output, then given to the cipher. -/
def Machine.cbcEnc (iv : Bytes) (M : Machine) : Machine where
  σ := Bytes × M.σ
  init := (iv, M.init)
  step s p := let c := M.step s.2 (xorb p s.1); (c.1, (c.1, c.2))

/-- CBC, decryption: each block is given to the cipher, then xored with the previous input. -/
def Machine.cbcDec (iv : Bytes) (M : Machine) : Machine where
  σ := Bytes × M.σ
  init := (iv, M.init)
  step s c := let p := M.step s.2 c; (xorb p.1 s.1, (c, p.2))

/-- CFB with segments of `k` bytes, encryption: the cipher is given the last bytes of the IV and
of the output. -/
def Machine.cfbEnc (k : Nat) (iv : Bytes) (M : Machine) : Machine where
  σ := Bytes × M.σ
  init := (iv, M.init)
  step s p := let o := M.step s.2 s.1; let c := xorb p (o.1.take k); (c, (s.1.drop k ++ c, o.2))

/-- CFB, decryption: the cipher is given the last bytes of the IV and of the input. -/
def Machine.cfbDec (k : Nat) (iv : Bytes) (M : Machine) : Machine where
  σ := Bytes × M.σ
  init := (iv, M.init)
  step s c := let o := M.step s.2 s.1; (xorb c (o.1.take k), (s.1.drop k ++ c, o.2))

/-- OFB with segments of `k` bytes: the cipher is given its own output. -/
def Machine.ofb (k : Nat) (iv : Bytes) (M : Machine) : Machine where
  σ := Bytes × M.σ
  init := (iv, M.init)
  step s p := let o := M.step s.2 s.1; (xorb p (o.1.take k), (o.1, o.2))

/-- Counter mode with a counter of `k` bytes: the cipher is given IV, IV+1, IV+2... -/
def Machine.ctr (k : Nat) (iv : Bytes) (M : Machine) : Machine where
  σ := Nat × M.σ
  init := (0, M.init)
  step s p := let o := M.step s.2 (counterBlock iv k s.1); (xorb p o.1, (s.1 + 1, o.2))

/-- The mode `mode` with `iv` on top of a cipher with blocks of `n` bytes. -/
def Machine.mode (n : Nat) (iv : Bytes) (dir : Dir) (M : Machine) : Mode → Machine
  | .ECB => M
  | .CBC => match dir with | .encrypt => M.cbcEnc iv | .decrypt => M.cbcDec iv
  | .CFB k => match dir with | .encrypt => M.cfbEnc k.toNat iv | .decrypt => M.cfbDec k.toNat iv
  | .OFB k => M.ofb k.toNat iv
  | .CTR => M.ctr n iv
  | .CTR_N k => M.ctr k.toNat iv

/-- Modes on top of each other, with their IVs, the outermost first. -/
abbrev Layers := List (Mode × Option Bytes)

/-- The size of the blocks of a tower of modes over a cipher with blocks of `n` bytes. -/
def Layers.unit (n : Nat) : Layers → Nat
  | [] => n
  | l :: ls => unitOf (Layers.unit n ls) l.1

/-- The parameters of each mode suit the size of the blocks below it. -/
def Layers.Ok (n : Nat) : Layers → Prop
  | [] => True
  | l :: ls => Layers.Ok n ls ∧ ModeOk (Layers.unit n ls) l.1 ∧ ModeIVOk (Layers.unit n ls) l.1 l.2

/-- Each counter mode accepts `count` blocks. -/
def Layers.CountOk (n : Nat) (ls : Layers) (count : Nat) : Prop :=
  match ls with
  | [] => True
  | l :: ls => Layers.CountOk n ls count ∧ UnitsOk (Layers.unit n ls) l.1 count

/-- What a tower computes: `E` and `D` are the functions of the cipher at the bottom. To decrypt, the
modes CFB, OFB and CTR use what is below them to encrypt. -/
def Layers.machine (n : Nat) (E D : Bytes → Bytes) : Layers → Dir → Machine
  | [], .encrypt => .map E
  | [], .decrypt => .map D
  | l :: ls, dir =>
    (Layers.machine n E D ls (Cipher.normalizeDir (some l.1) dir)).mode (Layers.unit n ls) (ivOf (Layers.unit n ls) l.2) dir l.1

/-- The expression that builds the tower, as in
`new cbc_encrypt ~iv (new ctr ~iv (new aes_encrypt key))`. -/
def Layers.build (env : Env) (base : Dir → AnyBlock) : Layers → Dir → Except Exn AnyBlock
  | [], dir => .ok (base dir)
  | l :: ls, dir =>
    (Layers.build env base ls (Cipher.normalizeDir (some l.1) dir)).bind (Cipher.chained env l.1 l.2 dir)

/-- The `transform` object over the cipher `b`: `new cipher b`, `new cipher_padded_encrypt pad b` or
`new cipher_padded_decrypt pad b`. -/
def cipherObject (env : Env) (pad : Option PadScheme) (dir : Dir) (b : AnyBlock) :
    Cipher.AnyTransform :=
  match pad with
  | none => ⟨blockTransform env b.c, cipherInit env b.c b.s⟩
  | some p =>
    match dir with
    | .encrypt => ⟨paddedEncrypt env p b.c, cipherInit env b.c b.s⟩
    | .decrypt => ⟨paddedDecrypt env p b.c, cipherInit env b.c b.s⟩

/-- The messages acceptable to a tower over a cipher with blocks of `n` bytes, with the padding
argument `pad` of padding function `padf`, when strings have at most `maxLen` bytes. -/
structure TowerMessageOk (maxLen n : Nat) (ls : Layers) (pad : Option PadScheme)
    (padf : Bytes → Bytes) (m : Bytes) : Prop where
  whole : pad = none → Layers.unit n ls ∣ m.length
  count : Layers.CountOk n ls ((padf m).length / Layers.unit n ls)
  fits : (padf m).length ≤ maxLen
  room : max 256 (2 * Layers.unit n ls) ≤ maxLen

/-- The ciphertext of a tower. -/
def towerText (E D : Bytes → Bytes) (n : Nat) (ls : Layers) (padf : Bytes → Bytes) (dir : Dir)
    (m : Bytes) : Bytes :=
  let M := Layers.machine n E D ls dir
  (M.run M.init (chunks (Layers.unit n ls) (padf m))).flatten

end Verif.Spec
