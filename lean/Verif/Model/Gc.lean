import Verif.Model.SipHash
import Verif.Model.Ghash
import Verif.Model.Cipher
import Verif.Model.Blake2
import Verif.Model.Blake3
import Verif.Model.Poly1305
import Verif.Model.Keccak
import Verif.Model.Ripemd
import Verif.Model.Md5
/-
The stubs that allocate in the OCaml heap, as sequences of the steps that matter to the garbage
collector: registration of C variables as roots, allocation, access to the contents of blocks.

An allocation may run the collector. The collector moves the blocks that are reachable from the
registered variables and updates these variables; nothing is known of the other addresses
afterwards: the memory may have been unmapped or reused. `caml_stat_alloc` does not run it.
-/
namespace Verif.Gc

/-- Variables: the parameters and local variables of the C functions, and variables of the OCaml
program. As in src/stubs-chacha20.c:24-33. -/
inductive Var where
  | key | iv | counter | ctx | res | ckey
  | caller (i : Nat)
  deriving DecidableEq

/-- A block: an OCaml string (or boxed integer), or a context of type `γ`, stored in a string or
pointed to by a custom block.
Contexts in strings: src/stubs-siphash.c:22; in custom blocks: src/stubs-ghash.c:24-39. -/
inductive Obj (γ : Type) where
  | str (b : Bytes)
  | int64 (n : W64)
  | ctx (c : γ)

/-- An address of the OCaml heap: the type `value` of src/stubs-*.c, for example src/stubs-siphash.c:24. -/
abbrev Addr := Nat

/-- The OCaml heap, the variables, and which variables the collector knows of, during a call to one of the functions of src/stubs-*.c, for example src/stubs-siphash.c:24-29. -/
structure State (γ : Type) where
  heap : Addr → Option (Obj γ)
  env : Var → Option Addr
  roots : List Var

/-- Contents of the block a variable points to.
`String_val(v)`, `Context_val(v)`, as in src/stubs-siphash.c:27. -/
def State.read (s : State γ) (v : Var) : Option (Obj γ) := (s.env v).bind s.heap

/-- A block that the collector knows of. See src/stubs-aes.c:28 for such a registration. -/
def State.Live (s : State γ) (a : Addr) : Prop := ∃ v ∈ s.roots, s.env v = some a

/-- A run of the collector, that moves the live block at `a` to `ρ a`; the identity when it does
nothing. The heap at other addresses is arbitrary.
It happens in `caml_alloc_string`, `caml_alloc_custom`, as at src/stubs-siphash.c:26. -/
structure Collect (ρ : Addr → Addr) (s s' : State γ) : Prop where
  inj : ∀ a b, s.Live a → s.Live b → ρ a = ρ b → a = b
  heap : ∀ a, s.Live a → s'.heap (ρ a) = s.heap a
  rooted : ∀ v ∈ s.roots, s'.env v = (s.env v).map ρ
  unrooted : ∀ v, v ∉ s.roots → s'.env v = s.env v
  roots : s'.roots = s.roots

/-- The steps of a stub. As in src/stubs-siphash.c:24-45. -/
inductive Instr (γ : Type) where
  /-- `CAMLparam` -/
  | register (vs : List Var)
  /-- `CAMLlocal1`: the variable is registered and points to no block. -/
  | declare (v : Var)
  /-- `v = caml_alloc_string(...)`, `caml_alloc_custom(...)`: a new block, with some contents -/
  | alloc (v : Var)
  /-- Store in the block of `v` a function of the contents of the blocks of `rs`. -/
  | write (v : Var) (rs : List Var) (f : List (Obj γ) → Option (Obj γ))

/-- Execution of a stub: the list has one entry per allocation, saying where the collector moves the
blocks. The result is `some` of the final state, or `none` if the stub accesses a block that is not
there. As in src/stubs-siphash.c:24-45. -/
inductive Exec : List (Addr → Addr) → List (Instr γ) → State γ → Option (State γ) → Prop
  | done {s} : Exec [] [] s (some s)
  | register {ρs vs is s r} : Exec ρs is { s with roots := vs ++ s.roots } r →
      Exec ρs (.register vs :: is) s r
  | declare {ρs v is s r} :
      Exec ρs is { s with roots := v :: s.roots, env := fun w => if w = v then none else s.env w } r →
      Exec ρs (.declare v :: is) s r
  | alloc {ρ ρs v is s s1 a x r} : Collect ρ s s1 → s1.heap a = none →
      Exec ρs is { s1 with heap := fun b => if b = a then some x else s1.heap b,
                           env := fun w => if w = v then some a else s1.env w } r →
      Exec (ρ :: ρs) (.alloc v :: is) s r
  | write {ρs v rs f is s xs y a r} : rs.mapM s.read = some xs → f xs = some y → s.env v = some a →
      s.heap a ≠ none →
      Exec ρs is { s with heap := fun b => if b = a then some y else s.heap b } r →
      Exec ρs (.write v rs f :: is) s r
  | readBad {ρs v rs f is s} : (rs.mapM s.read).bind f = none → Exec ρs (.write v rs f :: is) s none
  | writeBad {ρs v rs f is s} : s.read v = none → Exec ρs (.write v rs f :: is) s none

/-! ### The stubs -/

/-- `caml_siphash_init`, src/stubs-siphash.c:24-29: `key` is not registered. -/
def siphashInit (outlen : Nat) (buf0 : Bytes) : List (Instr SipCtx) :=
  [.alloc .ctx,
   .write .ctx [.key] fun | [.str k] => some (.ctx (sipInit k outlen buf0)) | _ => none]

/-- `caml_siphash_final`, src/stubs-siphash.c:37-45. -/
def siphashFinal (outlen : Nat) : List (Instr SipCtx) :=
  [.register [.ctx], .declare .res, .alloc .res,
   .write .res [.ctx] fun | [.ctx c] => (sipFinal outlen c).map fun r => .str r.1 | _ => none,
   .write .ctx [.ctx] fun | [.ctx c] => (sipFinal outlen c).map fun r => .ctx r.2 | _ => none]

/-- `caml_ghash_init` without PCLMUL, src/stubs-ghash.c:46-55: `key` is not registered. (With PCLMUL
it allocates nothing.) -/
def ghashInitStub : List (Instr GhashCtx) :=
  [.alloc .res,
   .write .res [.key] fun | [.str k] => if k.length < 16 then none else some (.ctx (ghashInit k)) | _ => none]

/-- `caml_aes_cook_encrypt_key`, src/stubs-aes.c:26-43, without AES-NI. -/
def aesCookEncrypt (junk : List W32) : List (Instr Aes.CKey) :=
  [.register [.key], .alloc .ckey,
   .write .ckey [.key] fun | [.str k] => some (.ctx (Aes.cookEnc junk k)) | _ => none]

/-- `caml_aes_cook_decrypt_key`, src/stubs-aes.c:45-62, without AES-NI. -/
def aesCookDecrypt (junk : List W32) : List (Instr Aes.CKey) :=
  [.register [.key], .alloc .ckey,
   .write .ckey [.key] fun | [.str k] => some (.ctx (Aes.cookDec junk k)) | _ => none]

/-- `caml_aes_cook_encrypt_key`, src/stubs-aes.c:26-43, with AES-NI. -/
def aesniCookEncrypt (junk pad : Bytes) : List (Instr Aesni.CKey) :=
  [.register [.key], .alloc .ckey,
   .write .ckey [.key] fun | [.str k] => (Aesni.cookEnc junk k pad).map .ctx | _ => none]

/-- `caml_aes_cook_decrypt_key`, src/stubs-aes.c:45-62, with AES-NI. -/
def aesniCookDecrypt (junk pad : Bytes) : List (Instr Aesni.CKey) :=
  [.register [.key], .alloc .ckey,
   .write .ckey [.key] fun | [.str k] => (Aesni.cookDec junk k pad).map .ctx | _ => none]

/-- `caml_des_cook_key`, src/stubs-des.c:23-31. -/
def desCookKey (ofs : Nat) (de1 : Bool) : List (Instr (List W32)) :=
  [.register [.key], .alloc .ckey,
   .write .ckey [.key] fun | [.str k] => (Des.camlCookKey k ofs de1).map .ctx | _ => none]

/-- `caml_blowfish_cook_key`, src/stubs-blowfish.c:21-29. -/
def blowfishCookKey : List (Instr Blowfish.Ctx) :=
  [.register [.key], .alloc .ckey,
   .write .ckey [.key] fun | [.str k] => some (.ctx (Blowfish.init k)) | _ => none]

/-- `caml_arcfour_cook_key`, src/stubs-arcfour.c:24-32. -/
def arcfourCookKey : List (Instr Arcfour) :=
  [.register [.key], .alloc .ckey,
   .write .ckey [.key] fun | [.str k] => some (.ctx (Verif.arcfourCookKey k)) | _ => none]

/-- `caml_chacha20_cook_key`, src/stubs-chacha20.c:24-33. The third argument is a boxed integer. -/
def chacha20CookKey (env : Env) : List (Instr ChaCha) :=
  [.register [.key, .iv, .counter], .alloc .ckey,
   .write .ckey [.key, .iv, .counter] fun
     | [.str k, .str iv, .int64 n] => some (.ctx (chachaInit env k iv n))
     | _ => none]

/-- `caml_blake2b_init`, src/stubs-blake2.c:24-32, and `caml_blake2s_init`, 53-61. -/
def blake2InitStub (p : Blake2Code w) (hashlen : Nat) (buf0 : Bytes) : List (Instr (Blake2Ctx w)) :=
  [.register [.key], .alloc .ctx,
   .write .ctx [.key] fun | [.str k] => (blake2Init p hashlen k buf0).map .ctx | _ => none]

/-- `caml_blake2b_final`, src/stubs-blake2.c:41-49, and `caml_blake2s_final`, 70-78. -/
def blake2FinalStub (p : Blake2Code w) (hashlen : Nat) : List (Instr (Blake2Ctx w)) :=
  [.register [.ctx], .declare .res, .alloc .res,
   .write .res [.ctx] fun | [.ctx c] => (blake2Final p hashlen c).map fun r => .str r.1 | _ => none,
   .write .ctx [.ctx] fun | [.ctx c] => (blake2Final p hashlen c).map fun r => .ctx r.2 | _ => none]

/-- `caml_blake3_init`, src/stubs-blake3.c:44-59. -/
def blake3InitStub (stack0 : Bytes) : List (Instr B3Hasher) :=
  [.register [.key], .alloc .res,
   .write .res [.key] fun | [.str k] => some (.ctx (b3Init k stack0)) | _ => none]

/-- `caml_poly1305_init`, src/stubs-poly1305.c:21-27. -/
def poly1305InitStub (buf0 : Bytes) : List (Instr PolyCtx) :=
  [.register [.key], .alloc .ctx,
   .write .ctx [.key] fun | [.str k] => some (.ctx (poly64Init k buf0)) | _ => none]

/-- `caml_poly1305_final`, src/stubs-poly1305.c:35-42. -/
def poly1305FinalStub : List (Instr PolyCtx) :=
  [.register [.ctx], .declare .res, .alloc .res,
   .write .res [.ctx] fun | [.ctx c] => (poly64Final c).map fun r => .str r.1 | _ => none,
   .write .ctx [.ctx] fun | [.ctx c] => (poly64Final c).map fun r => .ctx r.2 | _ => none]

/-- `caml_sha1_final`, src/stubs-sha1.c:34-42. -/
def sha1FinalStub : List (Instr Sha1Ctx) :=
  [.register [.ctx], .declare .res, .alloc .res,
   .write .res [.ctx] fun | [.ctx c] => (sha1Finish c).map fun r => .str r.1 | _ => none,
   .write .ctx [.ctx] fun | [.ctx c] => (sha1Finish c).map fun r => .ctx r.2 | _ => none]

/-- `caml_ripemd160_final`, src/stubs-ripemd160.c:34-42. -/
def ripemd160FinalStub : List (Instr Sha1Ctx) :=
  [.register [.ctx], .declare .res, .alloc .res,
   .write .res [.ctx] fun | [.ctx c] => (rmdFinish c).map fun r => .str r.1 | _ => none,
   .write .ctx [.ctx] fun | [.ctx c] => (rmdFinish c).map fun r => .ctx r.2 | _ => none]

/-- `caml_sha256_final`, `caml_sha224_final`, src/stubs-sha256.c:41-59; `caml_sha512_final`,
`caml_sha384_final`, src/stubs-sha512.c:41-59; `k` is the number of words of the result. -/
def sha2FinalStub (p : Sha2Code w) (k : Nat) : List (Instr (Sha2Ctx w)) :=
  [.register [.ctx], .declare .res, .alloc .res,
   .write .res [.ctx] fun | [.ctx c] => (sha2Finish p k c).map fun r => .str r.1 | _ => none,
   .write .ctx [.ctx] fun | [.ctx c] => (sha2Finish p k c).map fun r => .ctx r.2 | _ => none]

/-- `caml_sha3_extract`, src/stubs-sha3.c:69-77. -/
def sha3ExtractStub (padding : Byte) : List (Instr Sha3Ctx) :=
  [.register [.ctx], .declare .res, .alloc .res,
   .write .res [.ctx] fun | [.ctx c] => (sha3Extract padding c).map fun r => .str r.1 | _ => none,
   .write .ctx [.ctx] fun | [.ctx c] => (sha3Extract padding c).map fun r => .ctx r.2 | _ => none]

/-- `caml_blake3_extract`, src/stubs-blake3.c:70-78. -/
def blake3ExtractStub (len : Nat) : List (Instr B3Hasher) :=
  [.register [.ctx], .declare .res, .alloc .res,
   .write .res [.ctx] fun | [.ctx c] => (b3Finalize c len).map .str | _ => none]

/-- `caml_md5_final`, src/stubs-md5.c:52-60. -/
def md5FinalStub (E : Md5Engine γ) : List (Instr γ) :=
  [.register [.ctx], .declare .res, .alloc .res,
   .write .res [.ctx] fun | [.ctx c] => (md5Final E c).map fun r => .str r.1 | _ => none,
   .write .ctx [.ctx] fun | [.ctx c] => (md5Final E c).map fun r => .ctx r.2 | _ => none]

/-- `caml_md5_init`, src/stubs-md5.c:39-44. -/
def md5InitStub (E : Md5Engine γ) : List (Instr γ) :=
  [.alloc .ctx, .write .ctx [] fun _ => some (.ctx (md5Init E))]

/-- `caml_sha1_init`, src/stubs-sha1.c:21-26. -/
def sha1InitStub (buf0 : Bytes) : List (Instr Sha1Ctx) :=
  [.alloc .ctx, .write .ctx [] fun _ => some (.ctx (sha1Init buf0))]

/-- `caml_ripemd160_init`, src/stubs-ripemd160.c:21-26. -/
def ripemd160InitStub (buf0 : Bytes) : List (Instr Sha1Ctx) :=
  [.alloc .ctx, .write .ctx [] fun _ => some (.ctx (rmdInit buf0))]

/-- `caml_sha256_init`, `caml_sha224_init`, src/stubs-sha256.c:21-33; `caml_sha512_init`,
`caml_sha384_init`, src/stubs-sha512.c:21-33. `init` is the C function that they call, with its second argument. -/
def sha2InitStub (init : Bytes → Sha2Ctx w) (buf0 : Bytes) : List (Instr (Sha2Ctx w)) :=
  [.alloc .ctx, .write .ctx [] fun _ => some (.ctx (init buf0))]

/-- `caml_sha3_init`, src/stubs-sha3.c:40-50. The context is outside the OCaml heap: the custom block
points to it. -/
def sha3InitStub (sz : Nat) (buf0 : Bytes) : List (Instr Sha3Ctx) :=
  [.alloc .res, .write .res [] fun _ => some (.ctx (sha3InitC sz buf0))]

end Verif.Gc
