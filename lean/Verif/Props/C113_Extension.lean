import Verif.Spec.Extension
import Verif.Props.C79_Collision
/-
C113: length extension of SHA-1, SHA-256, SHA-512, RIPEMD-160 and MD5 objects: whoever knows the
digest and the length of a message, but not the message, can compute the digest of the message
followed by its padding and any further data.
-/
namespace Verif

open Spec

theorem glue_pad (n : Nat) (enc : Nat → Bytes) (m : Bytes) :
    m ++ glue n enc m.length = mdPad n m (enc m.length) := by
  simp only [glue, mdPad, List.append_assoc]

theorem chunks_split {n : Nat} (hn : 0 < n) (a b : Bytes) (ha : n ∣ a.length) :
    chunks n (a ++ b) = chunks n a ++ chunks n b := by
  have fa := chunks_flatten hn a
  have la := chunks_length_of_dvd hn a ha
  generalize chunks n a = L at fa la
  subst fa
  clear ha
  induction L with
  | nil => rfl
  | cons x L ih =>
    rw [List.flatten_cons, List.append_assoc, chunks_append hn (la x List.mem_cons_self),
      ih fun y hy => la y (List.mem_cons_of_mem _ hy)]
    rfl

/-- The iteration, on a message, its padding and further data. -/
theorem md_resume {n : Nat} (hn : 0 < n) (c : γ → Bytes → γ) (iv : γ) (enc : Nat → Bytes)
    (m x : Bytes) :
    merkleDamgard n c iv (mdPad n (m ++ glue n enc m.length ++ x)
        (enc (m ++ glue n enc m.length ++ x).length))
      = resume n c enc (merkleDamgard n c iv (mdPad n m (enc m.length)))
          (m.length + (glue n enc m.length).length) x := by
  have hl : (m ++ glue n enc m.length ++ x).length
      = m.length + (glue n enc m.length).length + x.length := by
    rw [List.length_append, List.length_append]
  rw [← glue_pad, hl, List.append_assoc (m ++ _), resume, merkleDamgard, glue_pad,
    chunks_split hn _ _ (mdPad_dvd hn m _), List.foldl_append]
  rfl

theorem wordBE_digest {k w : Nat} (hw : 2 ^ w = 256 ^ k) (ws : List (BitVec w)) (t : Nat)
    (ht : t < ws.length) : wordBE k w (digestBE k ws) t = ws.getD t 0 := by
  induction ws generalizing t with
  | nil => simp at ht
  | cons x ws ih =>
    have e : digestBE k (x :: ws) = natToBE k x.toNat ++ digestBE k ws := rfl
    cases t with
    | zero =>
      rw [wordBE, e, Nat.mul_zero, List.drop_zero, List.take_left' (natToBE_length _ _),
        beNat_natToBE, ← hw, Nat.mod_eq_of_lt x.isLt, BitVec.ofNat_toNat, BitVec.setWidth_eq]
      rfl
    | succ t =>
      have := ih t (by simpa using ht)
      rw [wordBE, e, Nat.mul_succ, Nat.add_comm, ← List.drop_drop,
        List.drop_left' (natToBE_length _ _)]
      rw [wordBE] at this
      rw [this]
      rfl

theorem wordLE_digest (ws : List (BitVec 32)) (t : Nat) (ht : t < ws.length) :
    Ripemd.wordLE (ws.map fun x => natToLE 4 x.toNat).flatten t = ws.getD t 0 := by
  induction ws generalizing t with
  | nil => simp at ht
  | cons x ws ih =>
    rw [List.map_cons, List.flatten_cons]
    cases t with
    | zero =>
      rw [Ripemd.wordLE, Nat.mul_zero, List.drop_zero, List.take_left' (natToLE_length _ _),
        leNat_natToLE, Nat.mod_eq_of_lt x.isLt, BitVec.ofNat_toNat, BitVec.setWidth_eq]
      rfl
    | succ t =>
      have := ih t (by simpa using ht)
      rw [Ripemd.wordLE, Nat.mul_succ, Nat.add_comm, ← List.drop_drop,
        List.drop_left' (natToLE_length _ _)]
      rw [Ripemd.wordLE] at this
      rw [this]
      rfl

theorem extend_sha1 (m x : Bytes) :
    SHA1 (m ++ glue 64 bits64BE m.length ++ x) = extendSHA1 (SHA1 m) m.length x := by
  have e := md_resume (by decide) sha1Compress sha1IV bits64BE (n := 64) m x
  simp only [bits64BE] at e
  simp only [SHA1, extendSHA1]
  rw [wordBE_digest (by decide) _ 0 (by simp), wordBE_digest (by decide) _ 1 (by simp),
    wordBE_digest (by decide) _ 2 (by simp), wordBE_digest (by decide) _ 3 (by simp),
    wordBE_digest (by decide) _ 4 (by simp)]
  exact congrArg (fun h : H5 => digestBE 4 [h.a, h.b, h.c, h.d, h.e]) e

theorem h8Of_digest {k w : Nat} (hw : 2 ^ w = 256 ^ k) (h : H8 w) :
    h8Of k w (digestBE k [h.a, h.b, h.c, h.d, h.e, h.f, h.g, h.h]) = h := by
  rw [h8Of, wordBE_digest hw _ 0 (by simp), wordBE_digest hw _ 1 (by simp),
    wordBE_digest hw _ 2 (by simp), wordBE_digest hw _ 3 (by simp),
    wordBE_digest hw _ 4 (by simp), wordBE_digest hw _ 5 (by simp),
    wordBE_digest hw _ 6 (by simp), wordBE_digest hw _ 7 (by simp)]
  rfl

theorem extend_sha256 (m x : Bytes) :
    SHA256 (m ++ glue 64 bits64BE m.length ++ x) = extendSHA256 (SHA256 m) m.length x := by
  have e := md_resume (by decide) (sha2Compress params256 4) IV256 bits64BE (n := 64) m x
  simp only [SHA256, extendSHA256, sha2Words]
  rw [h8Of_digest (by decide)]
  exact congrArg (fun h : H8 32 => digestBE 4 [h.a, h.b, h.c, h.d, h.e, h.f, h.g, h.h]) e

theorem extend_sha512 (m x : Bytes) :
    SHA512 (m ++ glue 128 bits128BE m.length ++ x) = extendSHA512 (SHA512 m) m.length x := by
  have e := md_resume (by decide) (sha2Compress params512 8) IV512 bits128BE (n := 128) m x
  simp only [SHA512, extendSHA512, sha2Words]
  rw [h8Of_digest (by decide)]
  exact congrArg (fun h : H8 64 => digestBE 8 [h.a, h.b, h.c, h.d, h.e, h.f, h.g, h.h]) e

theorem extend_ripemd160 (m x : Bytes) :
    RIPEMD160 (m ++ glue 64 bits64LE m.length ++ x) = extendRIPEMD160 (RIPEMD160 m) m.length x := by
  have e := md_resume (by decide) Ripemd.compress sha1IV bits64LE (n := 64) m x
  simp only [RIPEMD160, extendRIPEMD160]
  rw [wordLE_digest _ 0 (by simp), wordLE_digest _ 1 (by simp), wordLE_digest _ 2 (by simp),
    wordLE_digest _ 3 (by simp), wordLE_digest _ 4 (by simp)]
  exact congrArg
    (fun h : H5 => ([h.a, h.b, h.c, h.d, h.e].map fun x => natToLE 4 x.toNat).flatten) e

theorem extend_md5 (m x : Bytes) :
    MD5 (m ++ glue 64 bits64LE m.length ++ x) = extendMD5 (MD5 m) m.length x := by
  have e := md_resume (by decide) Md5.compress md5IV bits64LE (n := 64) m x
  simp only [MD5, extendMD5]
  rw [wordLE_digest _ 0 (by simp), wordLE_digest _ 1 (by simp), wordLE_digest _ 2 (by simp),
    wordLE_digest _ 3 (by simp)]
  exact congrArg
    (fun h : Md5.State => ([h.a, h.b, h.c, h.d].map fun x => natToLE 4 x.toNat).flatten) e

theorem digest_extends {f : Bytes → Bytes} {ext : Bytes → Nat → Bytes → Bytes} {g : Nat → Bytes}
    (hf : ∀ m x, f (m ++ g m.length ++ x) = ext (f m) m.length x)
    {τ τ' : Type} {o : Out τ Bytes} {o' : Out τ' Bytes} {m m' d x : Bytes}
    (h : o.observe = some (.ok (f m))) (h' : o'.observe = some (.ok (f m')))
    (hd : o.observe = some (.ok d)) (hm : m' = m ++ g m.length ++ x) :
    o'.observe = some (.ok (ext d m.length x)) := by
  rw [h] at hd
  have hd : f m = d := by simpa using hd
  rw [h', hm, hf, hd]

/-- C113, `Hash.sha1`. If an object that has been fed some data yields `d`, then an object that is
fed, in any pieces, the same data, then the padding for that many bytes, then `x`, yields what
`extendSHA1` computes from `d`, the number of bytes and `x`. -/
theorem C113_sha1 (buf0 buf0' : Bytes) (h : buf0.length = 64) (h' : buf0'.length = 64)
    (ops ops' : List HOp) (hl : ∀ op ∈ ops, op.Legal) (hl' : ∀ op ∈ ops', op.Legal) (d x : Bytes)
    (hd : (sha1.digest ops (sha1Init buf0)).observe = some (.ok d))
    (hx : hinputOf ops' = hinputOf ops ++ glue 64 bits64BE (hinputOf ops).length ++ x) :
    (sha1.digest ops' (sha1Init buf0')).observe
      = some (.ok (extendSHA1 d (hinputOf ops).length x)) :=
  digest_extends extend_sha1 (C22_sha1 buf0 h ops hl) (C22_sha1 buf0' h' ops' hl') hd hx

/-- C113, `Hash.sha256`. -/
theorem C113_sha256 (buf0 buf0' : Bytes) (h : buf0.length = 64) (h' : buf0'.length = 64)
    (ops ops' : List HOp) (hl : ∀ op ∈ ops, op.Legal) (hl' : ∀ op ∈ ops', op.Legal) (d x : Bytes)
    (hd : (sha256.digest ops (sha256Init buf0)).observe = some (.ok d))
    (hx : hinputOf ops' = hinputOf ops ++ glue 64 bits64BE (hinputOf ops).length ++ x) :
    (sha256.digest ops' (sha256Init buf0')).observe
      = some (.ok (extendSHA256 d (hinputOf ops).length x)) :=
  digest_extends extend_sha256 (C23_sha256 buf0 h ops hl) (C23_sha256 buf0' h' ops' hl') hd hx

/-- C113, `Hash.sha512`. -/
theorem C113_sha512 (buf0 buf0' : Bytes) (h : buf0.length = 128) (h' : buf0'.length = 128)
    (ops ops' : List HOp) (hl : ∀ op ∈ ops, op.Legal) (hl' : ∀ op ∈ ops', op.Legal) (d x : Bytes)
    (hd : (sha512.digest ops (sha512Init buf0)).observe = some (.ok d))
    (hx : hinputOf ops' = hinputOf ops ++ glue 128 bits128BE (hinputOf ops).length ++ x) :
    (sha512.digest ops' (sha512Init buf0')).observe
      = some (.ok (extendSHA512 d (hinputOf ops).length x)) :=
  digest_extends extend_sha512 (C24_sha512 buf0 h ops hl) (C24_sha512 buf0' h' ops' hl') hd hx

/-- C113, `Hash.ripemd160`. -/
theorem C113_ripemd160 (buf0 buf0' : Bytes) (h : buf0.length = 64) (h' : buf0'.length = 64)
    (ops ops' : List HOp) (hl : ∀ op ∈ ops, op.Legal) (hl' : ∀ op ∈ ops', op.Legal) (d x : Bytes)
    (hd : (ripemd160.digest ops (rmdInit buf0)).observe = some (.ok d))
    (hx : hinputOf ops' = hinputOf ops ++ glue 64 bits64LE (hinputOf ops).length ++ x) :
    (ripemd160.digest ops' (rmdInit buf0')).observe
      = some (.ok (extendRIPEMD160 d (hinputOf ops).length x)) :=
  digest_extends extend_ripemd160 (C26_ripemd160 buf0 h ops hl) (C26_ripemd160 buf0' h' ops' hl')
    hd hx

/-- C113, `Hash.md5`, when no call adds 4 GiB or more. -/
theorem C113_md5 (E : Md5Engine γ) (hE : E.Correct)
    (ops ops' : List HOp) (hl : ∀ op ∈ ops, op.Legal) (hl' : ∀ op ∈ ops', op.Legal)
    (small : ∀ op ∈ ops, op.input.length < 2 ^ 32) (small' : ∀ op ∈ ops', op.input.length < 2 ^ 32)
    (d x : Bytes) (hd : ((md5 E).digest ops (md5Init E)).observe = some (.ok d))
    (hx : hinputOf ops' = hinputOf ops ++ glue 64 bits64LE (hinputOf ops).length ++ x) :
    ((md5 E).digest ops' (md5Init E)).observe
      = some (.ok (extendMD5 d (hinputOf ops).length x)) :=
  digest_extends extend_md5 (C69_md5_partial E hE ops hl small)
    (C69_md5_partial E hE ops' hl' small') hd hx

namespace Example

/-- A tag made by hashing a secret key of 16 bytes followed by a message of 8 bytes: without the key
one can compute the tag of the message, the padding for 24 bytes, and 9 bytes of one's choice. -/
example (key m y buf0 buf0' d : Bytes) (hk : key.length = 16) (hm : m.length = 8)
    (hy : y.length = 9) (h : buf0.length = 64) (h' : buf0'.length = 64)
    (hd : (sha256.digest [.addString key, .addString m] (sha256Init buf0)).observe
      = some (.ok d)) :
    (sha256.digest [.addString key, .addString (m ++ glue 64 bits64BE 24 ++ y)]
        (sha256Init buf0')).observe = some (.ok (extendSHA256 d 24 y)) := by
  have hg : (glue 64 bits64BE 24).length = 40 := by decide +kernel
  have hn : (hinputOf [.addString key, .addString m]).length = 24 := by
    simp [hinputOf, HOp.input, hk, hm]
  have ms : 1000 ≤ maxString := by decide +kernel
  have := C113_sha256 buf0 buf0' h h' [.addString key, .addString m]
    [.addString key, .addString (m ++ glue 64 bits64BE 24 ++ y)]
    (by
      intro op ho
      simp only [List.mem_cons, List.not_mem_nil, or_false] at ho
      rcases ho with rfl | rfl
      · show key.length ≤ maxString; omega
      · show m.length ≤ maxString; omega)
    (by
      intro op ho
      simp only [List.mem_cons, List.not_mem_nil, or_false] at ho
      rcases ho with rfl | rfl
      · show key.length ≤ maxString; omega
      · show (m ++ glue 64 bits64BE 24 ++ y).length ≤ maxString
        rw [List.length_append, List.length_append]; omega)
    d y hd (by rw [hn]; simp [hinputOf, HOp.input])
  rwa [hn] at this

/-- The functions compute digests: those of "abc", its padding and "def" from that of "abc". -/
example : extendMD5 (MD5 [97, 98, 99]) 3 [100, 101, 102]
    = MD5 ([97, 98, 99] ++ glue 64 bits64LE 3 ++ [100, 101, 102]) := (extend_md5 [97, 98, 99] _).symm

end Example

end Verif
