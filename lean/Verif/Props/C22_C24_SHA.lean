import Verif.Proof.SHA
import Verif.Props.Example
import Verif.Model.Stream
/-
C22, C23, C24: SHA-1 and SHA-2 objects return the FIPS 180-4 digest of the concatenation of the
data added, for every message and every split into calls. (`Spec.SHA1` etc. encode the message
length in bits in 64 or 128 bits, which is the standard's encoding for all lengths the standard
allows; the theorems also hold beyond, where the length is reduced modulo 2^64 or 2^128.)
-/
namespace Verif

/-- C22. -/
theorem C22_sha1 (buf0 : Bytes) (h : buf0.length = 64) : sha1.Computes (sha1Init buf0) Spec.SHA1 :=
  stubHash_computes sha1_spec (sha1Rep_init h)

/-- C23, SHA-224. -/
theorem C23_sha224 (buf0 : Bytes) (h : buf0.length = 64) :
    sha224.Computes (sha224Init buf0) Spec.SHA224 := by
  have := stubHash_computes (size := 24) (wipe := sha2Wipe)
    (sha2_spec sha256_conforms rfl (.inl rfl) (sha224Init []).buf.h 7)
    (sha2Rep_init _ (by decide) (buf := buf0) h)
  rw [iv224] at this
  exact this

/-- C23, SHA-256. -/
theorem C23_sha256 (buf0 : Bytes) (h : buf0.length = 64) :
    sha256.Computes (sha256Init buf0) Spec.SHA256 := by
  have := stubHash_computes (size := 32) (wipe := sha2Wipe)
    (sha2_spec sha256_conforms rfl (.inl rfl) (sha256Init []).buf.h 8)
    (sha2Rep_init _ (by decide) (buf := buf0) h)
  rw [iv256] at this
  exact this

/-- C24, SHA-384. -/
theorem C24_sha384 (buf0 : Bytes) (h : buf0.length = 128) :
    sha384.Computes (sha384Init buf0) Spec.SHA384 := by
  have := stubHash_computes (size := 48) (wipe := sha2Wipe)
    (sha2_spec sha512_conforms rfl (.inr rfl) (sha384Init []).buf.h 6)
    (sha2Rep_init _ (by decide) (buf := buf0) h)
  rw [iv384] at this
  exact this

/-- C24, SHA-512. -/
theorem C24_sha512 (buf0 : Bytes) (h : buf0.length = 128) :
    sha512.Computes (sha512Init buf0) Spec.SHA512 := by
  have := stubHash_computes (size := 64) (wipe := sha2Wipe)
    (sha2_spec sha512_conforms rfl (.inr rfl) (sha512Init []).buf.h 8)
    (sha2Rep_init _ (by decide) (buf := buf0) h)
  rw [iv512] at this
  exact this

/-- `hash_string (Hash.sha256()) s` is the digest of `s`. -/
theorem C23_sha256_hash_string (buf0 : Bytes) (h : buf0.length = 64) (s : Bytes)
    (hs : s.length ≤ maxString) :
    (hashString sha256 s (sha256Init buf0)).observe = some (.ok (Spec.SHA256 s)) := by
  have := hashString_ok (size := 32) (wipe := sha2Wipe)
    (sha2_spec sha256_conforms rfl (.inl rfl) (sha256Init []).buf.h 8)
    (sha2Rep_init _ (by decide) (buf := buf0) h) s hs
  rw [iv256] at this
  exact this

namespace Example

/-- "abc" added in three different ways. -/
def hops : List HOp :=
  [.addSubstring [0x7a, 0x61, 0x7a] 1 1, .addChar 0x62, .addString [], .addByte 0x163]

theorem hops_legal : ∀ op ∈ hops, op.Legal := by
  intro op h
  simp only [hops, List.mem_cons, List.mem_nil_iff, or_false] at h
  rcases h with rfl | rfl | rfl | rfl
  · exact ⟨by decide +kernel, by decide, by decide, by decide⟩
  · trivial
  · exact Nat.zero_le _
  · trivial

theorem hops_input : hinputOf hops = ascii "abc" := by decide

/-- The standard's test vector, obtained by running the model. -/
theorem sha1_abc : Spec.SHA1 (ascii "abc")
    = natToBE 20 0xa9993e364706816aba3e25717850c26c9cd0d89d := by
  have h := C22_sha1 (List.replicate 64 0x55) (by decide) hops hops_legal
  rw [hops_input] at h
  have e : (sha1.digest hops (sha1Init (List.replicate 64 0x55))).observe
      = some (.ok (natToBE 20 0xa9993e364706816aba3e25717850c26c9cd0d89d)) := by decide +kernel
  rw [e] at h
  simpa using h.symm

end Example

end Verif
