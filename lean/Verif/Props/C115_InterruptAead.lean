import Verif.Proof.InterruptAeadQuiet
import Verif.Props.C115_Interrupt
/-
C115 for the authenticated ciphers.
-/
namespace Verif

open Spec Cipher

/-- C115 for `AEAD.aes_gcm`, with or without AES-NI and PCLMUL: whatever the key, IV, header and
direction, whatever the points at which calls are interrupted, `finish_and_get_tag` included, after any
sequence of calls but `wipe`, completed or not, every call returns or raises an exception. -/
theorem C115_aes_gcm {env : Env} {host : AesHost} {pclmul : Bool} {header : Option Bytes} {iv key : Bytes}
    {dir : Dir} {sched : Sched} {A : AEAD.AnyAuth}
    (h : AEAD.aesGcmI env host pclmul header iv key dir sched = some (.ok A)) :
    MemorySafe (invokeA A.T) notWipeA A.t :=
  AEAD.aesGcmI_ok h

/-- C115 for `AEAD.chacha20_poly1305`, encryption, `wipe` included. -/
theorem C115_chapoly_encrypt {env : Env} {header iv key : Bytes} {sched : Sched} {A : AEAD.AnyAuth}
    (h : AEAD.chacha20Poly1305I env header iv key .encrypt sched = some (.ok A)) :
    MemorySafe (invokeA A.T) anyCall A.t :=
  AEAD.chacha20Poly1305I_ok h

/-- C115 for `AEAD.chacha20_poly1305`, decryption, provided that `put_substring` is given legal ranges
(otherwise memory is read out of bounds even without interruption:
`C65_chapoly_decrypt_out_of_bounds`). -/
theorem C115_chapoly_decrypt {env : Env} {header iv key : Bytes} {sched : Sched} {A : AEAD.AnyAuth}
    (h : AEAD.chacha20Poly1305I env header iv key .decrypt sched = some (.ok A)) :
    MemorySafe (invokeA A.T) inRangeA A.t :=
  AEAD.chacha20Poly1305I_ok h

/-- With interruption points at which nothing happens, these are the authenticated ciphers of
Model/Aead. -/
theorem C115_quiet_aead (env : Env) (dir : Dir) (ivLength : Nat) (aes : BlockCipher κ) :
    @Verif.aesGcmI κ (quiet κ) env aes dir = Verif.aesGcm env aes dir
      ∧ @Verif.chacha20Poly1305I ChaPolySt (quiet ChaPolySt) id (fun x _ => x) env ivLength dir
        = chacha20Poly1305 env ivLength dir :=
  ⟨Quiet.aesGcm_eq env aes dir, Quiet.chacha20Poly1305_eq env ivLength dir⟩

/-! ### An interrupted message has a wrong tag -/

/-- `put_string d`, again if it is interrupted, then `get_string` and `finish_and_get_tag`: the
exception, what is read and the tag. -/
def Example.sealRetry (A : AEAD.AnyAuth) (d : Bytes) : Option (Option Exn × Bytes × Bytes) :=
  let fin (e : Option Exn) (t : A.τ) := match A.T.base.getString t with
    | .ok o t =>
      match A.T.finishAndGetTag t with
      | .ok tag _ => some (e, o, tag)
      | _ => none
    | _ => none
  match A.T.base.putString d A.t with
  | .exn e t =>
    match A.T.base.putString d t with
    | .ok () t => fin (some e) t
    | _ => none
  | .ok () t => fin none t
  | _ => none

/-- The same, on the object if it was made. -/
def Example.sealed (r : Option (Except Exn AEAD.AnyAuth)) (d : Bytes) : Option (Option Exn × Bytes × Bytes) :=
  match r with
  | some (.ok A) => Example.sealRetry A d
  | _ => none

theorem Example.sealed_some {r : Option (Except Exn AEAD.AnyAuth)} {d : Bytes} {x : Option Exn × Bytes × Bytes}
    (h : Example.sealed r d = some x) : ∃ A, r = some (.ok A) ∧ Example.sealRetry A d = some x := by
  unfold Example.sealed at h
  split at h
  · exact ⟨_, rfl, h⟩
  · cases h

/-- `AEAD.chacha20_poly1305` with a fixed key and IV, interrupted at the `n`-th point. -/
def Example.chapolyAt (dir : Dir) (sched : Sched) : Option (Except Exn AEAD.AnyAuth) :=
  AEAD.chacha20Poly1305I Example.env64 [] (List.replicate 12 1) (List.replicate 32 2) dir sched

/-- Sealing goes wrong after an interruption, in a way that is noticed: with
`AEAD.chacha20_poly1305`, `put_string` is interrupted by an exception and is called again on the same
data; the ciphertext `o` that `get_string` then returns and the tag of `finish_and_get_tag` do not go
together: decrypting `o` gives another tag. -/
theorem C115_aead_rejected : ∃ (data : Bytes) (sched : Sched) (A B : AEAD.AnyAuth) (o tag p tag' : Bytes),
    Example.chapolyAt .encrypt sched = some (.ok A) ∧ Example.chapolyAt .decrypt [] = some (.ok B)
      ∧ Example.sealRetry A data = some (some .failure, o, tag)
      ∧ Example.sealRetry B o = some (none, p, tag')
      ∧ o.length = data.length ∧ tag'.length = tag.length ∧ tag' ≠ tag ∧ p ≠ data := by
  have h1 : Example.sealed (Example.chapolyAt .encrypt (Example.breakAt 4)) [1, 2, 3]
      = some (some .failure, [45, 171, 165],
        [71, 50, 244, 68, 89, 167, 114, 82, 125, 198, 15, 245, 60, 5, 130, 18]) := by decide +kernel
  have h2 : Example.sealed (Example.chapolyAt .decrypt []) [45, 171, 165]
      = some (none, [52, 102, 138],
        [177, 189, 6, 182, 192, 53, 147, 63, 47, 176, 182, 105, 84, 154, 196, 121]) := by decide +kernel
  obtain ⟨A, hA, hA'⟩ := Example.sealed_some h1
  obtain ⟨B, hB, hB'⟩ := Example.sealed_some h2
  exact ⟨_, _, A, B, _, _, _, _, hA, hB, hA', hB', by decide, by decide, by decide, by decide⟩

/-! ### The objects of the theorems exist, and are interrupted -/

/-- The exception raised by `put_string d` and, if there is none, by `finish_and_get_tag`, on an object,
if it was made. -/
def Example.interruptedA (r : Option (Except Exn AEAD.AnyAuth)) (d : Bytes) : Option Exn × Option Exn :=
  match r with
  | some (.ok A) =>
    match A.T.base.putString d A.t with
    | .exn e _ => (some e, none)
    | .ok () t =>
      match A.T.finishAndGetTag t with
      | .exn e _ => (none, some e)
      | _ => (none, none)
    | _ => (none, none)
  | _ => (none, none)

/-- The two exceptions, on an object. -/
theorem Example.interruptedA_put {r : Option (Except Exn AEAD.AnyAuth)} {d : Bytes} {e : Exn}
    (h : Example.interruptedA r d = (some e, none)) :
    ∃ A t, r = some (.ok A) ∧ A.T.base.putString d A.t = .exn e t := by
  unfold Example.interruptedA at h
  split at h
  · next A =>
    refine ⟨A, ?_⟩
    cases hp : A.T.base.putString d A.t with
    | exn e' t => rw [hp] at h; cases h; exact ⟨t, rfl, rfl⟩
    | ok a t => rw [hp] at h; simp only at h; split at h <;> cases h
    | _ => rw [hp] at h; cases h
  · cases h
theorem Example.interruptedA_finish {r : Option (Except Exn AEAD.AnyAuth)} {d : Bytes} {e : Exn}
    (h : Example.interruptedA r d = (none, some e)) :
    ∃ A t t', r = some (.ok A) ∧ A.T.base.putString d A.t = .ok () t ∧ A.T.finishAndGetTag t = .exn e t' := by
  unfold Example.interruptedA at h
  split at h
  · next A =>
    refine ⟨A, ?_⟩
    cases hp : A.T.base.putString d A.t with
    | exn e' t => rw [hp] at h; cases h
    | ok a t =>
      rw [hp] at h
      cases hf : A.T.finishAndGetTag t with
      | exn e' t' => simp only [hf] at h; cases h; exact ⟨t, t', rfl, rfl, hf⟩
      | _ => simp only [hf] at h; cases h
    | _ => rw [hp] at h; cases h
  · cases h

/-- AES-GCM, interrupted in `put_string`. -/
example : ∃ A t, AEAD.aesGcmI Example.env64 (.table (List.replicate 61 0)) false none (List.replicate 12 1)
      Example.aesKey .encrypt (Example.breakAt 9) = some (.ok A)
    ∧ A.T.base.putString (List.replicate 20 7) A.t = .exn .failure t
    ∧ MemorySafe (invokeA A.T) notWipeA A.t := by
  obtain ⟨A, t, h1, h2⟩ := Example.interruptedA_put (d := List.replicate 20 7) (e := .failure)
    (r := AEAD.aesGcmI Example.env64 (.table (List.replicate 61 0)) false none (List.replicate 12 1)
      Example.aesKey .encrypt (Example.breakAt 9)) (by decide +kernel)
  exact ⟨A, t, h1, h2, C115_aes_gcm h1⟩

/-- AES-GCM, interrupted in `finish_and_get_tag`. -/
example : ∃ A t t', AEAD.aesGcmI Example.env64 (.table (List.replicate 61 0)) false none (List.replicate 12 1)
      Example.aesKey .decrypt (Example.breakAt 25) = some (.ok A)
    ∧ A.T.base.putString (List.replicate 20 7) A.t = .ok () t
    ∧ A.T.finishAndGetTag t = .exn .failure t'
    ∧ MemorySafe (invokeA A.T) notWipeA A.t := by
  obtain ⟨A, t, t', h1, h2, h3⟩ := Example.interruptedA_finish (d := List.replicate 20 7) (e := .failure)
    (r := AEAD.aesGcmI Example.env64 (.table (List.replicate 61 0)) false none (List.replicate 12 1)
      Example.aesKey .decrypt (Example.breakAt 25)) (by decide +kernel)
  exact ⟨A, t, t', h1, h2, h3, C115_aes_gcm h1⟩

/-- ChaCha20-Poly1305, both directions. -/
example : ∃ A t, Example.chapolyAt .encrypt (Example.breakAt 4) = some (.ok A)
    ∧ A.T.base.putString [1, 2, 3] A.t = .exn .failure t ∧ MemorySafe (invokeA A.T) anyCall A.t := by
  obtain ⟨A, t, h1, h2⟩ := Example.interruptedA_put (d := [1, 2, 3]) (e := .failure)
    (r := Example.chapolyAt .encrypt (Example.breakAt 4)) (by decide +kernel)
  exact ⟨A, t, h1, h2, C115_chapoly_encrypt h1⟩
example : ∃ A t, Example.chapolyAt .decrypt (Example.breakAt 4) = some (.ok A)
    ∧ A.T.base.putString [1, 2, 3] A.t = .exn .failure t ∧ MemorySafe (invokeA A.T) inRangeA A.t := by
  obtain ⟨A, t, h1, h2⟩ := Example.interruptedA_put (d := [1, 2, 3]) (e := .failure)
    (r := Example.chapolyAt .decrypt (Example.breakAt 4)) (by decide +kernel)
  exact ⟨A, t, h1, h2, C115_chapoly_decrypt h1⟩

end Verif
