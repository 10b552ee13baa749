import Verif.Proof.InterruptQuiet
import Verif.Props.C63_C65_Safety
/-
C115: asynchronous exceptions. The program may be interrupted, in the middle of any call and any
number of times, by a signal handler that raises an exception; whatever was left undone, the object
can still be used without any access out of bounds.
-/
namespace Verif

open Spec Cipher

/-- C115 for `Cipher.des`: whatever the key, mode, padding, IV and direction, whatever the points at
which calls are interrupted, after any sequence of calls, completed or not, every call returns or
raises an exception: it accesses no memory out of bounds and it ends. -/
theorem C115_des {env : Env} {mode : Option Mode} {pad : Option PadScheme} {iv : Option Bytes}
    {key : Bytes} {dir : Dir} {sched : Sched} {A : AnyTransform} (hp : ∀ p, pad = some p → PadKeeps p)
    (h : desI env mode pad iv key dir sched = some (.ok A)) : MemorySafe (invoke A.T) anyCall A.t :=
  (makeI_ok hp (fun _ hb => (desBlock_ok hb).1) h).any

/-- C115 for `Cipher.triple_des`. -/
theorem C115_triple_des {env : Env} {mode : Option Mode} {pad : Option PadScheme} {iv : Option Bytes}
    {key : Bytes} {dir : Dir} {sched : Sched} {A : AnyTransform} (hp : ∀ p, pad = some p → PadKeeps p)
    (h : tripleDesI env mode pad iv key dir sched = some (.ok A)) :
    MemorySafe (invoke A.T) anyCall A.t :=
  (makeI_ok hp (fun _ hb => (tripleDesBlock_ok hb).1) h).any

/-- C115 for `Cipher.blowfish`. -/
theorem C115_blowfish {env : Env} {mode : Option Mode} {pad : Option PadScheme} {iv : Option Bytes}
    {key : Bytes} {dir : Dir} {sched : Sched} {A : AnyTransform} (hp : ∀ p, pad = some p → PadKeeps p)
    (h : blowfishI env mode pad iv key dir sched = some (.ok A)) :
    MemorySafe (invoke A.T) anyCall A.t :=
  (makeI_ok hp (fun _ hb => (blowfishBlock_ok hb).1) h).any

/-- C115 for `Cipher.aes`, with or without AES-NI, as long as `wipe` is not called (after it, calls
are out of bounds even without interruption: `C63_aes_encrypt_after_wipe_out_of_bounds`). -/
theorem C115_aes {env : Env} {host : AesHost} {mode : Option Mode} {pad : Option PadScheme}
    {iv : Option Bytes} {key : Bytes} {dir : Dir} {sched : Sched} {A : AnyTransform}
    (hp : ∀ p, pad = some p → PadKeeps p)
    (h : aesI env host mode pad iv key dir sched = some (.ok A)) :
    MemorySafe (invoke A.T) notWipe A.t :=
  (makeI_ok hp (fun _ hb => (aesBlock_ok hb).1) h).notWipe

/-- C115 for `Cipher.arcfour`. -/
theorem C115_arcfour {env : Env} {key : Bytes} {dir : Dir} {sched : Sched} {A : AnyTransform}
    (h : arcfourI env key dir sched = .ok A) : MemorySafe (invoke A.T) anyCall A.t :=
  (arcfourI_ok h).any

/-- C115 for `Cipher.chacha20`. -/
theorem C115_chacha20 {env : Env} {iv : Option Bytes} {ctr : Option W64} {key : Bytes} {dir : Dir}
    {sched : Sched} {A : AnyTransform} (h : chacha20I env iv ctr key dir sched = .ok A) :
    MemorySafe (invoke A.T) anyCall A.t :=
  (chacha20I_ok h).any

/-! ### The interruptible model is the model

With interruption points at which nothing happens, each of the interruptible transforms is the one of
Model/Transform: the theorems above are about the same code. -/

/-- The class `cipher`, with or without padding. -/
theorem C115_quiet_cipher (env : Env) (p : PadScheme) (c : BlockCipher σ) :
    @blockTransformI σ (quiet σ) env c = blockTransform env c
      ∧ @paddedEncryptI σ (quiet σ) env p c = paddedEncrypt env p c
      ∧ @paddedDecryptI σ (quiet σ) env p c = paddedDecrypt env p c :=
  ⟨Quiet.blockTransform_eq env c, Quiet.paddedEncrypt_eq env p c, Quiet.paddedDecrypt_eq env p c⟩

/-- The chaining modes. -/
theorem C115_quiet_modes (n : Nat) (c : BlockCipher σ) :
    @cbcEncryptI σ (quiet σ) c = cbcEncrypt c ∧ @cbcDecryptI σ (quiet σ) c = cbcDecrypt c
      ∧ @cfbEncryptI σ (quiet σ) n c = cfbEncrypt n c ∧ @cfbDecryptI σ (quiet σ) n c = cfbDecrypt n c
      ∧ @ofbI σ (quiet σ) n c = ofb n c ∧ @ctrI σ (quiet σ) n c = ctr n c :=
  ⟨Quiet.cbcEncrypt_eq c, Quiet.cbcDecrypt_eq c, Quiet.cfbEncrypt_eq n c, Quiet.cfbDecrypt_eq n c,
    Quiet.ofb_eq n c, Quiet.ctr_eq n c⟩

/-- The class `Stream.cipher`. -/
theorem C115_quiet_stream (env : Env) (c : StreamCipher σ) :
    @streamTransformI σ (quiet σ) env c = streamTransform env c :=
  Quiet.streamTransform_eq env c

/-! ### An interrupted call is neither done nor undone -/

/-- Nothing at the first `n` interruption points, then an exception, then nothing any more. -/
def Example.breakAt (n : Nat) : Sched := List.replicate n none ++ [some .failure]

/-- `put_string d` and `get_string`: the exception raised by the first one, if any, after which it is
called again; and what is read. -/
def Example.retry (A : AnyTransform) (d : Bytes) : Option Exn × Option Bytes :=
  let get (t : A.τ) := match A.T.getString t with
    | .ok o _ => some o
    | _ => none
  match A.T.putString d A.t with
  | .exn e t =>
    match A.T.putString d t with
    | .ok () t => (some e, get t)
    | _ => (some e, none)
  | .ok () t => (none, get t)
  | _ => (none, none)

/-- A call that was interrupted cannot be made again: with `Cipher.arcfour`, `put_string` is
interrupted by an exception, is called again on the same data and returns; what `get_string` then
returns is not what it returns without interruption, the key stream having advanced. -/
theorem C115_not_atomic : ∃ (env : Env) (key data : Bytes) (sched : Sched) (A B : AnyTransform)
    (o o' : Bytes), arcfourI env key .encrypt sched = .ok A ∧ arcfourI env key .encrypt [] = .ok B
      ∧ Example.retry A data = (some .failure, some o) ∧ Example.retry B data = (none, some o')
      ∧ o.length = o'.length ∧ o ≠ o' := by
  have h : ∃ A B, arcfourI Example.env64 [1, 2, 3, 4, 5] .encrypt (Example.breakAt 2) = .ok A
      ∧ arcfourI Example.env64 [1, 2, 3, 4, 5] .encrypt [] = .ok B := ⟨_, _, rfl, rfl⟩
  obtain ⟨A, B, hA, hB⟩ := h
  refine ⟨_, _, [10, 20, 30], _, A, B, [0x0f, 0xe4, 0x23], [0xb8, 0x2d, 0x7d], hA, hB, ?_, ?_,
    by decide, by decide⟩
  · have : (arcfourI Example.env64 [1, 2, 3, 4, 5] .encrypt (Example.breakAt 2)).map
        (Example.retry · [10, 20, 30]) = .ok (some .failure, some [0x0f, 0xe4, 0x23]) := by
      decide +kernel
    rw [hA] at this
    exact Except.ok.inj this
  · have : (arcfourI Example.env64 [1, 2, 3, 4, 5] .encrypt []).map
        (Example.retry · [10, 20, 30]) = .ok (none, some [0xb8, 0x2d, 0x7d]) := by
      decide +kernel
    rw [hB] at this
    exact Except.ok.inj this

/-- `put_string d`, `n` times `get_char`, then `put_string d'`: the exception that the latter raises,
what `available_output` then returns and the exception that `get_string` raises. -/
def Example.pending (A : AnyTransform) (d : Bytes) (n : Nat) (d' : Bytes) :
    Option (Exn × Int × Exn) :=
  let rec chars : Nat → A.τ → Option A.τ
    | 0, t => some t
    | n + 1, t =>
      match A.T.getChar t with
      | .ok _ t => chars n t
      | _ => none
  match A.T.putString d A.t with
  | .ok () t =>
    match chars n t with
    | some t =>
      match A.T.putString d' t with
      | .exn e t =>
        match A.T.availableOutput t, A.T.getString t with
        | .ok n _, .exn e' _ => some (e, n, e')
        | _, _ => none
      | _ => none
    | none => none
  | _ => none

/-- Pending output can be lost: with `Cipher.arcfour`, 50 bytes of output being available, `put_string`
is interrupted by an exception; after that `available_output` returns -100 and `get_string` raises
`Invalid_argument`. -/
theorem C115_output_lost : ∃ (env : Env) (key d d' : Bytes) (n : Nat) (sched : Sched) (A : AnyTransform),
    arcfourI env key .encrypt sched = .ok A ∧ d.length = n + 50
      ∧ Example.pending A d n d' = some (.failure, -100, .invalidArg) := by
  have h : ∃ A, arcfourI Example.env64 [1, 2, 3, 4, 5] .encrypt (Example.breakAt 456) = .ok A :=
    ⟨_, rfl⟩
  obtain ⟨A, hA⟩ := h
  refine ⟨_, _, List.replicate 200 0, List.replicate 100 0, 150, _, A, hA, List.length_replicate, ?_⟩
  have : (arcfourI Example.env64 [1, 2, 3, 4, 5] .encrypt (Example.breakAt 456)).map
      (Example.pending · (List.replicate 200 0) 150 (List.replicate 100 0))
        = .ok (some (.failure, -100, .invalidArg)) := by
    decide +kernel
  rw [hA] at this
  exact Except.ok.inj this

/-! ### The objects of the theorems exist, and are interrupted -/

/-- The exception raised by `put_string d` on an object, if it was made. -/
def Example.interrupted (r : Option (Except Exn AnyTransform)) (d : Bytes) : Option Exn :=
  match r with
  | some (.ok A) => (Example.retry A d).1
  | _ => none

theorem Example.interrupted_some {r : Option (Except Exn AnyTransform)} {d : Bytes} {e : Exn}
    (h : Example.interrupted r d = some e) :
    ∃ A t, r = some (.ok A) ∧ A.T.putString d A.t = .exn e t := by
  unfold Example.interrupted at h
  split at h
  · next A =>
    refine ⟨A, ?_⟩
    unfold Example.retry at h
    cases hp : A.T.putString d A.t with
    | exn e' t =>
      rw [hp] at h
      refine ⟨t, rfl, ?_⟩
      simp only at h
      split at h <;> simp_all
    | _ => rw [hp] at h; cases h
  · cases h

/-- DES in counter mode, with padding: the 12th interruption point is in the middle of the mode. -/
example : ∃ A t, desI Example.env64 (some .CTR) (some Padding._8000) none Example.desKey .encrypt
      (Example.breakAt 12) = some (.ok A)
    ∧ A.T.putString (List.replicate 20 7) A.t = .exn .failure t
    ∧ MemorySafe (invoke A.T) anyCall A.t := by
  obtain ⟨A, t, h1, h2⟩ := Example.interrupted_some (d := List.replicate 20 7) (e := .failure)
    (r := desI Example.env64 (some .CTR) (some Padding._8000) none Example.desKey .encrypt
      (Example.breakAt 12)) (by decide +kernel)
  exact ⟨A, t, h1, h2, C115_des (fun p hp => by cases hp; exact C65_paddings.1) h1⟩

/-- Triple DES, in the mode by default. -/
example : ∃ A t, tripleDesI Example.env64 none none none (Example.desKey ++ Example.desKey) .decrypt
      (Example.breakAt 10) = some (.ok A)
    ∧ A.T.putString (List.replicate 20 7) A.t = .exn .failure t
    ∧ MemorySafe (invoke A.T) anyCall A.t := by
  obtain ⟨A, t, h1, h2⟩ := Example.interrupted_some (d := List.replicate 20 7) (e := .failure)
    (r := tripleDesI Example.env64 none none none (Example.desKey ++ Example.desKey) .decrypt
      (Example.breakAt 10)) (by decide +kernel)
  exact ⟨A, t, h1, h2, C115_triple_des (fun p hp => by cases hp) h1⟩

/-- AES in CFB mode. -/
example : ∃ A t, aesI Example.env64 (.table (List.replicate 61 0)) (some (.CFB 1)) none none Example.aesKey .encrypt
      (Example.breakAt 15) = some (.ok A)
    ∧ A.T.putString (List.replicate 20 7) A.t = .exn .failure t
    ∧ MemorySafe (invoke A.T) notWipe A.t := by
  obtain ⟨A, t, h1, h2⟩ := Example.interrupted_some (d := List.replicate 20 7) (e := .failure)
    (r := aesI Example.env64 (.table (List.replicate 61 0)) (some (.CFB 1)) none none Example.aesKey .encrypt
      (Example.breakAt 15)) (by decide +kernel)
  exact ⟨A, t, h1, h2, C115_aes (fun p hp => by cases hp) h1⟩

/-- Blowfish. -/
example : ∃ A, blowfishI Example.env64 none none none [1, 2, 3, 4] .encrypt (Example.breakAt 5) = some (.ok A)
    ∧ MemorySafe (invoke A.T) anyCall A.t := by
  have h : ∃ A, blowfishI Example.env64 none none none [1, 2, 3, 4] .encrypt (Example.breakAt 5)
      = some (.ok A) := by
    have h : ([1, 2, 3, 4] : Bytes).length ≥ 4 ∧ ([1, 2, 3, 4] : Bytes).length ≤ 56 := by decide
    unfold Cipher.blowfishI Cipher.blowfishBlock Blowfish.new Cipher.normalizeDir
    simp only
    rw [if_pos h]
    exact ⟨_, rfl⟩
  obtain ⟨A, h1⟩ := h
  exact ⟨A, h1, C115_blowfish (fun p hp => by cases hp) h1⟩

/-- ARCfour and ChaCha20. -/
example : ∃ A t, arcfourI Example.env64 [1, 2, 3, 4, 5] .encrypt (Example.breakAt 2) = .ok A
    ∧ A.T.putString [1, 2, 3] A.t = .exn .failure t ∧ MemorySafe (invoke A.T) anyCall A.t := by
  obtain ⟨A, t, h1, h2⟩ := Example.interrupted_some (d := [1, 2, 3]) (e := .failure)
    (r := some (arcfourI Example.env64 [1, 2, 3, 4, 5] .encrypt (Example.breakAt 2))) (by decide +kernel)
  have h1 := Option.some.inj h1
  exact ⟨A, t, h1, h2, C115_arcfour h1⟩
example : ∃ A t, chacha20I Example.env64 none none (List.replicate 32 1) .encrypt (Example.breakAt 2) = .ok A
    ∧ A.T.putString [1, 2, 3] A.t = .exn .failure t ∧ MemorySafe (invoke A.T) anyCall A.t := by
  obtain ⟨A, t, h1, h2⟩ := Example.interrupted_some (d := [1, 2, 3]) (e := .failure)
    (r := some (chacha20I Example.env64 none none (List.replicate 32 1) .encrypt (Example.breakAt 2)))
    (by decide +kernel)
  have h1 := Option.some.inj h1
  exact ⟨A, t, h1, h2, C115_chacha20 h1⟩

end Verif
