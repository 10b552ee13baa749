import Verif.Proof.InterruptCodecQuiet
/-
C115: `Base64` and `Hexa` under asynchronous exceptions.
-/
namespace Verif

open Spec

theorem weak_init (env : Env) : OBuf.Weak (OBuf.init env 256) := by
  have h := OBuf.safe_init env (n := 256) (by decide)
  exact ⟨h.pos, h.le⟩

/-- C115 for `Base64` and `Hexa`: whatever the points at which calls are interrupted, after any sequence of
calls, completed or not, with any arguments, every call returns or raises an exception. -/
theorem C115_codecs (env : Env) (sched : Sched) :
    (∀ multiline padding, MemorySafe (invoke (B64.encodeI env multiline padding)) anyCall (sched, B64.encInit env)) ∧
    MemorySafe (invoke (B64.decodeI env)) anyCall (sched, B64.decInit env) ∧
    MemorySafe (invoke (Hex.encodeI env)) anyCall (sched, Hex.encInit env) ∧
    MemorySafe (invoke (Hex.decodeI env)) anyCall (sched, Hex.decInit env) :=
  ⟨fun m p => Codec.memorySafe (I := B64.EncI B64.anyPos) (B64.encodeI_keeps env m p) ⟨weak_init env, trivial⟩,
    Codec.memorySafe (I := B64.DecI B64.anyPos) (B64.decodeI_keeps env) ⟨weak_init env, trivial⟩,
    Codec.memorySafe (I := OBuf.Weak) (Hex.encodeI_keeps env) (weak_init env),
    Codec.memorySafe (I := Hex.DecI B64.anyPos) (Hex.decodeI_keeps env) ⟨weak_init env, trivial⟩⟩

/-- The classes with interruption points at which nothing happens are those of C45-C48. -/
theorem C115_quiet_codecs (κ : Type) (env : Env) :
    (∀ multiline padding,
      @B64.encodeI κ (quiet κ) env multiline padding = beside κ (B64.encode env multiline padding)) ∧
    @B64.decodeI κ (quiet κ) env = beside κ (B64.decode env) ∧
    @Hex.encodeI κ (quiet κ) env = beside κ (Hex.encode env) ∧
    @Hex.decodeI κ (quiet κ) env = beside κ (Hex.decode env) :=
  ⟨Quiet.b64Encode_eq env, Quiet.b64Decode_eq env, Quiet.hexEncode_eq env, Quiet.hexDecode_eq env⟩

theorem unusable_of {κ τ : Type} [Ticking κ] {I : τ → Prop} {run : TCall → M (κ × τ) Unit} {chars : Byte → Prop}
    (hk : ∀ c, Codec.Keeps I (run c))
    (hp : ∀ c, chars c → ∀ p : κ × τ, I p.2 → (run (.buf (.putChar c)) p).Post (fun _ _ => False) (fun _ p => I p.2))
    {t : κ × τ} (h : I t.2) : Unusable run chars t := by
  intro t' hr c hc
  have := hp c hc t' (Codec.reach hk hr h)
  cases hx : run (.buf (.putChar c)) t' with
  | ok a t'' => rw [hx] at this; exact this.elim
  | exn e t'' => exact ⟨e, t'', rfl⟩
  | ub => rw [hx] at this; exact this.elim
  | loop => rw [hx] at this; exact this.elim

theorem hexDigit_decodes {c : Byte} (h : hexDigit c) : ∃ n, Hex.decodeChar c = .ok n ∧ 0 ≤ n := by
  unfold hexDigit at h
  unfold Hex.decodeChar
  simp only
  split
  · exact ⟨_, rfl, by omega⟩
  split
  · exact ⟨_, rfl, by omega⟩
  split
  · exact ⟨_, rfl, by omega⟩
  omega

theorem base64Digit_decodes {c : Byte} (h : base64Digit c) : c ≠ 61 ∧ ∃ n, B64.decodeChar c = .ok n ∧ 0 ≤ n := by
  unfold base64Digit at h
  refine ⟨?_, ?_⟩
  · rintro rfl
    have h61 : (61 : Byte).toNat = 61 := rfl
    omega
  unfold B64.decodeChar
  simp only
  split
  · exact ⟨_, rfl, by omega⟩
  split
  · exact ⟨_, rfl, by omega⟩
  split
  · exact ⟨_, rfl, by omega⟩
  split
  · exact ⟨_, rfl, by omega⟩
  split
  · exact ⟨_, rfl, by omega⟩
  omega

/-- What an interruption can spoil: in any environment, one interruption of `put_char`, at the wrong point, and
the object takes no data any more, whatever is done with it afterwards, `wipe` included. For `Base64.encode`,
all characters; for the decoders, all digits. -/
theorem C115_codecs_unusable (env : Env) :
    (∀ multiline padding, ∃ (sched : Sched) (t : Sched × _),
      Reachable (invoke (B64.encodeI env multiline padding)) anyCall (sched, B64.encInit env) t ∧
        Unusable (invoke (B64.encodeI env multiline padding)) (fun _ => True) t) ∧
    (∃ (sched : Sched) (t : Sched × _), Reachable (invoke (B64.decodeI env)) anyCall (sched, B64.decInit env) t ∧
      Unusable (invoke (B64.decodeI env)) base64Digit t) ∧
    (∃ (sched : Sched) (t : Sched × _), Reachable (invoke (Hex.decodeI env)) anyCall (sched, Hex.decInit env) t ∧
      Unusable (invoke (Hex.decodeI env)) hexDigit t) := by
  refine ⟨fun m p => ?_, ?_, ?_⟩
  · refine ⟨List.replicate 8 none ++ [some .failure], _,
      .raised (c := .buf (.putChar 3)) (.returned (c := .buf (.putChar 2))
        (.returned (c := .buf (.putChar 1)) .start trivial rfl) trivial rfl) trivial rfl, ?_⟩
    exact unusable_of (I := B64.EncI B64.full) (B64.encodeI_full env m p)
      (fun c _ => B64.encPutCharI_full env m c) ⟨weak_init env, Nat.le_refl 3⟩
  · refine ⟨List.replicate 11 none ++ [some .failure], _,
      .raised (c := .buf (.putChar 65)) (.returned (c := .buf (.putChar 65)) (.returned (c := .buf (.putChar 65))
        (.returned (c := .buf (.putChar 65)) .start trivial rfl) trivial rfl) trivial rfl) trivial rfl, ?_⟩
    exact unusable_of (I := B64.DecI B64.full) (B64.decodeI_full env)
      (fun c hc => by
        obtain ⟨h1, n, h2, h3⟩ := base64Digit_decodes hc
        exact B64.decPutCharI_full env h1 h2 h3) ⟨weak_init env, Nat.le_refl 4⟩
  · refine ⟨List.replicate 5 none ++ [some .failure], _,
      .raised (c := .buf (.putChar 65)) (.returned (c := .buf (.putChar 65)) .start trivial rfl) trivial rfl, ?_⟩
    exact unusable_of (I := Hex.DecI B64.full) (Hex.decodeI_full env)
      (fun c hc => by
        obtain ⟨n, h2, h3⟩ := hexDigit_decodes hc
        exact Hex.decPutCharI_full env h2 h3) ⟨weak_init env, Nat.le_refl 2⟩

/-- Data taken by calls that returned can be lost too, silently: the encoder takes two characters, is
interrupted on the third, and `finish` returns; there is no output. -/
theorem C115_base64_lost (env : Env) : ∃ (sched : Sched) (e : Exn) (t1 t2 t3 t4 : Sched × B64.Enc),
    (B64.encodeI env false true).putString [1, 2] (sched, B64.encInit env) = .ok () t1 ∧
    (B64.encodeI env false true).putChar 3 t1 = .exn e t2 ∧
    (B64.encodeI env false true).finish t2 = .ok () t3 ∧
    (B64.encodeI env false true).getString t3 = .ok [] t4 := by
  exact ⟨List.replicate 8 none ++ [some .failure], .failure, _, _, _, _, rfl, rfl, rfl, rfl⟩

end Verif
