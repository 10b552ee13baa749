import Verif.Model.SystemRng
import Verif.Proof.Random
import Verif.Props.C61_C62_Random
import Verif.Props.Example
/-
C98 The system generator on other systems: Windows, and systems without a source.
-/
namespace Verif
open Spec (streamBytes)

theorem bytesFrom_eq_stream (f : Nat → Byte) (p n : Nat) : bytesFrom f p n = streamBytes f p n := rfl

theorem winRng_fill (w : WinCrypto) (st : WinSt) (buf : Bytes) (ofs len : Int) (h : InRange buf ofs len) :
    ((st.released = true ∨ w.fails st.calls = true) ∧ (winRng w).randomBytes ofs len (st, buf)
        = .exn (.error .entropySourceClosed) ({ st with calls := st.calls + 1 }, buf)) ∨
    ((st.released = false ∧ w.fails st.calls = false) ∧ (winRng w).randomBytes ofs len (st, buf)
        = .ok () (⟨st.pos + (len % 2 ^ 32).toNat, st.calls + 1, false⟩,
            splice buf ofs.toNat (streamBytes w.byte st.pos (len % 2 ^ 32).toNat))) := by
  have hbr : ¬ badRange buf ofs len := badRange_iff.2 h
  obtain ⟨h1, h2, h3⟩ := h
  have hrun : (winRng w).randomBytes ofs len (st, buf) = (do
      let ok ← winRandomBytes w ofs len
      if ok then pure () else M.raise (.error .entropySourceClosed) : M (WinSt × Bytes) Unit) (st, buf) := by
    unfold winRng
    simp only [M.bind_def, M.get_def, if_neg hbr]
  rw [hrun]
  by_cases hf : st.released = true ∨ w.fails st.calls = true
  · refine .inl ⟨hf, ?_⟩
    have e : winRandomBytes w ofs len (st, buf) = .ok false ({ st with calls := st.calls + 1 }, buf) := by
      unfold winRandomBytes cryptGenRandom
      exact if_pos hf
    simp only [M.bind_def, e]
    rfl
  · have hr : st.released = false := by simpa using fun e => hf (.inl e)
    refine .inr ⟨by simpa using hf, ?_⟩
    have hl : (bytesFrom w.byte st.pos (len % 2 ^ 32).toNat).length = (len % 2 ^ 32).toNat := by simp [bytesFrom]
    have hle : len % 2 ^ 32 ≤ len := by omega
    have hw : cWrite buf ofs (bytesFrom w.byte st.pos (len % 2 ^ 32).toNat)
        = some (splice buf ofs.toNat (streamBytes w.byte st.pos (len % 2 ^ 32).toNat)) := by
      unfold cWrite
      rw [if_pos ⟨by omega, by omega, by rw [hl]; omega⟩, bytesFrom_eq_stream]
    have e : winRandomBytes w ofs len (st, buf) = .ok true (⟨st.pos + (len % 2 ^ 32).toNat, st.calls + 1, false⟩,
        splice buf ofs.toNat (streamBytes w.byte st.pos (len % 2 ^ 32).toNat)) := by
      unfold winRandomBytes cryptGenRandom
      simp only [hw]
      rw [if_neg hf, hr]
    simp only [M.bind_def, e]
    rfl

/-- C98 for `system_rng` on Windows, requests of less than 2^32 bytes: the request is filled with the next
bytes of the provider; or `Entropy_source_closed` is raised and the buffer is left unchanged, because
the provider failed or the generator has been wiped. -/
theorem C98_win32_partial (w : WinCrypto) (st : WinSt) (buf : Bytes) (ofs len : Int) (h : InRange buf ofs len)
    (hl : len < 2 ^ 32) :
    ((st.released = true ∨ w.fails st.calls = true) ∧ ∃ st', st'.pos = st.pos ∧ st'.released = st.released ∧
      (winRng w).randomBytes ofs len (st, buf) = .exn (.error .entropySourceClosed) (st', buf)) ∨
    ((st.released = false ∧ w.fails st.calls = false) ∧ ∃ st', st'.pos = st.pos + len.toNat ∧ st'.released = false ∧
      (winRng w).randomBytes ofs len (st, buf)
        = .ok () (st', splice buf ofs.toNat (streamBytes w.byte st.pos len.toNat))) := by
  have e : len % 2 ^ 32 = len := Int.emod_eq_of_lt h.1 hl
  rcases winRng_fill w st buf ofs len h with ⟨a, b⟩ | ⟨a, b⟩
  · exact .inl ⟨a, { st with calls := st.calls + 1 }, rfl, rfl, b⟩
  · rw [e] at b
    exact .inr ⟨a, _, rfl, rfl, b⟩

/-- A range that is not within the buffer raises `Invalid_argument` and changes nothing. -/
theorem C98_win32_range (w : WinCrypto) (st : WinSt) (buf : Bytes) (ofs len : Int) (h : ¬ InRange buf ofs len) :
    (winRng w).randomBytes ofs len (st, buf) = .exn .invalidArg (st, buf) := by
  have hb : badRange buf ofs len := Decidable.byContradiction fun hb => h (badRange_iff.1 hb)
  unfold winRng
  simp only [M.bind_def, M.get_def, if_pos hb]
  rfl

/-- After `wipe`, whatever the requests, no more bytes are delivered. -/
theorem C98_win32_wipe (w : WinCrypto) (st : WinSt) (buf : Bytes) (ofs len : Int) (h : InRange buf ofs len) :
    ∃ st' st'', (winRng w).wipe st = .ok () st' ∧
      (winRng w).randomBytes ofs len (st', buf) = .exn (.error .entropySourceClosed) (st'', buf) ∧
      st''.released = true := by
  refine ⟨{ st with released := true }, { st with calls := st.calls + 1, released := true }, rfl, ?_, rfl⟩
  rcases winRng_fill w { st with released := true } buf ofs len h with ⟨_, b⟩ | ⟨a, _⟩
  · exact b
  · exact absurd a.1 (by simp)

/-- C98 is false on Windows for requests of 2^32 bytes and more, because the length is truncated to 32
bits: the call returns normally, and only the first `len % 2^32` bytes of the request have been
filled. -/
theorem C98_win32_truncated (w : WinCrypto) (st : WinSt) (hr : st.released = false) (hf : w.fails st.calls = false)
    (buf : Bytes) (ofs k : Nat) (h : ofs + (2 ^ 32 + k) ≤ buf.length) (hk : k < 2 ^ 32) :
    ∃ st', (winRng w).randomBytes ofs (2 ^ 32 + k : Nat) (st, buf)
      = .ok () (st', splice buf ofs (streamBytes w.byte st.pos k)) := by
  rcases winRng_fill w st buf ofs (2 ^ 32 + k : Nat) ⟨by omega, by omega, by omega⟩ with ⟨a, _⟩ | ⟨_, b⟩
  · rw [hr, hf] at a; simp at a
  · have e : (((2 ^ 32 + k : Nat) : Int) % 2 ^ 32).toNat = k := by omega
    rw [e, Int.toNat_natCast] at b
    exact ⟨_, b⟩

/-- In particular `Random.string rng 4294967296` returns a string without a single random byte: the
contents of uninitialised memory. -/
theorem C98_win32_string (env : Env) (hm : 2 ^ 32 ≤ env.maxLen) (w : WinCrypto) (st : WinSt) (hr : st.released = false)
    (hf : w.fails st.calls = false) :
    ∃ st', randomString env (winRng w) (2 ^ 32) st = .ok (env.create (2 ^ 32)) st' := by
  have key : ∀ n : Nat, n = 2 ^ 32 → ∃ st', randomString env (winRng w) n st = .ok (env.create n) st' := by
    intro n hn
    have hl : (env.create n).length = n := env.create_length _
    obtain ⟨st', e⟩ := C98_win32_truncated w st hr hf (env.create n) 0 0 (by rw [hl]; omega) (by omega)
    rw [Nat.add_zero, ← hn] at e
    refine ⟨st', ?_⟩
    unfold randomString
    rw [if_neg (by omega), Int.toNat_natCast]
    have e' : (winRng w).randomBytes 0 (n : Int) (st, env.create n) = _ := e
    rw [e']
    simp [streamBytes, splice]
  have t := key (2 ^ 32) rfl
  rwa [show ((2 ^ 32 : Nat) : Int) = 2 ^ 32 by norm_cast] at t

/-- C98, the choice of a source, for every version of the stubs. `system_rng ()` raises `No_entropy_source` and
nothing else if the system has no source. `secure_rng` is, in this order of preference, the system's
source, the file /dev/random, the processor's source, and a generator that always raises; its definition
never raises. -/
theorem C98_choice (b : SystemBuild) (opens : String → Bool) (hardware : Bool) :
    (systemRngOf b = .ok .system ∨ systemRngOf b = .error (.error .noEntropySource)) ∧
    (systemRngOf b = .ok .system ↔ b = .getentropy ∨ b = .win32 true) ∧
    ∃ k, secureRngOf b opens hardware = .ok k ∧
      (k = .system ↔ systemRngOf b = .ok .system) ∧
      (k = .device "/dev/random" ↔ ¬ systemRngOf b = .ok .system ∧ opens "/dev/random" = true) ∧
      (k = .hardware ↔ ¬ systemRngOf b = .ok .system ∧ opens "/dev/random" = false ∧ hardware = true) ∧
      (k = .none ↔ ¬ systemRngOf b = .ok .system ∧ opens "/dev/random" = false ∧ hardware = false) := by
  cases ho : opens "/dev/random" <;> cases hardware <;>
    rcases b with _ | (_ | _) | _ <;>
    simp [systemRngOf, secureRngOf, getSystemRng, deviceRngNew, ho]

/-- A provider that delivers 0, 3, 6, … and fails at the third call. -/
def Example.winToy : WinCrypto := ⟨true, fun i => BitVec.ofNat 8 (3 * i), fun i => i = 2⟩

example : (winRng Example.winToy).randomBytes 1 2 (⟨4, 0, false⟩, [9, 9, 9, 9])
    = .ok () (⟨6, 1, false⟩, [9, 12, 15, 9]) := by rfl
example : (winRng Example.winToy).randomBytes 1 2 (⟨4, 2, false⟩, [9, 9, 9, 9])
    = .exn (.error .entropySourceClosed) (⟨4, 3, false⟩, [9, 9, 9, 9]) := by rfl
example : InRange [9, 9, 9, 9] 1 2 ∧ ((2 : Int) < 2 ^ 32) := by decide
example : ∃ st', randomString Example.env64 (winRng Example.winToy) (2 ^ 32) ⟨4, 0, false⟩
    = .ok (Example.env64.create (2 ^ 32)) st' :=
  C98_win32_string _ (by decide) _ _ rfl rfl
example : secureRngOf (.win32 false) (fun f => f = "/dev/random") true = .ok (.device "/dev/random") := by
  simp [secureRngOf, getSystemRng, deviceRngNew]
end Verif
