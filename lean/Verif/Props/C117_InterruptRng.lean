import Verif.Proof.InterruptRngQuiet
import Verif.Props.C61_C62_Random
import Verif.Props.C115_Interrupt
/-
C117: pseudo-random generators and asynchronous exceptions. A program that catches the exception raised by
a signal handler and goes on drawing from the generator relies on fresh bytes. This holds for `pseudo_rng`,
of which the bytes are extracted by one call to C code (`C117_pseudo_rng`). It fails for
`pseudo_rng_aes_ctr`, of which the counter is not incremented atomically (`C117_repeats`, in
C117_RngRepeats.lean); it holds as
long as no carry is interrupted (`C117_aes_ctr_partial`).
-/
namespace Verif

open Spec

/-- C117 for `pseudo_rng`: whatever the calls and the interruptions, the strings given by the calls that
returned are disjoint parts, in order, of the ChaCha20 keystream of the seed. -/
theorem C117_pseudo_rng {env : Env} {seed : Bytes} {g : ChaCha} (hg : pseudoRngNew env seed = .ok g)
    (sched : Sched) {out : List Bytes} (hc : RngCalls pseudoRngI (fun _ _ => True) (sched, g) out) :
    Parts (Spec.ChaCha20.keystream (Spec.seedKey seed) (List.replicate 8 0) 0) 0 out := by
  have hs : 16 ≤ seed.length := by
    by_contra h
    unfold pseudoRngNew at hg
    rw [if_pos (by omega)] at hg
    cases hg
  obtain ⟨e, hk⟩ := pseudoKey_eq seed hs
  unfold pseudoRngNew at hg
  rw [if_neg (by omega)] at hg
  injection hg with hg
  rw [← e]
  exact RngForward.parts (pseudoRngI_forward hk) hc (p := 0) (by rw [← hg]; exact chachaInit_at env 0 hk (.inl rfl))

/-- C117 for `pseudo_rng_aes_ctr`, in part: whatever the calls and the interruptions, provided that no call
is interrupted which may increment a counter that ends with the byte 0xFF, the strings given by the
calls that returned are disjoint parts, in order, of AES(0), AES(1), AES(2), ... Missing: calls
interrupted while a carry is due (`C117_repeats`). -/
theorem C117_aes_ctr_partial {env : Env} {junk : List W32} {seed : Bytes} {sched : Sched}
    {g : AesCtrRng (Sched × Aes.CKey)} (hg : aesCtrRngNewI env junk seed sched = .ok g) {out : List Bytes}
    (hc : RngCalls (aesCtrRngI Aes.encCipher.atomic)
      (fun g len => ∃ v : Byte, g.ctr.getLast? = some v ∧ v.toNat + (len + 15) / 16 ≤ 255) g out) :
    Parts (Spec.aesCtrStream seed) 0 out := by
  have hs : 16 ≤ seed.length := by
    by_contra h
    unfold aesCtrRngNewI at hg
    rw [(C61_pseudo_rng_aes_ctr_seed env junk seed).1.2 (by omega)] at hg
    cases hg
  obtain ⟨g0, k, h1, h2, h3, b, h4, h5, h6, h7, h8, h9⟩ := aesCtrRngNew_ok env junk hs
  unfold aesCtrRngNewI at hg
  rw [h1] at hg
  cases hg
  exact RngForward.parts (aesCtrRngI_forward h2 rfl) hc (p := 0) ⟨b, h4, h5, h6, h7, h8, h9⟩

/-- With interruption points at which nothing happens, these are the generators of Model/Random. -/
theorem C117_quiet (c : BlockCipher κ) (ofs len : Int) (g : ChaCha) (buf : Bytes) :
    @aesCtrRngI κ (quiet κ) c = aesCtrRng c ∧
    pseudoRngI.randomBytes ofs len (([], g), buf)
      = M.zoom (fun p : (Sched × ChaCha) × Bytes => (p.1.2, p.2)) (fun r p => ((p.1.1, r.1), r.2))
          (pseudoRng.randomBytes ofs len) (([], g), buf) :=
  ⟨Quiet.aesCtrRng_eq c, Quiet.pseudoRng_eq ofs len g buf⟩

/-! ### Non-vacuity -/

/-- Requests of the given lengths. -/
def Example.rngHistory (g : Rng ρ) (tolerated : ρ → Nat → Bool) : List Nat → ρ → Option (List Bytes)
  | [], _ => some []
  | len :: ls, s =>
    match g.randomBytes 0 len (s, List.replicate len 0) with
    | .ok () (s', b) => (rngHistory g tolerated ls s').map (slice b 0 len :: ·)
    | .exn _ (s', _) => if tolerated s len then rngHistory g tolerated ls s' else none
    | _ => none

theorem Example.rngHistory_calls {g : Rng ρ} {tolerated : ρ → Nat → Bool} :
    ∀ {ls : List Nat} {s : ρ} {out : List Bytes}, Example.rngHistory g tolerated ls s = some out →
      RngCalls g (fun s n => tolerated s n = true) s out
  | [], s, out, h => by cases h; exact .none s
  | len :: ls, s, out, h => by
    unfold Example.rngHistory at h
    have h0 : 0 + len ≤ (List.replicate len (0 : Byte)).length := by simp
    split at h
    · next s' b hr =>
      rw [Option.map_eq_some_iff] at h
      obtain ⟨l', h1, rfl⟩ := h
      exact .returned (ofs := 0) h0 hr (rngHistory_calls h1)
    · next e s' b hr =>
      split at h
      · next ht => exact .raised (ofs := 0) h0 ht hr (rngHistory_calls h)
      · cases h
    · cases h

/-- Points of interruption of the second and of the third request below. -/
def Example.rngSched : Sched :=
  List.replicate 9 none ++ [some .failure] ++ List.replicate 2 none ++ [some .failure]

/-- The condition of `C117_aes_ctr_partial`. -/
def Example.noCarry (g : AesCtrRng (Sched × Aes.CKey)) (len : Nat) : Bool :=
  match g.ctr.getLast? with
  | some v => decide (v.toNat + (len + 15) / 16 ≤ 255)
  | none => false

/-- The hypotheses of `C117_aes_ctr_partial` are met by a history of four requests, the second and the third
of which are interrupted. -/
example : ∃ g out,
    aesCtrRngNewI Example.env64 (List.replicate 60 0) (List.replicate 16 1) Example.rngSched = .ok g ∧
    RngCalls (aesCtrRngI Aes.encCipher.atomic)
      (fun g len => ∃ v : Byte, g.ctr.getLast? = some v ∧ v.toNat + (len + 15) / 16 ≤ 255) g out ∧
    out.map List.length = [5, 20] := by
  have h : (match aesCtrRngNewI Example.env64 (List.replicate 60 0) (List.replicate 16 1) Example.rngSched with
      | .ok g => (Example.rngHistory (aesCtrRngI Aes.encCipher.atomic) Example.noCarry [5, 20, 20, 20] g).map
          (·.map List.length)
      | .error _ => none) = some [5, 20] := by decide +kernel
  split at h
  · next g hg =>
    rw [Option.map_eq_some_iff] at h
    obtain ⟨out, h1, h2⟩ := h
    refine ⟨g, out, hg, ?_, h2⟩
    have := Example.rngHistory_calls h1
    have he : (fun (s : AesCtrRng (Sched × Aes.CKey)) n => Example.noCarry s n = true)
        = (fun g len => ∃ v : Byte, g.ctr.getLast? = some v ∧ v.toNat + (len + 15) / 16 ≤ 255) := by
      funext s n
      unfold Example.noCarry
      cases s.ctr.getLast? <;> simp
    rwa [he] at this
  · cases h

/-- The hypotheses of `C117_pseudo_rng` are met by such a history. -/
example : ∃ g out, pseudoRngNew Example.env64 (List.replicate 16 1) = .ok g ∧
    RngCalls pseudoRngI (fun _ _ => True) (List.replicate 5 none ++ [some .failure], g) out ∧
    out.map List.length = [5, 20] := by
  have h : (match pseudoRngNew Example.env64 (List.replicate 16 1) with
      | .ok g => (Example.rngHistory pseudoRngI (fun _ _ => true) [5, 20, 20]
          (List.replicate 5 none ++ [some .failure], g)).map (·.map List.length)
      | .error _ => none) = some [5, 20] := by decide +kernel
  split at h
  · next g hg =>
    rw [Option.map_eq_some_iff] at h
    obtain ⟨out, h1, h2⟩ := h
    refine ⟨g, out, hg, ?_, h2⟩
    simpa using Example.rngHistory_calls h1
  · cases h

end Verif
