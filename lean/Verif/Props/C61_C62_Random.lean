import Verif.Proof.Random
import Verif.Props.C41_C42_Aes
import Verif.Props.Example
/-
C61 Pseudo-random generators are deterministic streams independent of request sizes.
C62 Entropy-source generators fill the whole request or raise.
-/
namespace Verif
open Spec (streamBytes fillRequests)

/-! ### C61: `pseudo_rng` -/

/-- A seed of less than 16 bytes is refused, any other is accepted. -/
theorem C61_pseudo_rng_seed (env : Env) (seed : Bytes) :
    (pseudoRngNew env seed = .error (.error .seedTooShort) ↔ seed.length < 16) ∧
    (16 ≤ seed.length → ∃ g, pseudoRngNew env seed = .ok g) := by
  unfold pseudoRngNew
  constructor
  · constructor
    · intro h
      by_cases hs : seed.length < 16
      · exact hs
      · rw [if_neg hs] at h; cases h
    · intro h; rw [if_pos h]
  · intro h
    rw [if_neg (by omega)]
    exact ⟨_, rfl⟩

/-- C61 for `pseudo_rng`: whatever the requests, the bytes obtained are, in order, those of the
ChaCha20 keystream of the seed (with an initialization vector and a counter of zero), and only the
requested ranges of the buffers are written. -/
theorem C61_pseudo_rng (env : Env) {seed : Bytes} (hs : 16 ≤ seed.length) (rs : List RngRequest)
    (hl : ∀ r ∈ rs, r.Legal) :
    ∃ g g', pseudoRngNew env seed = .ok g ∧
      pseudoRng.run rs g
        = .ok (fillRequests (Spec.ChaCha20.keystream (Spec.seedKey seed) (List.replicate 8 0) 0) 0 rs) g' := by
  obtain ⟨e, hk⟩ := pseudoKey_eq seed hs
  rw [← e]
  obtain ⟨g', h⟩ := (pseudoRng_generates hk).run rs
    (s := chachaInit env (pseudoKey seed) (List.replicate 8 0) 0) (p := 0)
    (chachaInit_at env 0 hk (.inl rfl)) hl
  refine ⟨_, g', ?_, h⟩
  unfold pseudoRngNew
  rw [if_neg (by omega)]

/-- A range that is not within the buffer raises `Invalid_argument` and changes nothing. -/
theorem C61_pseudo_rng_range (g : ChaCha) (buf : Bytes) (ofs len : Int) (h : ¬ InRange buf ofs len) :
    pseudoRng.randomBytes ofs len (g, buf) = .exn .invalidArg (g, buf) := by
  unfold pseudoRng
  simp only [M.bind_def, M.get_def]
  rw [if_pos (by by_contra hb; exact h (badRange_iff.1 hb))]
  rfl

/-! ### C61: `pseudo_rng_aes_ctr` -/

theorem aesCtrRngNew_ok (env : Env) (junk : List W32) {seed : Bytes} (hs : 16 ≤ seed.length) :
    ∃ g k, aesCtrRngNew env junk seed = .ok g ∧
      PureCipher Aes.encCipher k (Spec.Aes.encrypt (seed.take 16)) ∧ g.opos = 16 ∧
      AesCtrRng.At k (Spec.Aes.encrypt (seed.take 16)) g 0 := by
  have hl : (seed.take 16).length = 16 := by rw [List.length_take]; omega
  obtain ⟨k, hk, _, hc⟩ := C41_aes_encrypt junk (key := seed.take 16) (.inl hl)
  refine ⟨⟨k, List.replicate 16 0, env.create 16, 16⟩, k, ?_, hc, rfl, 0, rfl, rfl, ?_, Nat.le_refl _, rfl, ?_⟩
  · unfold aesCtrRngNew
    rw [if_neg (by omega), hk]
    rfl
  · show (env.create 16).length = 16
    exact env.create_length 16
  · intro h
    exact absurd h (Nat.lt_irrefl 16)

/-- A seed of less than 16 bytes is refused, any other is accepted. -/
theorem C61_pseudo_rng_aes_ctr_seed (env : Env) (junk : List W32) (seed : Bytes) :
    (aesCtrRngNew env junk seed = .error (.error .seedTooShort) ↔ seed.length < 16) ∧
    (16 ≤ seed.length → ∃ g, aesCtrRngNew env junk seed = .ok g) := by
  refine ⟨⟨?_, ?_⟩, ?_⟩
  · intro h
    by_contra hs
    obtain ⟨g, _, hg, _⟩ := aesCtrRngNew_ok env junk (seed := seed) (by omega)
    rw [hg] at h
    cases h
  · intro h
    unfold aesCtrRngNew
    rw [if_pos h]
    rfl
  · intro h
    obtain ⟨g, _, hg, _⟩ := aesCtrRngNew_ok env junk h
    exact ⟨g, hg⟩

/-- C61 for `pseudo_rng_aes_ctr`: whatever the requests, the bytes obtained are, in order, those of
AES(0), AES(1), AES(2), ... where the key is the first 16 bytes of the seed. -/
theorem C61_pseudo_rng_aes_ctr (env : Env) (junk : List W32) {seed : Bytes} (hs : 16 ≤ seed.length)
    (rs : List RngRequest) (hl : ∀ r ∈ rs, r.Legal) :
    ∃ g g', aesCtrRngNew env junk seed = .ok g ∧
      (aesCtrRng Aes.encCipher).run rs g = .ok (fillRequests (Spec.aesCtrStream seed) 0 rs) g' := by
  obtain ⟨g, k, hg, hc, _, hA⟩ := aesCtrRngNew_ok env junk hs
  obtain ⟨g', h⟩ := (aesCtrRng_generates rfl hc).run rs hA hl
  exact ⟨g, g', hg, h⟩

/-- A request for no bytes, or for a negative number of bytes, does nothing. -/
theorem C61_pseudo_rng_aes_ctr_nothing (c : BlockCipher κ) (g : AesCtrRng κ) (buf : Bytes) (ofs len : Int)
    (h : len ≤ 0) : (aesCtrRng c).randomBytes ofs len (g, buf) = .ok () (g, buf) := by
  unfold aesCtrRng
  have : len.toNat = 0 := by omega
  simp only [this]
  unfold aesCtrRandomBytes
  rw [if_neg (by omega)]
  rfl

/-- A range that is not within the buffer raises `Invalid_argument`; a part of the range that is within
the buffer may have received bytes of the stream. -/
theorem C61_pseudo_rng_aes_ctr_range (env : Env) (junk : List W32) {seed : Bytes} (hs : 16 ≤ seed.length)
    (rs : List RngRequest) (hl : ∀ r ∈ rs, r.Legal) (buf : Bytes) (ofs len : Int) (h0 : 0 < len)
    (h : ¬ InRange buf ofs len) :
    ∃ g g' g'', aesCtrRngNew env junk seed = .ok g ∧
      (aesCtrRng Aes.encCipher).run rs g = .ok (fillRequests (Spec.aesCtrStream seed) 0 rs) g' ∧
      ∃ p, ∃ n : Nat, n < len ∧ (n = 0 ∨ ofs + n ≤ buf.length) ∧
        (aesCtrRng Aes.encCipher).randomBytes ofs len (g', buf)
          = .exn .invalidArg (g'', splice buf ofs.toNat (streamBytes (Spec.aesCtrStream seed) p n)) := by
  obtain ⟨g, k, hg, hc, _, hA⟩ := aesCtrRngNew_ok env junk hs
  obtain ⟨g', h1, p, hA'⟩ := (aesCtrRng_generates rfl hc).run_at rs hA hl
  obtain ⟨g'', n, h2, h3, h4⟩ := aesCtrRandomBytes_bad rfl hc len.toNat (ofs := ofs) (len := len) (dst := buf)
    (by omega) h0 hA' h
  exact ⟨g, g', g'', hg, h1, p, n, h2, h3, h4⟩

/-- `Random.string` gives the next bytes of the generator. -/
theorem C61_random_string (env : Env) {seed : Bytes} (hs : 16 ≤ seed.length) (n : Nat) (hn : n ≤ env.maxLen) :
    ∃ g g', pseudoRngNew env seed = .ok g ∧ randomString env pseudoRng n g
      = .ok (streamBytes (Spec.ChaCha20.keystream (Spec.seedKey seed) (List.replicate 8 0) 0) 0 n) g' := by
  obtain ⟨e, hk⟩ := pseudoKey_eq seed hs
  rw [← e]
  obtain ⟨g', h, _⟩ := (pseudoRng_generates hk).step (env.create n) 0 n
    (s := chachaInit env (pseudoKey seed) (List.replicate 8 0) 0) (p := 0)
    (chachaInit_at env 0 hk (.inl rfl)) (by rw [env.create_length]; omega)
  refine ⟨_, g', by unfold pseudoRngNew; rw [if_neg (by omega)], ?_⟩
  unfold randomString
  rw [if_neg (by omega), Int.toNat_natCast]
  have h' : pseudoRng.randomBytes 0 n (chachaInit env (pseudoKey seed) (List.replicate 8 0) 0, env.create n)
      = _ := h
  rw [h', splice_full (by rw [streamBytes_length, env.create_length])]

/-- The property C63 does not hold of `pseudo_rng_aes_ctr`: `wipe` erases only the buffer of bytes not yet
delivered. After `wipe`, a generator goes on with the stream of the seed as if nothing had
happened. -/
theorem C63_pseudo_rng_aes_ctr_wipe_ineffective (env : Env) (junk : List W32) {seed : Bytes}
    (hs : 16 ≤ seed.length) (rs : List RngRequest) (hl : ∀ r ∈ rs, r.Legal) :
    ∃ g g' g'', aesCtrRngNew env junk seed = .ok g ∧ (aesCtrRng Aes.encCipher).wipe g = .ok () g' ∧
      (aesCtrRng Aes.encCipher).run rs g' = .ok (fillRequests (Spec.aesCtrStream seed) 0 rs) g'' := by
  obtain ⟨g, k, hg, hc, ho, b, h1, h2, h3, h4, h5, h6⟩ := aesCtrRngNew_ok env junk hs
  obtain ⟨g'', h⟩ := (aesCtrRng_generates rfl hc).run rs
    (s := { g with obuf := wipeBytes g.obuf }) (p := 0)
    ⟨b, h1, h2, by simp [wipeBytes, h3], h4, h5, fun hlt => absurd hlt (by show ¬ g.opos < 16; omega)⟩ hl
  exact ⟨g, _, g'', hg, rfl, h⟩

/-! ### C62 -/

/-- C62 for `system_rng`: the request is filled with the next bytes of the system's source if every
call to the source succeeds; otherwise `Entropy_source_closed` is raised, and only complete pieces of
256 bytes before the failing call have been written. -/
theorem C62_system_rng (src : Entropy) (st : EntropySt) (buf : Bytes) (ofs len : Int)
    (h : InRange buf ofs len) :
    (∃ st', (systemRng src).randomBytes ofs len (st, buf)
        = .ok () (st', splice buf ofs.toNat (streamBytes src.byte st.pos len.toNat)) ∧
      st'.pos = st.pos + len.toNat ∧
      (∀ i, st.calls ≤ i → i < st'.calls → src.fails i = false)) ∨
    (∃ st', ∃ n : Nat, n < len ∧ (systemRng src).randomBytes ofs len (st, buf)
        = .exn (.error .entropySourceClosed) (st', splice buf ofs.toNat (streamBytes src.byte st.pos n)) ∧
      st'.pos = st.pos + n ∧ st.calls < st'.calls ∧ src.fails (st'.calls - 1) = true ∧
      (∀ i, st.calls ≤ i → i < st'.calls - 1 → src.fails i = false)) := by
  obtain ⟨h1, h2, h3⟩ := h
  obtain ⟨ofs, rfl⟩ := Int.eq_ofNat_of_zero_le h2
  obtain ⟨len, rfl⟩ := Int.eq_ofNat_of_zero_le h1
  have hr : ofs + len ≤ buf.length := by omega
  have hbr : ¬ badRange buf (ofs : Int) (len : Int) := badRange_iff.2 ⟨by omega, by omega, by omega⟩
  unfold systemRng
  simp only [M.bind_def, M.get_def, if_neg hbr, Int.toNat_natCast]
  rcases systemRandomLoop_ok src len (st := st) (Nat.le_refl _) hr with ⟨a1, a2⟩ | ⟨j, a1, a2, a3, a4⟩
  · refine .inl ⟨_, by rw [a2]; rfl, rfl, ?_⟩
    intro i hi1 hi2
    have := a1 (i - st.calls) (by simp only at hi2; omega)
    rwa [show st.calls + (i - st.calls) = i by omega] at this
  · refine .inr ⟨_, 256 * j, by omega, by rw [a4]; rfl, rfl, ?_, ?_, ?_⟩
    · simp only; omega
    · exact a2
    · intro i hi1 hi2
      have := a3 (i - st.calls) (by simp only at hi2; omega)
      rwa [show st.calls + (i - st.calls) = i by omega] at this

/-- A range that is not within the buffer raises `Invalid_argument` and changes nothing. -/
theorem C62_system_rng_range (src : Entropy) (st : EntropySt) (buf : Bytes) (ofs len : Int)
    (h : ¬ InRange buf ofs len) :
    (systemRng src).randomBytes ofs len (st, buf) = .exn .invalidArg (st, buf) := by
  unfold systemRng
  simp only [M.bind_def, M.get_def]
  rw [if_pos (by by_contra hb; exact h (badRange_iff.1 hb))]
  rfl

/-- C62 for `device_rng`: whatever the number of bytes that each read returns, the request is filled with
the next bytes of the device; or, if the end of the file is met, `Entropy_source_closed` is raised; or,
if a read fails, the exception of the library `Unix` goes through. In the last two cases a proper
prefix of the request has been written. -/
theorem C62_device_rng (dev : Device) (st : DeviceSt) (ho : st.closed = false) (buf : Bytes) (ofs len : Int)
    (h : InRange buf ofs len) :
    ∃ st' : DeviceSt, st'.closed = false ∧ st.calls ≤ st'.calls ∧
      (((deviceRng dev).randomBytes ofs len (st, buf)
          = .ok () (st', splice buf ofs.toNat (streamBytes dev.byte st.pos len.toNat)) ∧
        st'.pos = st.pos + len.toNat ∧
        (∀ i, st.calls ≤ i → i < st'.calls → ∃ m, dev.event i = .upto m)) ∨
      (∃ n e, n < len.toNat ∧ (deviceRng dev).randomBytes ofs len (st, buf)
          = .exn e (st', splice buf ofs.toNat (streamBytes dev.byte st.pos n)) ∧
        st'.pos = st.pos + n ∧ st.calls < st'.calls ∧
        (∀ i, st.calls ≤ i → i < st'.calls - 1 → ∃ m, dev.event i = .upto m) ∧
        ((dev.event (st'.calls - 1) = .eof ∧ e = .error .entropySourceClosed) ∨
         (dev.event (st'.calls - 1) = .fails ∧ e = .unixError)))) := by
  obtain ⟨h1, h2, h3⟩ := h
  obtain ⟨ofs, rfl⟩ := Int.eq_ofNat_of_zero_le h2
  obtain ⟨len, rfl⟩ := Int.eq_ofNat_of_zero_le h1
  have hr : ofs + len ≤ buf.length := by omega
  obtain ⟨pos, calls, closed⟩ := st
  subst ho
  obtain ⟨n, k, hk, hcase⟩ := deviceRandomBytes_ok dev len (pos := pos) (calls := calls) (Nat.le_refl _) hr
  have hk' : ∀ i, calls ≤ i → i < calls + k → ∃ m, dev.event i = .upto m := by
    intro i hi1 hi2
    have := hk (i - calls) (by omega)
    rwa [show calls + (i - calls) = i by omega] at this
  rcases hcase with ⟨a1, a2⟩ | ⟨a1, a2, a3⟩ | ⟨a1, a2, a3⟩
  · exact ⟨_, rfl, Nat.le_add_right _ _, .inl ⟨a2, rfl, hk'⟩⟩
  · exact ⟨⟨pos + n, calls + k + 1, false⟩, rfl, by simp only; omega,
      .inr ⟨n, _, a1, a3, rfl, by simp only; omega, hk', .inl ⟨a2, rfl⟩⟩⟩
  · exact ⟨⟨pos + n, calls + k + 1, false⟩, rfl, by simp only; omega,
      .inr ⟨n, _, a1, a3, rfl, by simp only; omega, hk', .inr ⟨a2, rfl⟩⟩⟩

/-- After `wipe`, which closes the device, `device_rng` delivers nothing: every request for at least
one byte raises an exception and writes nothing, and so does a second `wipe`. -/
theorem C62_device_rng_wiped (dev : Device) (st : DeviceSt) (ho : st.closed = false) :
    ∃ st', (deviceRng dev).wipe st = .ok () st' ∧ (deviceRng dev).wipe st' = .exn .unixError st' ∧
      ∀ (buf : Bytes) (ofs len : Int), InRange buf ofs len → 0 < len →
        (deviceRng dev).randomBytes ofs len (st', buf) = .exn .unixError (st', buf) := by
  refine ⟨{ st with closed := true }, ?_, ?_, ?_⟩
  · simp [deviceRng, ho]
  · simp [deviceRng]
  · intro buf ofs len h h0
    obtain ⟨n, hn⟩ : ∃ n, len.toNat = n + 1 := ⟨len.toNat - 1, by omega⟩
    unfold deviceRng
    simp only [hn]
    unfold deviceRandomBytes
    rw [if_pos h0]
    have hb : ¬ badRange buf ofs len := badRange_iff.2 h
    have hu : unixRead dev ofs len ({ st with closed := true }, buf)
        = .exn .unixError ({ st with closed := true }, buf) := by
      simp [unixRead, hb]
    rw [M.bind_def, hu]

/-- Other requests: nothing is done if the length is not positive; `Invalid_argument` is raised if it is
positive and the range is not within the buffer. -/
theorem C62_device_rng_range (dev : Device) (st : DeviceSt) (buf : Bytes) (ofs len : Int) :
    (len ≤ 0 → (deviceRng dev).randomBytes ofs len (st, buf) = .ok () (st, buf)) ∧
    (0 < len → ¬ InRange buf ofs len →
      (deviceRng dev).randomBytes ofs len (st, buf) = .exn .invalidArg (st, buf)) := by
  unfold deviceRng
  refine ⟨?_, ?_⟩
  · intro h
    simp only [show len.toNat = 0 by omega]
    unfold deviceRandomBytes
    rw [if_neg (by omega)]
    rfl
  · intro h0 h
    obtain ⟨n, hn⟩ : ∃ n, len.toNat = n + 1 := ⟨len.toNat - 1, by omega⟩
    simp only [hn]
    unfold deviceRandomBytes
    rw [if_pos h0]
    simp only [M.bind_def, unixRead]
    rw [if_pos (by by_contra hb; exact h (badRange_iff.1 hb))]

/-- C62 for `hardware_rng`: the request is filled with the values that the instruction delivers, in order,
eight bytes each (fewer for the last one), as many as are necessary; or `Entropy_source_closed` is
raised after twenty failures of the instruction in a row, and a proper prefix of the request has
been written. -/
theorem C62_hardware_rng (rdrand : Nat → Option (BitVec 64)) (i : Nat) (buf : Bytes) (ofs len : Int)
    (h : InRange buf ofs len) :
    (∃ n, 8 * ((List.range' i n).filterMap rdrand).length < len + 8 ∧
      len ≤ 8 * ((List.range' i n).filterMap rdrand).length ∧
      (hardwareRng rdrand).randomBytes ofs len (i, buf)
        = .ok () (i + n, splice buf ofs.toNat ((Spec.rdrandBytes rdrand i n).take len.toNat))) ∨
    (∃ n, 8 * ((List.range' i n).filterMap rdrand).length < len ∧ 20 ≤ n ∧
      (∀ j, j < 20 → rdrand (i + (n - 20) + j) = none) ∧
      (hardwareRng rdrand).randomBytes ofs len (i, buf)
        = .exn (.error .entropySourceClosed) (i + n, splice buf ofs.toNat (Spec.rdrandBytes rdrand i n))) := by
  obtain ⟨h1, h2, h3⟩ := h
  obtain ⟨ofs, rfl⟩ := Int.eq_ofNat_of_zero_le h2
  obtain ⟨len, rfl⟩ := Int.eq_ofNat_of_zero_le h1
  have hr : ofs + len ≤ buf.length := by omega
  have hbr : ¬ badRange buf (ofs : Int) (len : Int) := badRange_iff.2 ⟨by omega, by omega, by omega⟩
  unfold hardwareRng
  simp only [M.bind_def, M.get_def, if_neg hbr, Int.toNat_natCast]
  obtain ⟨n, ⟨a1, a2⟩ | ⟨a1, a2, a3, a4⟩⟩ := hardwareLoop_ok rdrand (len + 1) (i := i) (Nat.lt_succ_self _) hr
  · refine .inl ⟨n, by omega, by omega, ?_⟩
    rw [a2]
    rfl
  · refine .inr ⟨n, by omega, a2, a3, ?_⟩
    rw [a4]
    rfl

/-- A range that is not within the buffer raises `Invalid_argument` and changes nothing. -/
theorem C62_hardware_rng_range (rdrand : Nat → Option (BitVec 64)) (i : Nat) (buf : Bytes) (ofs len : Int)
    (h : ¬ InRange buf ofs len) :
    (hardwareRng rdrand).randomBytes ofs len (i, buf) = .exn .invalidArg (i, buf) := by
  unfold hardwareRng
  simp only [M.bind_def, M.get_def]
  rw [if_pos (by by_contra hb; exact h (badRange_iff.1 hb))]
  rfl

/-- The instruction is used only if the processor announces it (bit 30 of `ecx`) and if one of its first
results is not the all-ones value that defective processors always give. -/
theorem C62_hardware_available (cx : BitVec 32) (rdrand : Nat → Option (BitVec 64)) (i : Nat)
    (h : (hardwareAvailable cx rdrand i).1 = true) :
    cx.getLsbD 30 = true ∧ ∃ j v, i ≤ j ∧ j < i + 160 ∧ rdrand j = some v ∧ v ≠ BitVec.allOnes 64 := by
  unfold hardwareAvailable at h
  by_cases hc : cx &&& (1#32 <<< 30) = 0
  · rw [if_pos hc] at h; cases h
  · rw [if_neg hc] at h
    refine ⟨?_, ?_⟩
    · by_contra hb
      apply hc
      apply BitVec.eq_of_getLsbD_eq
      intro k hk
      have e : (1#32 <<< 30).getLsbD k = decide (k = 30) := by
        revert hk
        revert k
        decide +kernel
      rw [BitVec.getLsbD_and, e]
      by_cases hk30 : k = 30
      · subst hk30; simpa using hb
      · simp [hk30]
    · have aux : ∀ (n i : Nat), (rdrandUsable rdrand n i).1 = true →
          ∃ j v, i ≤ j ∧ j < i + 20 * n ∧ rdrand j = some v ∧ v ≠ BitVec.allOnes 64 := by
        intro n
        induction n with
        | zero => intro i h; cases h
        | succ n ih =>
          intro i h
          unfold rdrandUsable at h
          rcases rdrand64_ok rdrand 20 i with ⟨v, k, h1, h2, h3, h4⟩ | ⟨h1, h2⟩
          · rw [h4] at h
            simp only at h
            by_cases hv : v ≠ BitVec.allOnes 64
            · exact ⟨i + k, v, by omega, by omega, h2, hv⟩
            · rw [if_neg hv] at h
              obtain ⟨j, v, j1, j2, j3⟩ := ih _ h
              exact ⟨j, v, by omega, by omega, j3⟩
          · rw [h2] at h
            obtain ⟨j, v, j1, j2, j3⟩ := ih _ h
            exact ⟨j, v, by omega, by omega, j3⟩
      obtain ⟨j, v, j1, j2, j3⟩ := aux 8 i h
      exact ⟨j, v, j1, by omega, j3⟩

/-- `secure_rng` is the first of: the system's generator, `/dev/random`, the hardware generator; if there
is none, every request raises `No_entropy_source`. -/
theorem C62_secure_rng (m : Machine) :
    secureRng m = (if m.hasGetentropy then .system else if m.opens "/dev/random" then .device "/dev/random"
      else if m.hardware then .hardware else .none) ∧
    (∀ ofs len buf, noRng.randomBytes ofs len ((), buf) = .exn (.error .noEntropySource) ((), buf)) ∧
    (systemRngNew m = .error (.error .noEntropySource) ↔ m.hasGetentropy = false) ∧
    (hardwareRngNew m = .error (.error .noEntropySource) ↔ m.hardware = false) := by
  refine ⟨?_, fun _ _ _ => rfl, ?_, ?_⟩
  · unfold secureRng deviceRngNew
    cases m.hasGetentropy <;> cases m.opens "/dev/random" <;> rfl
  · unfold systemRngNew
    cases m.hasGetentropy <;> simp
  · unfold hardwareRngNew
    cases m.hardware <;> simp

end Verif

namespace Verif.Example
open Spec (streamBytes)

/-- Requests of various sizes. -/
def rngRequests : List RngRequest :=
  [⟨List.replicate 10 7, 2, 5⟩, ⟨List.replicate 100 0, 0, 100⟩, ⟨[1, 2, 3], 3, 0⟩, ⟨List.replicate 40 1, 1, 39⟩]

def rngSeed : Bytes := (List.range 20).map fun i => BitVec.ofNat 8 (3 * i)

example : ∀ r ∈ rngRequests, r.Legal := by
  simp only [rngRequests, List.forall_mem_cons]
  refine ⟨?_, ?_, ?_, ?_, by simp⟩ <;> exact ⟨by decide, by decide, by decide⟩

example := C61_pseudo_rng env64 (seed := rngSeed) (by decide)
example := C61_pseudo_rng_aes_ctr env64 [] (seed := rngSeed) (by decide)
example := C63_pseudo_rng_aes_ctr_wipe_ineffective env64 [] (seed := rngSeed) (by decide)
example : ¬ InRange [1, 2, 3] 2 2 := by decide
example := C61_random_string env64 (seed := rngSeed) (by decide) 100 (by decide)

/-- The first bytes of the two streams do not agree. -/
example : streamBytes (Spec.aesCtrStream rngSeed) 0 2
    ≠ streamBytes (Spec.ChaCha20.keystream (Spec.seedKey rngSeed) (List.replicate 8 0) 0) 0 2 := by
  decide +kernel

/-- A source that fails at its third call. -/
def flakyEntropy : Entropy := ⟨fun i => BitVec.ofNat 8 i, fun c => c == 2⟩

/-- A request for 600 bytes leaves 512 bytes. -/
example (buf : Bytes) (hb : buf.length = 600) : ∃ st', (systemRng flakyEntropy).randomBytes 0 600 (⟨0, 0⟩, buf)
    = .exn (.error .entropySourceClosed) (st', splice buf 0 (streamBytes flakyEntropy.byte 0 512)) := by
  have hr : InRange buf 0 600 := ⟨by omega, by omega, by omega⟩
  rcases systemRandomLoop_ok flakyEntropy 600 (st := ⟨0, 0⟩) (ofs := 0) (len := 600)
    (dst := buf) (Nat.le_refl _) (by omega) with ⟨h, _⟩ | ⟨j, h1, h2, h3, h4⟩
  · exact absurd (h 2 (by omega)) (by decide)
  · obtain rfl : j = 2 := by simpa [flakyEntropy] using h2
    refine ⟨⟨512, 3⟩, ?_⟩
    unfold systemRng
    simp only [M.bind_def, M.get_def]
    rw [if_neg (badRange_iff.2 hr), M.bind_def]
    have h4' : systemRandomLoop flakyEntropy (Int.toNat 600) 0 600 (⟨0, 0⟩, buf) = _ := h4
    rw [h4']
    rfl

/-- A device that delivers at most 3 bytes at a time and ends at the third read. -/
def shortDevice : Device := ⟨fun i => BitVec.ofNat 8 (i + 1), fun c => if c = 2 then .eof else .upto 3⟩

example : (deviceRng shortDevice).randomBytes 1 5 (⟨0, 0, false⟩, List.replicate 7 0)
    = .ok () (⟨5, 2, false⟩, [0, 1, 2, 3, 4, 5, 0]) := by rfl
example : (deviceRng shortDevice).randomBytes 0 7 (⟨0, 0, false⟩, List.replicate 7 0)
    = .exn (.error .entropySourceClosed) (⟨6, 3, false⟩, [1, 2, 3, 4, 5, 6, 0]) := by rfl

/-- An instruction that fails every other time. -/
def flakyRdrand (i : Nat) : Option (BitVec 64) := if i % 2 = 0 then none else some (BitVec.ofNat 64 (0x0102 * i))

example : (hardwareRng flakyRdrand).randomBytes 0 10 (0, List.replicate 11 9)
    = .ok () (4, [2, 1, 0, 0, 0, 0, 0, 0, 6, 3, 9]) := by rfl
example : (hardwareAvailable 0x40000000 flakyRdrand 0).1 = true := by rfl

end Verif.Example
