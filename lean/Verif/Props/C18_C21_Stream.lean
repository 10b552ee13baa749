import Verif.Proof.Arcfour
import Verif.Proof.ChaCha
import Verif.Props.Example
/-
C18 Stream-cipher transforms do not depend on how input is cut and are involutive.
C19 ARCfour is RC4.
C20 ChaCha20 conforms to RFC 8439 and to the original variant.
C21 ChaCha20 keystream blocks are not reused.
(and C68, flush neutrality, for stream ciphers)
-/
namespace Verif

/-- All that the transform `Stream.cipher` around `c` (just constructed, in state `s`) shows of
a history of calls, some of them `flush`, followed by `finish` and `get_string`. -/
def runStream (env : Env) (c : StreamCipher σ) (s : σ) (ops : List FOp) :
    Option (Except Exn Bytes) :=
  ((streamTransform env c).totalF ops (streamInit env s)).observe

/-- A direct call of the method `transform` of a stream cipher. -/
structure StreamCall where
  src : Src
  so : Int
  dofs : Int
  len : Int
  dst : Bytes

/-- Perform a sequence of direct calls; the result is the list of the destinations after each
call. -/
def StreamCipher.runCalls (c : StreamCipher σ) : List StreamCall → σ → Out σ (List Bytes)
  | [], s => .ok [] s
  | call :: calls, s =>
    match c.transform call.src call.so call.dofs call.len (s, call.dst) with
    | .ok () (s', d) =>
      match c.runCalls calls s' with
      | .ok ds s'' => .ok (d :: ds) s''
      | .exn e s'' => .exn e s''
      | .ub => .ub
      | .loop => .loop
    | .exn e (s', _) => .exn e s'
    | .ub => .ub
    | .loop => .loop

namespace Spec

/-- The call is within bounds and, if it is in place, it does not read bytes after having
overwritten them: the source range starts at or after the destination range, or ends
before it. -/
def StreamCall.Legal (c : Verif.StreamCall) : Prop :=
  InRange (c.src.read c.dst) c.so c.len ∧ InRange c.dst c.dofs c.len ∧
    (match c.src with
     | .other _ => True
     | .self => c.dofs ≤ c.so ∨ c.so + c.len ≤ c.dofs)

/-- The destinations after a sequence of calls that xor the data of successive calls with
successive bytes of the keystream, from position `p` on. -/
def streamCalls (ks : Nat → Byte) : Nat → List Verif.StreamCall → List Bytes
  | _, [] => []
  | p, c :: cs =>
    splice c.dst c.dofs.toNat
      (xorKeystream ks p (slice (c.src.read c.dst) c.so.toNat c.len.toNat))
      :: streamCalls ks (p + c.len.toNat) cs

end Spec

variable {σ : Type} {c : StreamCipher σ} {At : σ → Nat → Prop} {ks : Nat → Byte} {env : Env}

theorem streamSpec_runF (ks : Nat → Byte) (ops : List FOp) (p : Nat) :
    (streamSpec ks).runF p ops
      = .ok (Spec.xorKeystream ks p (finputOf ops)) (p + (finputOf ops).length) := by
  induction ops generalizing p with
  | nil => simp [XSpec.runF, finputOf]
  | cons op ops ih =>
    cases op with
    | call op =>
      simp only [XSpec.runF, streamSpec, SRes.andThen] at ih ⊢
      rw [ih]
      simp only [finputOf, List.map_cons, List.flatten_cons, FOp.input, xorKeystream_append,
        List.length_append, Nat.add_assoc]
    | flush =>
      simp only [XSpec.runF, streamSpec, SRes.andThen] at ih ⊢
      rw [ih]
      simp only [finputOf, List.map_cons, List.flatten_cons, FOp.input, List.nil_append]

/-- C18: for every stream cipher that xors its data with the keystream `ks`, and for every
history of calls (puts, gets, flushes), the transform outputs the xor of the input with
`ks`. -/
theorem C18_stream_transform (h : StreamImplements c At ks) {s : σ} (hs : At s 0)
    (hm : 256 ≤ env.maxLen) (ops : List FOp) (hops : ∀ op ∈ ops, op.Legal)
    (hfit : (finputOf ops).length ≤ env.maxLen) :
    runStream env c s ops = some (.ok (Spec.xorKeystream ks 0 (finputOf ops))) := by
  have ht := (streamTransform_refines env h).totalF (streamSpec_lawful ks) ops
    (streamRep_init env hm hs) hops
  rw [streamSpec_runF] at ht
  obtain ⟨t', ht', _⟩ := ht (by simpa [streamSpec, SRes.andThen] using hfit)
  rw [runStream, ht']
  simp [Out.observe]

/-- C18, round trip: a second transform from the same initial state returns the message. -/
theorem C18_stream_round_trip (h : StreamImplements c At ks) {s : σ} (hs : At s 0)
    (hm : 256 ≤ env.maxLen) (ops ops' : List FOp) (hops : ∀ op ∈ ops, op.Legal)
    (hops' : ∀ op ∈ ops', op.Legal) (hfit : (finputOf ops).length ≤ env.maxLen) :
    ∃ ct, runStream env c s ops = some (.ok ct) ∧
      (finputOf ops' = ct → runStream env c s ops' = some (.ok (finputOf ops))) := by
  refine ⟨_, C18_stream_transform h hs hm ops hops hfit, fun he => ?_⟩
  rw [C18_stream_transform h hs hm ops' hops' (by rw [he]; simpa using hfit), he,
    xorKeystream_invol]

/-- C18 for direct calls of the cipher's `transform` method, in place or not: successive calls
use successive bytes of the keystream, each byte once. -/
theorem C18_direct_calls (h : StreamImplements c At ks) (calls : List StreamCall) :
    ∀ {s : σ} {p : Nat}, At s p → (∀ x ∈ calls, Spec.StreamCall.Legal x) →
      (c.runCalls calls s).observe = some (.ok (Spec.streamCalls ks p calls)) := by
  suffices H : ∀ {s : σ} {p : Nat}, At s p → (∀ x ∈ calls, Spec.StreamCall.Legal x) →
      ∃ s', c.runCalls calls s = .ok (Spec.streamCalls ks p calls) s' by
    intro s p hs hl
    obtain ⟨s', e⟩ := H hs hl
    rw [e]; rfl
  induction calls with
  | nil => intro s p hs _; exact ⟨s, rfl⟩
  | cons x xs ih =>
    intro s p hs hl
    obtain ⟨src, so, dofs, len, dst⟩ := x
    obtain ⟨⟨h1, h2, h3⟩, ⟨_, h4, h5⟩, h6⟩ := hl _ List.mem_cons_self
    simp only at h1 h2 h3 h4 h5 h6
    obtain ⟨so, rfl⟩ := Int.eq_ofNat_of_zero_le h2
    obtain ⟨dofs, rfl⟩ := Int.eq_ofNat_of_zero_le h4
    obtain ⟨len, rfl⟩ := Int.eq_ofNat_of_zero_le h1
    obtain ⟨s1, e1, hs1⟩ := h.run (src := src) (so := so) (dofs := dofs) (n := len) (dst := dst) hs
      (by omega) (by omega) (by
        cases src with
        | other b => trivial
        | self => simp only [NoFeedback]; simp only at h6; omega)
    obtain ⟨s2, e2⟩ := ih hs1 (fun y hy => hl y (by simp [hy]))
    refine ⟨s2, ?_⟩
    simp only [StreamCipher.runCalls, e1, e2]
    rfl

/-- Stream ciphers check their arguments: outside the bounds `transform` raises
`Invalid_argument` and changes nothing (part of C65). -/
theorem C65_stream_bounds (next : σ → Option (Byte × σ)) (wipe : σ → σ) (s : σ) (x : StreamCall)
    (hbad : ¬ (InRange (x.src.read x.dst) x.so x.len ∧ InRange x.dst x.dofs x.len)) :
    (checkedStream next wipe).transform x.src x.so x.dofs x.len (s, x.dst)
      = .exn .invalidArg (s, x.dst) := by
  simp only [checkedStream, M.bind_def, M.get_def]
  rw [if_pos (by omega)]
  rfl

/-! ### C19: RC4 -/

/-- C19: for every key of 1 to 256 bytes, the ARCfour transform xors the data with the RC4
keystream of the key, for every history of calls. -/
theorem C19_arcfour_is_rc4 {key : Bytes} (hk : 1 ≤ key.length ∧ key.length ≤ 256)
    (hm : 256 ≤ env.maxLen) (ops : List FOp) (hops : ∀ op ∈ ops, op.Legal)
    (hfit : (finputOf ops).length ≤ env.maxLen) :
    ∃ s, arcfourInit key = .ok s ∧ runStream env arcfour s ops
      = some (.ok (Spec.xorKeystream (Spec.RC4.keystream key) 0 (finputOf ops))) :=
  have h := arcfourInit_at hk.1 hk.2
  ⟨_, h.1, C18_stream_transform (checkedStream_implements (arcfour_generates key) _) h.2 hm ops
    hops hfit⟩

/-- C19 for direct calls, in place or not. -/
theorem C19_arcfour_calls {key : Bytes} (hk : 1 ≤ key.length ∧ key.length ≤ 256)
    (calls : List StreamCall) (hl : ∀ x ∈ calls, Spec.StreamCall.Legal x) :
    ∃ s, arcfourInit key = .ok s ∧ (arcfour.runCalls calls s).observe
      = some (.ok (Spec.streamCalls (Spec.RC4.keystream key) 0 calls)) :=
  have h := arcfourInit_at hk.1 hk.2
  ⟨_, h.1, C18_direct_calls (checkedStream_implements (arcfour_generates key) _) calls h.2 hl⟩

/-- Any other key size is rejected (part of C14). -/
theorem C14_arcfour_key_size {key : Bytes} (hk : ¬ (1 ≤ key.length ∧ key.length ≤ 256)) :
    arcfourInit key = .error (.error .wrongKeySize) := if_neg (by omega)

/-! ### C20: ChaCha20 -/

namespace Spec

/-- The IV actually used: eight zero bytes if none is given. -/
def chachaIV (iv : Option Bytes) : Bytes := iv.getD (List.replicate 8 0)

/-- The arguments accepted by `new chacha20 ?iv ?ctr key`: keys of 16 or 32 bytes; an IV of 8
bytes, or of 12 bytes provided the counter, a signed 64-bit integer, is below 2^24. -/
def ChaChaArgs (key : Bytes) (iv : Option Bytes) (ctr : W64) : Prop :=
  (key.length = 16 ∨ key.length = 32) ∧
  ∀ v, iv = some v → v.length = 8 ∨ (v.length = 12 ∧ ctr.toInt < 2 ^ 24)

end Spec

theorem chacha20Init_ok (env : Env) {key : Bytes} {iv : Option Bytes} {ctr : Option W64}
    (h : Spec.ChaChaArgs key iv (ctr.getD 0)) :
    chacha20Init env key iv ctr = .ok (chachaInit env key (Spec.chachaIV iv) (ctr.getD 0)) := by
  obtain ⟨h1, h2⟩ := h
  simp only [chacha20Init]
  rw [if_neg (by omega)]
  cases iv with
  | none => rfl
  | some v =>
    have := h2 v rfl
    simp only
    rw [if_pos (by simpa using this)]
    rfl

theorem chachaIV_length {key : Bytes} {iv : Option Bytes} {ctr : W64}
    (h : Spec.ChaChaArgs key iv ctr) :
    (Spec.chachaIV iv).length = 8 ∨ (Spec.chachaIV iv).length = 12 := by
  cases iv with
  | none => simp [Spec.chachaIV]
  | some v => simp only [Spec.chachaIV, Option.getD_some]; have := h.2 v rfl; omega

/-- C20: for every accepted key, IV and counter, and every history of calls, the ChaCha20
transform xors the data with the ChaCha20 keystream from block `ctr` on. -/
theorem C20_chacha20 {key : Bytes} {iv : Option Bytes} {ctr : Option W64}
    (ha : Spec.ChaChaArgs key iv (ctr.getD 0)) (hm : 256 ≤ env.maxLen) (ops : List FOp)
    (hops : ∀ op ∈ ops, op.Legal) (hfit : (finputOf ops).length ≤ env.maxLen) :
    ∃ s, chacha20Init env key iv ctr = .ok s ∧ runStream env chacha20 s ops
      = some (.ok (Spec.xorKeystream
          (Spec.ChaCha20.keystream key (Spec.chachaIV iv) (ctr.getD 0).toNat) 0
          (finputOf ops))) :=
  ⟨_, chacha20Init_ok env ha, C18_stream_transform
    (checkedStream_implements (chacha_generates ha.1 (chachaIV_length ha) _) _)
    (chachaInit_at env _ ha.1 (chachaIV_length ha)) hm ops hops hfit⟩

/-- C20 for direct calls, in place or not. -/
theorem C20_chacha20_calls {key : Bytes} {iv : Option Bytes} {ctr : Option W64}
    (ha : Spec.ChaChaArgs key iv (ctr.getD 0)) (calls : List StreamCall)
    (hl : ∀ x ∈ calls, Spec.StreamCall.Legal x) :
    ∃ s, chacha20Init env key iv ctr = .ok s ∧ (chacha20.runCalls calls s).observe
      = some (.ok (Spec.streamCalls
          (Spec.ChaCha20.keystream key (Spec.chachaIV iv) (ctr.getD 0).toNat) 0 calls)) :=
  ⟨_, chacha20Init_ok env ha, C18_direct_calls
    (checkedStream_implements (chacha_generates ha.1 (chachaIV_length ha) _) _) calls
    (chachaInit_at env _ ha.1 (chachaIV_length ha)) hl⟩

/-- Other keys and IVs are rejected (part of C14). -/
theorem C14_chacha20_args {key : Bytes} {iv : Option Bytes} {ctr : Option W64}
    (ha : ¬ Spec.ChaChaArgs key iv (ctr.getD 0)) :
    chacha20Init env key iv ctr = .error (.error
      (if key.length = 16 ∨ key.length = 32 then .wrongIVSize else .wrongKeySize)) := by
  simp only [chacha20Init]
  by_cases hk : key.length = 16 ∨ key.length = 32
  · rw [if_neg (by omega), if_pos hk]
    cases iv with
    | none => exact absurd ⟨hk, by simp⟩ ha
    | some v =>
      simp only
      rw [if_neg]
      intro hv
      exact ha ⟨hk, by rintro _ ⟨⟩; simpa using hv⟩
  · rw [if_pos hk, if_neg hk]

/-! ### C21: reuse of keystream blocks -/

theorem state_period {key iv : Bytes} (hiv : iv.length = 12) (n : Nat) :
    Spec.ChaCha20.state key iv (n + 2 ^ 32) = Spec.ChaCha20.state key iv n := by
  have : BitVec.ofNat 32 (n + 2 ^ 32) = BitVec.ofNat 32 n := by
    apply BitVec.eq_of_toNat_eq; simp
  rw [Spec.ChaCha20.state, Spec.ChaCha20.state, hiv, if_neg (by decide), if_neg (by decide), this]

theorem chacha20_periodic {key v : Bytes} (hk : key.length = 16 ∨ key.length = 32)
    (hv : v.length = 12) (N : Nat) (hN : N = 2 ^ 38) (hm : N + 64 ≤ env.maxLen) :
    ∃ s out, chacha20Init env key (some v) none = .ok s ∧
      runStream env chacha20 s [.call (.putString (List.replicate (N + 64) 0))]
        = some (.ok out) ∧
      out.length = N + 64 ∧ slice out 0 64 = slice out N 64 := by
  have ha : Spec.ChaChaArgs key (some v) ((none : Option W64).getD 0) :=
    ⟨hk, by rintro _ ⟨⟩; exact .inr ⟨hv, by decide⟩⟩
  have hin : finputOf [.call (.putString (List.replicate (N + 64) 0))]
      = List.replicate (N + 64) 0 := by
    simp only [finputOf, List.map_cons, List.map_nil, List.flatten_cons, List.flatten_nil,
      FOp.input, TOp.input, List.append_nil]
  obtain ⟨s, h1, h2⟩ := C20_chacha20 (env := env) ha (by omega)
    [.call (.putString (List.replicate (N + 64) 0))] (by simp [FOp.Legal, TOp.Legal])
    (by rw [hin, List.length_replicate]; exact hm)
  refine ⟨s, _, h1, h2, ?_, ?_⟩
  · rw [hin, xorKeystream_length, List.length_replicate]
  · rw [hin]
    apply List.ext_getElem?
    intro i
    rw [getElem?_slice, getElem?_slice]
    by_cases hi : i < 64
    · rw [if_pos hi, if_pos hi]
      simp only [Spec.xorKeystream, List.getElem?_mapIdx, Nat.zero_add]
      rw [List.getElem?_replicate, List.getElem?_replicate, if_pos (by omega), if_pos (by omega)]
      simp only [Option.map_some, Spec.ChaCha20.keystream, Spec.chachaIV, Option.getD_some]
      rw [show (N + i) / 64 = i / 64 + 2 ^ 32 by omega, show (N + i) % 64 = i % 64 by omega,
        ← Nat.add_assoc, state_period hv]
    · rw [if_neg hi, if_neg hi]

/-- The number of bytes in 2^32 blocks. -/
def Spec.chachaPeriod : Nat := 2 ^ 38

/-- C21 is false with a 12-byte IV: no error is raised on long messages (the transform of
2^38 + 64 zero bytes succeeds) and the last 64 bytes of keystream are the first 64. -/
theorem C21_chacha20_reuses_keystream {key v : Bytes} (hk : key.length = 16 ∨ key.length = 32)
    (hv : v.length = 12) (hm : Spec.chachaPeriod + 64 ≤ env.maxLen) :
    ∃ s out, chacha20Init env key (some v) none = .ok s ∧
      runStream env chacha20 s [.call (.putString (List.replicate (Spec.chachaPeriod + 64) 0))]
        = some (.ok out) ∧
      out.length = Spec.chachaPeriod + 64 ∧ slice out 0 64 = slice out Spec.chachaPeriod 64 :=
  chacha20_periodic hk hv Spec.chachaPeriod rfl hm

/-- C21, the part that holds: the keystream is that of blocks ctr, ctr+1, ... (C20), and blocks
less than 2^32 apart (2^64 with an 8-byte IV) have different block inputs. Missing: an
error when that many blocks have been used, see `C21_chacha20_reuses_keystream`. -/
theorem C21_chacha20_blocks_distinct_partial {key iv : Bytes}
    (hiv : iv.length = 8 ∨ iv.length = 12) (m n : Nat)
    (hmn : m < n) (hlim : n < m + 2 ^ (if iv.length = 8 then 64 else 32)) :
    Spec.ChaCha20.state key iv m ≠ Spec.ChaCha20.state key iv n := by
  intro he
  simp only [Spec.ChaCha20.state, List.append_assoc] at he
  have he := List.append_cancel_left he
  rcases hiv with h | h
  · rw [h] at he hlim
    simp only [if_true, List.cons_append, List.cons.injEq] at he hlim
    have h1 := congrArg BitVec.toNat he.1
    have h2 := congrArg BitVec.toNat he.2.1
    simp only [BitVec.toNat_ofNat] at h1 h2
    omega
  · rw [h] at he hlim
    rw [if_neg (by decide), if_neg (by decide)] at he
    rw [if_neg (by decide)] at hlim
    simp only [List.cons_append, List.cons.injEq] at he
    have h1 := congrArg BitVec.toNat he.1
    simp only [BitVec.toNat_ofNat] at h1
    omega

/-! ### Non-vacuity -/

open Example

/-- A history with flushes. -/
def Example.fops : List FOp := [.call (.putString [1, 2, 3]), .flush, .call .getString,
  .call (.putSubstring [9, 4, 5] 1 2), .call (.putChar 6)]

theorem Example.fops_legal : ∀ op ∈ fops, op.Legal := by
  intro op h
  simp only [fops, List.mem_cons, List.not_mem_nil, or_false] at h
  rcases h with rfl | rfl | rfl | rfl | rfl <;> simp [FOp.Legal, TOp.Legal, InRange]

theorem Example.fops_input : finputOf fops = [1, 2, 3, 4, 5, 6] := by decide

example : ∃ s, arcfourInit key = .ok s ∧ runStream env64 arcfour s fops
    = some (.ok (Spec.xorKeystream (Spec.RC4.keystream key) 0 [1, 2, 3, 4, 5, 6])) := by
  have := C19_arcfour_is_rc4 (env := env64) (key := key) (by decide) (by decide) fops fops_legal
    (by rw [fops_input]; decide)
  rwa [fops_input] at this

example : ∃ s, chacha20Init env64 (List.replicate 32 7) (some (List.replicate 12 1)) (some 5) = .ok s
    ∧ runStream env64 chacha20 s fops = some (.ok (Spec.xorKeystream
      (Spec.ChaCha20.keystream (List.replicate 32 7) (List.replicate 12 1) 5) 0
      [1, 2, 3, 4, 5, 6])) := by
  have := C20_chacha20 (env := env64) (key := List.replicate 32 7) (iv := some (List.replicate 12 1))
    (ctr := some 5) ⟨.inr rfl, by rintro _ ⟨⟩; exact .inr ⟨rfl, by decide⟩⟩ (by decide) fops fops_legal
    (by rw [fops_input]; decide)
  rwa [fops_input] at this

/-- two calls, the first in place with overlapping ranges -/
example : ∀ x ∈ [StreamCall.mk .self 1 0 3 [1, 2, 3, 4], ⟨.other [5, 6], 0, 2, 2, [1, 2, 3, 4]⟩],
    Spec.StreamCall.Legal x := by
  intro x h
  simp only [List.mem_cons, List.not_mem_nil, or_false] at h
  rcases h with rfl | rfl <;> simp [Spec.StreamCall.Legal, InRange]

/-- RFC 8439 section 2.3.2: the first words of the test vector's block -/
example : (Spec.ChaCha20.block (Spec.ChaCha20.state
    ((List.range 32).map (BitVec.ofNat 8)) [0, 0, 0, 9, 0, 0, 0, 0x4a, 0, 0, 0, 0] 1)).take 8
    = [0x10, 0xf1, 0xe7, 0xe4, 0xd1, 0x3b, 0x59, 0x15] := by decide +kernel

end Verif
