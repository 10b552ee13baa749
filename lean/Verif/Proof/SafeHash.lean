import Verif.Proof.SafeAead
import Verif.Proof.Keccak
import Verif.Proof.Lazy
import Verif.Proof.SipHash
import Verif.Proof.Hash
import Verif.Model.Ripemd
import Verif.Model.Blake2
import Verif.Model.Hmac
/-
Safety of the hash functions.
-/
namespace Verif

open Spec

variable {τ γ : Type}

theorem cWrite_length {b x b' : Bytes} {o : Int} (h : cWrite b o x = some b') : b'.length = b.length := by
  unfold cWrite at h
  split at h
  · next hc =>
    cases h
    exact splice_length (by omega)
  · cases h

/-- `update` and `final` of a stub are defined on contexts satisfying `I`, which they preserve. -/
structure StubSafe (update : τ → Bytes → Option τ) (final : τ → Option (Bytes × τ)) (I : τ → Prop)
    (L : Bytes → Prop) : Prop where
  update : ∀ c d, I c → ∃ c', update c d = some c' ∧ I c'
  final : ∀ c, I c → ∃ r c', final c = some (r, c') ∧ I c' ∧ L r

theorem stubHash_safe {size : Nat} {update : τ → Bytes → Option τ} {final : τ → Option (Bytes × τ)}
    {wipe : τ → τ} {I : τ → Prop} {L : Bytes → Prop} (h : StubSafe update final I L) :
    HSafe (stubHash size update final wipe) I L where
  addSubstring b ofs len t ht := by
    by_cases hr : InRange b ofs len
    · obtain ⟨c', h1, h2⟩ := h.update t (slice b ofs.toNat len.toNat) ht
      simp only [stubHash]
      rw [if_neg (by unfold InRange at hr; omega)]
      exact Post.bind_get (Post.bind_orUB h1 h2)
    · rw [stubHash_addSubstring_bad hr]
      exact ht
  addString s t ht := by
    obtain ⟨c', h1, h2⟩ := h.update t s ht
    exact Post.bind_get (Post.bind_orUB h1 h2)
  addChar c t ht := by
    obtain ⟨c', h1, h2⟩ := h.update t [c] ht
    exact Post.bind_get (Post.bind_orUB h1 h2)
  addByte b t ht := by
    obtain ⟨c', h1, h2⟩ := h.update t [BitVec.ofInt 8 b] ht
    exact Post.bind_get (Post.bind_orUB h1 h2)
  result t ht := by
    obtain ⟨r, c', h1, h2, h3⟩ := h.final t ht
    exact Post.bind_get (Post.bind_orUB h1 ⟨h2, h3⟩)

/-- A hash object safe to use, after `wipe` too if `w`, and that rejects illegal ranges. -/
def StubOk (w : Prop) (H : HashObj τ) (t0 : τ) (L : Bytes → Prop) : Prop :=
  ∃ I : τ → Prop, HSafe H I L ∧ I t0 ∧ (w → HWipeSafe H I) ∧
    ∀ t b ofs len, ¬ InRange b ofs len → H.addSubstring b ofs len t = .exn .invalidArg t

theorem StubOk.any {H : HashObj τ} {t0 : τ} {L : Bytes → Prop} (h : StubOk True H t0 L) :
    MemorySafe (invokeH H) anyCall t0 ∧ RangeRejected (invokeH H) anyCall t0 H.addSubstring := by
  obtain ⟨I, h1, h2, h3, h4⟩ := h
  exact ⟨(h1.any (h3 trivial)).safe h2, fun t _ => h4 t⟩

theorem StubOk.notWipe {H : HashObj τ} {t0 : τ} {L : Bytes → Prop} (h : StubOk False H t0 L) :
    MemorySafe (invokeH H) notWipeH t0 ∧ RangeRejected (invokeH H) notWipeH t0 H.addSubstring := by
  obtain ⟨I, h1, h2, h3, h4⟩ := h
  exact ⟨h1.notWipe.safe h2, fun t _ => h4 t⟩

theorem stub_ok {size : Nat} {update : τ → Bytes → Option τ} {final : τ → Option (Bytes × τ)}
    {wipe : τ → τ} {I : τ → Prop} {L : Bytes → Prop} {t0 : τ} (h : StubSafe update final I L) (h0 : I t0)
    (hw : ∀ t, I t → I (wipe t)) : StubOk True (stubHash size update final wipe) t0 L :=
  ⟨I, stubHash_safe h, h0, fun _ t ht => hw t ht, fun t _ _ _ hr => stubHash_addSubstring_bad hr t⟩

/-! ### Merkle-Damgård hashes -/

/-- Weak invariant of a buffer of `n` bytes. -/
def MDSafe (n : Nat) (c : MDBuf γ) : Prop := c.buffer.length = n ∧ c.numbytes < n

theorem mdFinish_shape {n l : Nat} {tr : γ → Bytes → γ} {c c' : MDBuf γ} {len : Bytes}
    (h : mdFinish n l tr c len = some c') :
    c'.numbytes = c.numbytes ∧ c'.buffer.length = c.buffer.length := by
  unfold mdFinish at h
  simp only [bind, Option.bind_eq_some_iff] at h
  obtain ⟨b1, h1, h⟩ := h
  have e1 := cWrite_length h1
  have key : ∀ (g : γ) (b2 : Bytes) (i : Nat), b2.length = b1.length →
      ((cWrite b2 i (List.replicate (n - l - i) 0)).bind fun b => (cWrite b (n - l : Nat) len).bind fun b =>
        some ({ h := tr g b, numbytes := c.numbytes, buffer := b } : MDBuf γ)) = some c' →
      c'.numbytes = c.numbytes ∧ c'.buffer.length = c.buffer.length := by
    intro g b2 i e2 h
    simp only [Option.bind_eq_some_iff] at h
    obtain ⟨b3, h4, b4, h5, h6⟩ := h
    have e3 := cWrite_length h4
    have e4 := cWrite_length h5
    cases h6
    exact ⟨rfl, by simp only; omega⟩
  split at h
  · obtain ⟨b, hb, h⟩ := Option.bind_eq_some_iff.mp h
    exact key _ _ 0 (cWrite_length hb) h
  · exact key _ _ _ rfl h

theorem mdFinish_some {n l : Nat} (hl : l < n) {tr : γ → Bytes → γ} {c : MDBuf γ} (hc : MDSafe n c)
    {len : Bytes} (hlen : len.length = l) : ∃ c', mdFinish n l tr c len = some c' ∧ MDSafe n c' := by
  have hr : MDRep n tr c.h (c.buffer.take c.numbytes) c :=
    ⟨hc.1, [], c.buffer.take c.numbytes, by simp, by simp, by have := hc.2; simp; omega, rfl,
      by have := hc.1; have := hc.2; simp; omega, by simp⟩
  obtain ⟨c', h1, -⟩ := mdFinish_rep hl hr hlen
  obtain ⟨h2, h3⟩ := mdFinish_shape h1
  exact ⟨c', h1, h3.trans hc.1, h2 ▸ hc.2⟩

theorem memOfWords_total (k : Nat) (ws : List (BitVec w)) : (memOfWords k ws).length = k * ws.length := by
  unfold memOfWords
  induction ws with
  | nil => rfl
  | cons x ws ih => simp only [List.map_cons, List.flatten_cons, List.length_append, natToLE_length,
      List.length_cons, ih]; rw [Nat.mul_succ]; omega

theorem copyAndSwap_len' {k : Nat} (hk : 0 < k) (ws : List (BitVec w)) :
    (copyAndSwap k (memOfWords k ws)).length = k * ws.length := by
  rw [copyAndSwap_memOfWords hk]
  induction ws with
  | nil => rfl
  | cons x ws ih => simp only [List.map_cons, List.flatten_cons, List.length_append, natToBE_length,
      List.length_cons, ih]; rw [Nat.mul_succ]; omega

theorem sha1_stub : StubSafe sha1Add sha1Finish (fun c => MDSafe 64 c.buf) (fun r => r.length = 20) where
  update c d hc := by
    obtain ⟨b, h1, h2⟩ := mdAdd_some (via := true) (tr := sha1Transform) hc.1 hc.2 d
    exact ⟨⟨b, _, _⟩, by unfold sha1Add; simp only [h1]; rfl, h2⟩
  final c hc := by
    obtain ⟨b, h1, h2⟩ := mdFinish_some (l := 8) (by decide) (tr := sha1Transform) hc
      (len := copyAndSwap 4 (memOfWords 4 [c.hi, c.lo])) (copyAndSwap_len' (by decide) _)
    exact ⟨_, { c with buf := b }, by unfold sha1Finish; rw [h1]; rfl, h2, copyAndSwap_len' (k := 4) (by decide) _⟩

theorem rmd_stub : StubSafe rmdAdd rmdFinish (fun c => MDSafe 64 c.buf) (fun r => r.length = 20) where
  update c d hc := by
    obtain ⟨b, h1, h2⟩ := mdAdd_some (via := true) (tr := rmdCompress) hc.1 hc.2 d
    exact ⟨⟨b, _, _⟩, by unfold rmdAdd; simp only [h1]; rfl, h2⟩
  final c hc := by
    obtain ⟨b, h1, h2⟩ := mdFinish_some (l := 8) (by decide) (tr := rmdCompress) hc
      (len := memOfWords 4 [c.lo, c.hi]) (memOfWords_total _ _)
    exact ⟨_, { c with buf := b }, by unfold rmdFinish; rw [h1]; rfl, h2, memOfWords_total _ _⟩

theorem sha2_stub {w : Nat} (p : Sha2Code w) (hp : 0 < p.wordBytes) {k : Nat} (hk : k ≤ 8) :
    StubSafe (sha2Add p) (sha2Finish p k) (fun c => MDSafe (16 * p.wordBytes) c.buf)
      (fun r => r.length = p.wordBytes * k) where
  update c d hc := by
    obtain ⟨b, h1, h2⟩ := mdAdd_some (via := true) (tr := sha2Transform p) hc.1 hc.2 d
    exact ⟨⟨b, _, _⟩, by unfold sha2Add; simp only [h1]; rfl, h2⟩
  final c hc := by
    obtain ⟨b, h1, h2⟩ := mdFinish_some (l := 2 * p.wordBytes) (by omega) (tr := sha2Transform p) hc
      (len := copyAndSwap p.wordBytes (memOfWords p.wordBytes [c.hi, c.lo]))
      (by rw [copyAndSwap_len' hp]; simp only [List.length_cons, List.length_nil]; omega)
    refine ⟨_, { c with buf := b }, by unfold sha2Finish; rw [h1]; rfl, h2, ?_⟩
    show (copyAndSwap p.wordBytes (memOfWords p.wordBytes (b.h.words.take k))).length = _
    rw [copyAndSwap_len' hp, List.length_take]
    have : b.h.words.length = 8 := rfl
    rw [this, Nat.min_eq_left hk]

theorem sha1Wipe_safe (c : Sha1Ctx) (h : MDSafe 64 c.buf) : MDSafe 64 (sha1Wipe c).buf :=
  ⟨by simpa [sha1Wipe] using h.1, by show 0 < 64; decide⟩

theorem sha2Wipe_safe {w n : Nat} (c : Sha2Ctx w) (h : MDSafe n c.buf) : MDSafe n (sha2Wipe c).buf :=
  ⟨by simpa [sha2Wipe] using h.1, Nat.lt_of_le_of_lt (Nat.zero_le _) h.2⟩

/-! ### SHA-3 -/

theorem keccakAbsorb_length (st : List W64) (b : Bytes) : (keccakAbsorb st b).length = st.length := by
  unfold keccakAbsorb keccakPermutation
  rw [foldl_length_inv keccakRound_length, foldl_length_inv]
  intro st i; simp

theorem mdTail_inv {n : Nat} {via : Bool} {tr : γ → Bytes → γ} {P : γ → Prop}
    (hP : ∀ h b, P h → P (tr h b)) (d : Bytes) (c c' : MDBuf γ) (hc : P c.h)
    (h : mdTail n via tr c d = some c') : P c'.h := by
  induction hk : d.length using Nat.strongRecOn generalizing d c with
  | _ k ih =>
    rw [mdTail] at h
    split at h
    · next hn =>
      split at h
      · split at h
        · cases h
        · exact ih _ (by rw [List.length_drop]; omega) _ _ (hP _ _ hc) h rfl
      · exact ih _ (by rw [List.length_drop]; omega) _ _ (hP _ _ hc) h rfl
    · split at h
      · cases h
      · cases h; exact hc

theorem mdAdd_inv {n : Nat} {via : Bool} {tr : γ → Bytes → γ} {P : γ → Prop}
    (hP : ∀ h b, P h → P (tr h b)) {d : Bytes} {c c' : MDBuf γ} (hc : P c.h)
    (h : mdAdd n via tr c d = some c') : P c'.h := by
  unfold mdAdd at h
  split at h
  · simp only [] at h
    split at h
    · split at h
      · cases h
      · cases h; exact hc
    · split at h
      · cases h
      · exact mdTail_inv hP _ _ _ (hP _ _ hc) h
  · exact mdTail_inv hP _ _ _ hc h

/-- Weak invariant of the context of SHA-3. -/
structure Sha3Safe (c : Sha3Ctx) : Prop where
  buf : MDSafe c.rsiz c.buf
  st : c.buf.h.length = 25
  hsiz : 4 ∣ c.hsiz ∧ c.hsiz ≤ 200

theorem sha3Absorb_some {x : Sha3Ctx} (hx : Sha3Safe x) (d : Bytes) :
    ∃ y, sha3Absorb x d = some y ∧ Sha3Safe y := by
  obtain ⟨b, h1, h2⟩ := mdAdd_some (via := false) (tr := keccakAbsorb) hx.buf.1 hx.buf.2 d
  have h3 := mdAdd_inv (P := fun h : List W64 => h.length = 25)
    (fun h b hh => (keccakAbsorb_length h b).trans hh) hx.st h1
  exact ⟨{ x with buf := b }, by rw [sha3Absorb, h1, Option.map_some], h2, h3, hx.hsiz⟩

theorem sha3Output_length {n : Nat} (hn : 4 ∣ n ∧ n ≤ 200) {st : List W64} (hl : st.length = 25) :
    (sha3Output n st).length = n := by
  obtain ⟨⟨q, rfl⟩, h⟩ := hn
  rw [sha3Output_eq q _ (by omega), List.length_take, memOfWords_total]
  omega

theorem sha3Extract_some {x : Sha3Ctx} (hx : Sha3Safe x) (padding : Byte) :
    ∃ r y, sha3Extract padding x = some (r, y) ∧ Sha3Safe y := by
  have hb := hx.buf.1
  have hn := hx.buf.2
  have w1 := cWrite_ok (b := x.buf.buffer) (o := x.buf.numbytes) (x := [padding]) (by simp; omega)
  have l1 := cWrite_length w1
  have w2 := cWrite_ok (b := splice x.buf.buffer x.buf.numbytes [padding]) (o := x.buf.numbytes + 1)
    (x := List.replicate (x.rsiz - (x.buf.numbytes + 1)) (0 : Byte))
    (by rw [l1]; simp only [List.length_replicate]; omega)
  have l2 := cWrite_length w2
  generalize splice x.buf.buffer x.buf.numbytes [padding] = b1 at *
  generalize splice b1 (x.buf.numbytes + 1) _ = b2 at *
  have w3 := cRead_ok (b := b2) (o := x.rsiz - 1) (n := 1) (by omega)
  rw [Int.ofNat_sub (by omega)] at w3
  have w4 := cWrite_ok (b := b2) (o := x.rsiz - 1) (x := (slice b2 (x.rsiz - 1) 1).map (· ||| 0x80))
    (by simp; omega)
  have l4 := cWrite_length w4
  rw [Int.ofNat_sub (by omega)] at w4
  generalize splice b2 (x.rsiz - 1) _ = b4 at *
  have hl := (keccakAbsorb_length x.buf.h b4).trans hx.st
  have ho := sha3Output_length hx.hsiz hl
  have he := sha3Extract_of (c := x) (pad := padding) w1 w2 w3 w4 ho
  have hs : ∀ st : List W64, st.length = 25 → Sha3Safe { x with buf := { x.buf with h := st, buffer := b4 } } :=
    fun st hst => ⟨⟨by simp only; omega, hn⟩, hst, hx.hsiz⟩
  exact ⟨_, _, he, hs _ hl⟩

theorem sha3_stub (padding : Byte) :
    StubSafe (fun c d => c.bind fun c => (sha3Absorb c d).map some)
      (fun c => c.bind fun c => (sha3Extract padding c).map fun (r, c) => (r, some c))
      (fun c => ∃ x, c = some x ∧ Sha3Safe x) (fun _ => True) where
  update c d hc := by
    obtain ⟨x, rfl, hx⟩ := hc
    obtain ⟨y, h1, h2⟩ := sha3Absorb_some hx d
    exact ⟨some y, by rw [Option.bind_some, h1, Option.map_some], y, rfl, h2⟩
  final c hc := by
    obtain ⟨x, rfl, hx⟩ := hc
    obtain ⟨r, y, h1, h2⟩ := sha3Extract_some hx padding
    exact ⟨r, some y, by rw [Option.bind_some, h1, Option.map_some], ⟨y, rfl, h2⟩, trivial⟩

theorem sha3InitC_safe {sz : Nat} (h : sz = 224 ∨ sz = 256 ∨ sz = 384 ∨ sz = 512) {buf0 : Bytes}
    (hb : buf0.length = 200 - 2 * (sz / 8)) : Sha3Safe (sha3InitC sz buf0) := by
  refine ⟨⟨hb, ?_⟩, List.length_replicate, ?_⟩
  · show 0 < 200 - 2 * (sz / 8); omega
  · show 4 ∣ sz / 8 ∧ sz / 8 ≤ 200; omega

/-! ### BLAKE2 -/

/-- Weak invariant of a buffer that may be full. -/
def LazySafe (n : Nat) (c : MDBuf γ) : Prop := c.buffer.length = n ∧ c.numbytes ≤ n

theorem lazyAdd_some {n : Nat} (hn : 0 < n) {tr : γ → Bytes → γ} {c : MDBuf γ} (hc : LazySafe n c)
    (d : Bytes) : ∃ c', lazyAdd n tr c d = some c' ∧ LazySafe n c' := by
  have hr : LRep n tr c.h (c.buffer.take c.numbytes) c :=
    ⟨hc.1, [], c.buffer.take c.numbytes, by simp, by simp, by have := hc.2; simp; omega, by simp, rfl,
      by have := hc.1; have := hc.2; simp; omega, by simp⟩
  obtain ⟨c', h1, h2, bs, rest, -, -, h3, -, -, h4, -⟩ := lazyAdd_rep hn hr d
  exact ⟨c', h1, h2, by omega⟩

theorem blake2_stub {w : Nat} (p : Blake2Code w) (hp : 0 < p.k) (hashlen : Nat) :
    StubSafe (blake2Add p) (blake2Final p hashlen) (LazySafe (16 * p.k)) (fun r => r.length = hashlen) where
  update c d hc := lazyAdd_some (by omega) hc d
  final c hc := by
    have w1 := cWrite_ok (b := c.buffer) (o := c.numbytes)
      (x := List.replicate (16 * p.k - c.numbytes) (0 : Byte))
      (by have := hc.1; have := hc.2; rw [List.length_replicate]; omega)
    have l1 := cWrite_length w1
    generalize splice c.buffer c.numbytes _ = b at *
    have h : blake2Final p hashlen c = some
      ((List.range hashlen).map fun i =>
        (((blake2Compress p c.h b c.numbytes true).h.getD (i / p.k) 0) >>> (8 * (i % p.k))).setWidth 8,
       ({ c with h := blake2Compress p c.h b c.numbytes true, buffer := b } : Blake2Ctx w)) := by
      unfold blake2Final
      rw [w1]
      rfl
    exact ⟨_, _, h, ⟨l1.trans hc.1, hc.2⟩, by simp⟩

theorem blake2Wipe_safe {w n : Nat} (c : Blake2Ctx w) (h : LazySafe n c) : LazySafe n (blake2Wipe c) :=
  ⟨by simpa [blake2Wipe] using h.1, Nat.zero_le _⟩

theorem blake2Init_safe {w : Nat} {p : Blake2Code w} {hashlen : Nat} {key buf0 : Bytes} {c : Blake2Ctx w}
    (hb : buf0.length = 16 * p.k) (h : blake2Init p hashlen key buf0 = some c) : LazySafe (16 * p.k) c := by
  unfold blake2Init at h
  simp only [] at h
  split at h
  · simp only [bind, Option.bind_eq_some_iff] at h
    obtain ⟨b1, h1, b2, h2, h3⟩ := h
    have e1 := cWrite_length h1
    have e2 := cWrite_length h2
    cases h3
    exact ⟨by simp only; omega, Nat.le_refl _⟩
  · cases h
    exact ⟨hb, Nat.zero_le _⟩

/-! ### SipHash -/

theorem sip_stub {n : Nat} (hn : n = 8 ∨ n = 16) :
    StubSafe sipAdd (sipFinal n) (fun c => MDSafe 8 c.buf) (fun r => r.length = n) where
  update c d hc := by
    obtain ⟨b, h1, h2⟩ := mdAdd_some (via := false) (tr := sipBlock) hc.1 hc.2 d
    exact ⟨⟨b, c.len8 + BitVec.ofNat 8 d.length⟩, by rw [sipAdd_eq c d hc.1 hc.2, h1]; rfl, h2⟩
  final c hc := by
    have l8 : ∀ r : W64, (toLE64 r).length = 8 := fun _ => rfl
    have key : ∀ st : SipState, ∃ r c', (match cWrite (List.replicate n 0) 0 (toLE64 (sipFinalRounds st).2) with
        | none => none
        | some out =>
          if n = 16 then
            match cWrite out 8 (toLE64 (sipFinalRounds { (sipFinalRounds st).1 with
              v1 := (sipFinalRounds st).1.v1 ^^^ 0xDD }).2) with
            | none => none
            | some out => some (out, { c with buf := { c.buf with h := (sipFinalRounds
                { (sipFinalRounds st).1 with v1 := (sipFinalRounds st).1.v1 ^^^ 0xDD }).1 } })
          else some (out, { c with buf := { c.buf with h := (sipFinalRounds st).1 } }))
        = some (r, c') ∧ MDSafe 8 c'.buf ∧ r.length = n := by
      intro st
      have w1 := cWrite_ok (b := List.replicate n (0 : Byte)) (o := 0) (x := toLE64 (sipFinalRounds st).2)
        (by rw [l8, List.length_replicate]; omega)
      have l1 := cWrite_length w1
      rw [List.length_replicate] at l1
      rw [Int.natCast_zero] at w1
      rw [w1]
      generalize splice (List.replicate n (0 : Byte)) 0 _ = out at *
      simp only []
      split
      · have w2 := cWrite_ok (b := out) (o := 8) (x := toLE64 (sipFinalRounds { (sipFinalRounds st).1 with
              v1 := (sipFinalRounds st).1.v1 ^^^ 0xDD }).2) (by rw [l8]; omega)
        have l2 := cWrite_length w2
        change cWrite out 8 _ = _ at w2
        rw [w2]
        exact ⟨_, _, rfl, hc, l2.trans l1⟩
      · exact ⟨_, _, rfl, hc, l1⟩
    exact key _

theorem sipWipe_safe (c : SipCtx) (h : MDSafe 8 c.buf) : MDSafe 8 (sipWipe c).buf :=
  ⟨by simpa [sipWipe] using h.1, by show 0 < 8; decide⟩

/-! ### HMAC -/

theorem Post.isolate {m : M τ α} {t : τ} {s : σ} {Q : α → σ → Prop} {E : Exn → σ → Prop}
    {Q' : α → τ → Prop} {E' : Exn → τ → Prop} (h : (m t).Post Q' E') (hq : ∀ a t', Q' a t' → Q a s)
    (he : ∀ e, E e s) : ((M.isolate t m : M σ α) s).Post Q E := by
  unfold M.isolate
  cases hm : m t with
  | ok a s' => rw [hm] at h; exact hq a s' h
  | exn e s' => exact he e
  | ub => rw [hm] at h; exact h.elim
  | loop => rw [hm] at h; exact h.elim

variable {H : HashObj τ} {I : τ → Prop} {L : Bytes → Prop}

theorem hashString_safe (h : HSafe H I L) (hw : HWipeSafe H I) (s : Bytes) (t : τ) (ht : I t) :
    (hashString H s t).Post (fun r _ => L r) (fun _ _ => True) := by
  unfold hashString
  refine Post.bind (Post.mono (h.addString s t ht) (fun _ _ x => x) fun _ _ _ => trivial) ?_
  rintro - t1 h1
  refine Post.bind (Post.mono (h.result t1 h1) (fun _ _ x => x) fun _ _ _ => trivial) ?_
  rintro r t2 ⟨h2, hr⟩
  refine Post.bind (Post.mono (hw t2 h2) (fun _ _ x => x) fun _ _ _ => trivial) ?_
  rintro - t3 -
  exact hr

theorem hmacPad_safe (h : HSafe H I L) (hw : HWipeSafe H I) {n : Nat} (hL : ∀ r, L r → r.length ≤ n) {t : τ}
    (ht : I t) (key : Bytes) (b : Byte) {s : σ} {E : Exn → σ → Prop} (hE : ∀ e, E e s) :
    ((hmacPad H n t key b : M σ Bytes) s).Post (fun r s' => r.length = n ∧ s' = s) E := by
  have fin : ∀ k : Bytes, k.length ≤ n →
      ((M.orUB (xorC (.other k) 0 (List.replicate n b) 0 k.length) : M σ Bytes) s).Post
        (fun r s' => r.length = n ∧ s' = s) E := by
    intro k hk
    obtain ⟨r, h1, h2⟩ := xorC_at_some (x := k) (dst := List.replicate n b) (so := 0) (dofs := 0) (n := k.length)
      (by omega) (by rw [List.length_replicate]; omega)
    rw [Int.natCast_zero] at h1
    rw [h1]
    exact ⟨h2.trans List.length_replicate, rfl⟩
  unfold hmacPad
  split
  · refine Post.bind (Q := fun r s' => r.length ≤ n ∧ s' = s)
      (Post.isolate (hashString_safe h hw key t ht) (fun r _ x => ⟨hL r x, rfl⟩) hE) ?_
    rintro r s' ⟨h1, rfl⟩
    exact fin r h1
  · exact fin key (by omega)

theorem hmac_safe (h : HSafe H I L) (hw : HWipeSafe H I) {n : Nat} (hL : ∀ r, L r → r.length ≤ n)
    {fresh : Nat → τ} (hf : ∀ i, I (fresh i)) (key : Bytes) : HSafe (hmac H n fresh key) I L where
  addSubstring := h.addSubstring
  addString := h.addString
  addChar := h.addChar
  addByte := h.addByte
  result t ht := by
    refine Post.bind (hmacPad_safe h hw hL (hf 1) key 0x5c (fun _ => ht)) ?_
    rintro b t1 ⟨hb, rfl⟩
    refine Post.bind (h.result t1 ht) ?_
    rintro r t2 ⟨h2, -⟩
    refine Post.isolate (Q' := fun r _ => L r) (E' := fun _ _ => True) ?_ (fun r _ x => ⟨h2, x⟩) (fun _ => h2)
    refine Post.bind (Post.mono (h.addSubstring b 0 b.length _ (hf 2)) (fun _ _ x => x) fun _ _ _ => trivial) ?_
    rintro - t3 h3
    exact hashString_safe h hw r t3 h3

theorem hmacNew_safe (h : HSafe H I L) (hw : HWipeSafe H I) {n : Nat} (hL : ∀ r, L r → r.length ≤ n)
    {fresh : Nat → τ} (hf : ∀ i, I (fresh i)) (key : Bytes) (t : τ) (ht : I t) :
    (hmacNew H n fresh key t).Post (fun _ => I) (fun _ => I) := by
  unfold hmacNew
  refine Post.bind (hmacPad_safe h hw hL (hf 0) key 0x36 (fun _ => ht)) ?_
  rintro b t1 ⟨hb, rfl⟩
  exact h.addSubstring b 0 b.length t1 ht

end Verif
