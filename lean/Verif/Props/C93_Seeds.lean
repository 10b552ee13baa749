import Verif.Spec.RngHistory
import Verif.Props.C61_C62_Random
import Verif.Props.C79_Collision
import Verif.Props.C18_C21_Stream
/-
C93 Pseudo-random generators: which seeds give the same generator, and when the output repeats.
-/
namespace Verif
open Spec (streamBytes fillRequests obtained asked)

theorem fillRequests_append (ks : Nat → Byte) (rs rs' : List RngRequest) : ∀ p,
    fillRequests ks p (rs ++ rs') = fillRequests ks p rs ++ fillRequests ks (p + asked rs) rs' := by
  induction rs with
  | nil => intro p; rfl
  | cons r rs ih =>
    intro p
    simp only [List.cons_append, fillRequests, ih, asked, List.map_cons, List.sum_cons, Nat.add_assoc]

theorem fillRequests_length (ks : Nat → Byte) (rs : List RngRequest) : ∀ p,
    (fillRequests ks p rs).length = rs.length := by
  induction rs with
  | nil => intro p; rfl
  | cons r rs ih => intro p; simp only [fillRequests, List.length_cons, ih]

theorem obtained_fillRequests (ks : Nat → Byte) (rs : List RngRequest) : ∀ p, (∀ r ∈ rs, r.Legal) →
    obtained rs (fillRequests ks p rs) = streamBytes ks p (asked rs) := by
  induction rs with
  | nil => intro p _; simp [obtained, fillRequests, asked, streamBytes]
  | cons r rs ih =>
    intro p hl
    have h := hl r List.mem_cons_self
    obtain ⟨buf, ofs, len⟩ := r
    obtain ⟨h1, h2, h3⟩ := h
    simp only at h1 h2 h3
    simp only [fillRequests, obtained, asked, List.map_cons, List.sum_cons]
    rw [ih _ (fun x hx => hl x (List.mem_cons_of_mem _ hx)),
      slice_splice_same' (by rw [streamBytes_length]) (by omega), streamBytes_add]
    rfl

theorem streamBytes_congr {ks : Nat → Byte} {p q n : Nat} (h : ∀ i, ks (p + i) = ks (q + i)) :
    streamBytes ks p n = streamBytes ks q n := by
  unfold streamBytes
  exact List.map_congr_left fun i _ => h i

theorem fillRequests_congr {ks : Nat → Byte} (rs : List RngRequest) : ∀ {p q : Nat},
    (∀ i, ks (p + i) = ks (q + i)) → fillRequests ks p rs = fillRequests ks q rs := by
  induction rs with
  | nil => intros; rfl
  | cons r rs ih =>
    intro p q h
    simp only [fillRequests]
    rw [streamBytes_congr h, ih (p := p + r.len.toNat) (q := q + r.len.toNat)
      (fun i => by rw [Nat.add_assoc, Nat.add_assoc]; exact h _)]

theorem natToBE_periodic {n x y : Nat} (h : x % 256 ^ n = y % 256 ^ n) : natToBE n x = natToBE n y := by
  rw [← natToBE_mod n x, h, natToBE_mod]

theorem aesCtrStream_period (seed : Bytes) {p q : Nat} (h : p % 2 ^ 132 = q % 2 ^ 132) (i : Nat) :
    Spec.aesCtrStream seed (p + i) = Spec.aesCtrStream seed (q + i) := by
  unfold Spec.aesCtrStream
  have h1 : (p + i) % 2 ^ 132 = (q + i) % 2 ^ 132 := by omega
  rw [natToBE_periodic (n := 16) (x := (p + i) / 16) (y := (q + i) / 16)
    (by rw [show 256 ^ 16 = 2 ^ 128 by decide]; omega), show (p + i) % 16 = (q + i) % 16 by omega]

theorem chachaStream_period (key : Bytes) {p q : Nat} (h : p % 2 ^ 70 = q % 2 ^ 70) (i : Nat) :
    Spec.ChaCha20.keystream key (List.replicate 8 0) 0 (p + i)
      = Spec.ChaCha20.keystream key (List.replicate 8 0) 0 (q + i) := by
  unfold Spec.ChaCha20.keystream Spec.ChaCha20.state
  have h1 : (p + i) % 2 ^ 70 = (q + i) % 2 ^ 70 := by omega
  have e1 : BitVec.ofNat 32 (0 + (p + i) / 64) = BitVec.ofNat 32 (0 + (q + i) / 64) := by
    apply BitVec.eq_of_toNat_eq; simp only [BitVec.toNat_ofNat]; omega
  have e2 : BitVec.ofNat 32 ((0 + (p + i) / 64) / 2 ^ 32) = BitVec.ofNat 32 ((0 + (q + i) / 64) / 2 ^ 32) := by
    apply BitVec.eq_of_toNat_eq; simp only [BitVec.toNat_ofNat]; omega
  rw [if_pos (by simp), if_pos (by simp), e1, e2, show (p + i) % 64 = (q + i) % 64 by omega]

/-! ### Which seeds give the same generator -/

/-- C93, seeds of `pseudo_rng`: what comes after the first 32 characters does not matter, and a seed of
17 characters or more gives the same generator as the same seed followed by zeroes. A seed of exactly 16
characters is not completed in that way (see the example below). -/
theorem C93_pseudo_rng_seeds (env : Env) (s t : Bytes)
    (h : 32 ≤ s.length ∨ 17 ≤ s.length ∧ t = List.replicate t.length 0)
    (rs : List RngRequest) (hl : ∀ r ∈ rs, r.Legal) :
    ∃ g g' h h' bs, pseudoRngNew env s = .ok g ∧ pseudoRngNew env (s ++ t) = .ok h ∧
      pseudoRng.run rs g = .ok bs g' ∧ pseudoRng.run rs h = .ok bs h' := by
  have hk : Spec.seedKey (s ++ t) = Spec.seedKey s := by
    unfold Spec.seedKey
    have h17 : 17 ≤ s.length := by rcases h with h | ⟨h, _⟩ <;> omega
    rw [if_neg (by rw [List.length_append]; omega), if_neg (by omega)]
    rcases h with h | ⟨h, ht⟩
    · rw [List.append_assoc, List.take_append_of_le_length h, List.take_append_of_le_length h]
    · rw [ht, List.append_assoc, List.replicate_append_replicate]
      rw [List.take_append, List.take_append, List.take_replicate, List.take_replicate]
      congr 2
      omega
  obtain ⟨g, g', e1, e2⟩ := C61_pseudo_rng env (seed := s) (by rcases h with h | ⟨h, _⟩ <;> omega) rs hl
  obtain ⟨k, k', f1, f2⟩ := C61_pseudo_rng env (seed := s ++ t)
    (by rw [List.length_append]; rcases h with h | ⟨h, _⟩ <;> omega) rs hl
  rw [hk] at f2
  exact ⟨g, g', k, k', _, e1, f1, e2, f2⟩

/-- C93, seeds of `pseudo_rng_aes_ctr`: what comes after the first 16 characters does not matter. -/
theorem C93_pseudo_rng_aes_ctr_seeds (env : Env) (junk junk' : List W32) (s t : Bytes) (h : 16 ≤ s.length)
    (rs : List RngRequest) (hl : ∀ r ∈ rs, r.Legal) :
    ∃ g g' h h' bs, aesCtrRngNew env junk s = .ok g ∧ aesCtrRngNew env junk' (s ++ t) = .ok h ∧
      (aesCtrRng Aes.encCipher).run rs g = .ok bs g' ∧ (aesCtrRng Aes.encCipher).run rs h = .ok bs h' := by
  obtain ⟨g, g', e1, e2⟩ := C61_pseudo_rng_aes_ctr env junk h rs hl
  obtain ⟨k, k', f1, f2⟩ := C61_pseudo_rng_aes_ctr env junk' (seed := s ++ t)
    (by rw [List.length_append]; omega) rs hl
  have : Spec.aesCtrStream (s ++ t) = Spec.aesCtrStream s := by
    funext i; unfold Spec.aesCtrStream; rw [List.take_append_of_le_length h]
  rw [this] at f2
  exact ⟨g, g', k, k', _, e1, f1, e2, f2⟩

/-! ### When the output repeats -/

theorem streamBytes_slice (ks : Nat → Byte) {n o m : Nat} (h : o + m ≤ n) :
    slice (streamBytes ks 0 n) o m = streamBytes ks o m := by
  have : n = o + (m + (n - o - m)) := by omega
  rw [this, streamBytes_add, streamBytes_add]
  unfold slice
  rw [List.drop_left' (streamBytes_length ..), List.take_left' (streamBytes_length ..), Nat.zero_add]

theorem aesCtrStream_block (seed : Bytes) (hs : 16 ≤ seed.length) (i : Nat) :
    streamBytes (Spec.aesCtrStream seed) (16 * i) 16 = Spec.Aes.encrypt (seed.take 16) (natToBE 16 i) := by
  have hl : (seed.take 16).length = 16 := by rw [List.length_take]; omega
  apply List.ext_getElem
  · rw [streamBytes_length, Spec.Aes.encrypt_length (.inl hl)]
  · intro j h1 h2
    rw [streamBytes_length] at h1
    simp only [streamBytes, List.getElem_map, List.getElem_range, Spec.aesCtrStream]
    rw [show (16 * i + j) / 16 = i by omega, show (16 * i + j) % 16 = j by omega,
      List.getD_eq_getElem?_getD, List.getElem?_eq_getElem h2, Option.getD_some]

/-- C93, period of `pseudo_rng_aes_ctr`, upper part: as long as less than 2^132 bytes have been obtained,
no two of their 16-byte blocks are equal, whatever the requests. -/
theorem C93_pseudo_rng_aes_ctr_no_repeat (env : Env) (junk : List W32) {seed : Bytes} (hs : 16 ≤ seed.length)
    (rs : List RngRequest) (hl : ∀ r ∈ rs, r.Legal) :
    ∃ g g' bs, aesCtrRngNew env junk seed = .ok g ∧
      (aesCtrRng Aes.encCipher).run rs g = .ok bs g' ∧
      (obtained rs bs).length = asked rs ∧
      ∀ i j, i < j → 16 * j + 16 ≤ asked rs → j < 2 ^ 128 →
        slice (obtained rs bs) (16 * i) 16 ≠ slice (obtained rs bs) (16 * j) 16 := by
  obtain ⟨g, g', e1, e2⟩ := C61_pseudo_rng_aes_ctr env junk hs rs hl
  refine ⟨g, g', _, e1, e2, ?_, ?_⟩
  · rw [obtained_fillRequests _ _ _ hl, streamBytes_length]
  intro i j hij hj hlim he
  rw [obtained_fillRequests _ _ _ hl, streamBytes_slice _ (by omega), streamBytes_slice _ hj,
    aesCtrStream_block seed hs, aesCtrStream_block seed hs] at he
  have hk : (seed.take 16).length = 16 := by rw [List.length_take]; omega
  have := congrArg (Spec.Aes.decrypt (seed.take 16)) he
  rw [Spec.Aes.decrypt_encrypt (.inl hk) (natToBE_length ..),
    Spec.Aes.decrypt_encrypt (.inl hk) (natToBE_length ..)] at this
  have := natToBE_inj (k := 16) (x := i) (y := j) (by rw [show 256 ^ 16 = 2 ^ 128 by decide]; omega)
    (by rw [show 256 ^ 16 = 2 ^ 128 by decide]; omega) this
  omega

/-- C93, period of `pseudo_rng_aes_ctr`, lower part: the output repeats after 2^132 bytes: histories `rs`
and `rs'` that asked for numbers of bytes equal modulo 2^132 are followed by the same bytes, whatever is
asked for next. -/
theorem C93_pseudo_rng_aes_ctr_period (env : Env) (junk : List W32) {seed : Bytes} (hs : 16 ≤ seed.length)
    (rs rs' next : List RngRequest) (hl : ∀ r ∈ rs, r.Legal) (hl' : ∀ r ∈ rs', r.Legal)
    (hn : ∀ r ∈ next, r.Legal) (h : asked rs % 2 ^ 132 = asked rs' % 2 ^ 132) :
    ∃ g g1 g2 bs bs' nb, aesCtrRngNew env junk seed = .ok g ∧
      (aesCtrRng Aes.encCipher).run (rs ++ next) g = .ok (bs ++ nb) g1 ∧
      (aesCtrRng Aes.encCipher).run (rs' ++ next) g = .ok (bs' ++ nb) g2 ∧
      bs.length = rs.length ∧ bs'.length = rs'.length := by
  obtain ⟨g, g1, e1, e2⟩ := C61_pseudo_rng_aes_ctr env junk hs (rs ++ next)
    (fun r hr => (List.mem_append.1 hr).elim (hl r) (hn r))
  obtain ⟨g', g2, f1, f2⟩ := C61_pseudo_rng_aes_ctr env junk hs (rs' ++ next)
    (fun r hr => (List.mem_append.1 hr).elim (hl' r) (hn r))
  rw [e1] at f1
  cases f1
  rw [fillRequests_append] at e2 f2
  rw [fillRequests_congr next (q := 0 + asked rs) (p := 0 + asked rs')
    (aesCtrStream_period seed (by omega))] at f2
  exact ⟨g, g1, g2, _, _, _, e1, e2, f2, fillRequests_length .., fillRequests_length ..⟩

/-- C93, period of `pseudo_rng`: the output repeats after 2^70 bytes (the block counter has 64 bits). That
the block inputs are different until then is `C93_pseudo_rng_blocks`. -/
theorem C93_pseudo_rng_period (env : Env) {seed : Bytes} (hs : 16 ≤ seed.length)
    (rs rs' next : List RngRequest) (hl : ∀ r ∈ rs, r.Legal) (hl' : ∀ r ∈ rs', r.Legal)
    (hn : ∀ r ∈ next, r.Legal) (h : asked rs % 2 ^ 70 = asked rs' % 2 ^ 70) :
    ∃ g g1 g2 bs bs' nb, pseudoRngNew env seed = .ok g ∧
      pseudoRng.run (rs ++ next) g = .ok (bs ++ nb) g1 ∧
      pseudoRng.run (rs' ++ next) g = .ok (bs' ++ nb) g2 ∧
      bs.length = rs.length ∧ bs'.length = rs'.length := by
  obtain ⟨g, g1, e1, e2⟩ := C61_pseudo_rng env hs (rs ++ next)
    (fun r hr => (List.mem_append.1 hr).elim (hl r) (hn r))
  obtain ⟨g', g2, f1, f2⟩ := C61_pseudo_rng env hs (rs' ++ next)
    (fun r hr => (List.mem_append.1 hr).elim (hl' r) (hn r))
  rw [e1] at f1
  cases f1
  rw [fillRequests_append] at e2 f2
  rw [fillRequests_congr next (q := 0 + asked rs) (p := 0 + asked rs')
    (chachaStream_period _ (by omega))] at f2
  exact ⟨g, g1, g2, _, _, _, e1, e2, f2, fillRequests_length .., fillRequests_length ..⟩

/-- C93, blocks of `pseudo_rng`: block `i` of the bytes obtained is the ChaCha20 block function of the
input number `i`, and the inputs are different as long as less than 2^70 bytes have been obtained. -/
theorem C93_pseudo_rng_blocks (env : Env) {seed : Bytes} (hs : 16 ≤ seed.length)
    (rs : List RngRequest) (hl : ∀ r ∈ rs, r.Legal) :
    ∃ g g' bs, ∃ input : Nat → List Spec.ChaCha20.Word, pseudoRngNew env seed = .ok g ∧
      pseudoRng.run rs g = .ok bs g' ∧
      (∀ i, 64 * i + 64 ≤ asked rs →
        slice (obtained rs bs) (64 * i) 64 = Spec.ChaCha20.block (input i)) ∧
      ∀ i j, i < j → j < 2 ^ 64 → input i ≠ input j := by
  obtain ⟨g, g', e1, e2⟩ := C61_pseudo_rng env hs rs hl
  refine ⟨g, g', _, Spec.ChaCha20.state (Spec.seedKey seed) (List.replicate 8 0), e1, e2, ?_, ?_⟩
  · intro i hi
    rw [obtained_fillRequests _ _ _ hl, streamBytes_slice _ hi]
    apply List.ext_getElem
    · obtain ⟨e3, hk⟩ := pseudoKey_eq seed hs
      rw [streamBytes_length, chacha_block_length (state_length (e3 ▸ hk) (.inl (by simp)) i)]
    · intro j h1 h2
      rw [streamBytes_length] at h1
      simp only [streamBytes, List.getElem_map, List.getElem_range, Spec.ChaCha20.keystream]
      have e3 : (64 * i + j) / 64 = i := by omega
      have e4 : (64 * i + j) % 64 = j := by omega
      simp only [e3, e4, Nat.zero_add]
      rw [List.getD_eq_getElem?_getD, List.getElem?_eq_getElem h2, Option.getD_some]
  · intro i j hij hj
    exact C21_chacha20_blocks_distinct_partial (.inl (by simp)) i j hij
      (by rw [if_pos (by simp)]; omega)

/-! ### Examples -/

namespace Example

/-- A request for one byte. -/
def oneAsked : RngRequest := ⟨[0], 0, 1⟩

theorem oneAsked_legal (n : Nat) : ∀ r ∈ List.replicate n oneAsked, r.Legal := by
  intro r hr
  rw [List.eq_of_mem_replicate hr]
  exact ⟨by decide, by decide, by decide⟩

theorem asked_replicate (n : Nat) : asked (List.replicate n oneAsked) = n := by
  simp [asked, oneAsked, List.map_replicate, List.sum_replicate]

def seed17 : Bytes := (List.range 17).map fun i => BitVec.ofNat 8 (i + 1)

/-- The hypotheses of `C93_pseudo_rng_seeds` hold of a seed of 17 characters and of a final zero. -/
example : 32 ≤ seed17.length ∨ 17 ≤ seed17.length ∧ [0] = List.replicate ([0] : Bytes).length (0 : Byte) := by
  decide

/-- Hence these two seeds give the same bytes. -/
example : ∃ g g' h h' bs, pseudoRngNew env64 seed17 = .ok g ∧ pseudoRngNew env64 (seed17 ++ [0]) = .ok h ∧
    pseudoRng.run [oneAsked, oneAsked] g = .ok bs g' ∧ pseudoRng.run [oneAsked, oneAsked] h = .ok bs h' :=
  C93_pseudo_rng_seeds env64 seed17 [0] (by decide) _ (oneAsked_legal 2)

/-- The bytes obtained from a seed, for the comparisons below. -/
def firstBytes (seed : Bytes) : Option (List Bytes) :=
  match pseudoRngNew env64 seed with
  | .ok g => match pseudoRng.run [⟨[0, 0, 0, 0], 0, 4⟩] g with
    | .ok bs _ => some bs
    | _ => none
  | .error _ => none

/-- A seed of 16 characters is not equivalent to the same seed followed by a zero, and a change in the
first 32 characters is noticed. -/
example : firstBytes (seed17.take 16) ≠ none ∧
    firstBytes (seed17.take 16 ++ [0]) ≠ firstBytes (seed17.take 16) ∧
    firstBytes (seed17 ++ [1]) ≠ firstBytes seed17 := by decide +kernel

/-- Histories that meet the hypothesis of the period theorems: nothing, and 2^132 requests for one byte. -/
example : asked [] % 2 ^ 132 = asked (List.replicate (2 ^ 132) oneAsked) % 2 ^ 132 := by
  rw [asked_replicate]; rfl

/-- Two blocks in 32 requests for one byte. -/
example : ∃ g g' bs, aesCtrRngNew env64 [] seed17 = .ok g ∧
    (aesCtrRng Aes.encCipher).run (List.replicate 32 oneAsked) g = .ok bs g' ∧
    slice (obtained (List.replicate 32 oneAsked) bs) 0 16
      ≠ slice (obtained (List.replicate 32 oneAsked) bs) 16 16 := by
  obtain ⟨g, g', bs, h1, h2, _, h4⟩ := C93_pseudo_rng_aes_ctr_no_repeat env64 [] (seed := seed17) (by decide)
    (List.replicate 32 oneAsked) (oneAsked_legal 32)
  exact ⟨g, g', bs, h1, h2, h4 0 1 (by decide) (by rw [asked_replicate]) (by decide)⟩

end Example
end Verif
