import Verif.Proof.Paillier
import Verif.Props.C53_C54_RSA
import Verif.Props.C31_Hmac
/-
C57 (Diffie-Hellman agreement) and C58 (`DH.derive_key`).
-/
namespace Verif

/-! ### C57 -/

/-- A successful `random` returns a positive number. -/
theorem bnRandom_pos {rng : RandomBytes σ} {odd : Bool} {nb : Int} {s s' : σ} {n : Int}
    (h : bnRandom rng odd nb s = .ok n s') : 0 < n := by
  have hr := bnRandom_ok h
  rcases lt_or_eq_of_le hr.1 with h0 | h0
  · exact h0
  · subst h0
    have hz : nb = 0 := by
      have : zNumbits 0 = 0 := rfl
      omega
    subst hz
    unfold bnRandom at h
    simp only at h
    rw [if_neg (by decide)] at h
    simp only [m_bind_ok] at h
    obtain ⟨b1, s1, _, b2, s2, _, b3, s3, h3, _⟩ := h
    have : bnChangeByte b2 ((0 + 7 : Int).tdiv 8 - 1)
        (fun b => (b &&& (1 <<< ((0 - 1 : Int) % 8).toNat - 1)) ||| 1 <<< ((0 - 1 : Int) % 8).toNat) = none := by
      unfold bnChangeByte bytesGet
      rw [show (0 + 7 : Int).tdiv 8 - 1 = -1 from rfl, if_neg (by omega)]
      rfl
    rw [this] at h3
    cases h3

theorem dhMessage_eq {e : BnEnv} (he : 0 < e.limb) {params : DhParams} (hl : e.limb ∣ params.p.length)
    (hodd : beNat params.p % 2 = 1) {a : Nat} (ha : 0 < a) :
    dhMessage e params a = .ok (natToBE params.p.length (beNat params.g ^ a % beNat params.p)) ∧
    beNat (natToBE params.p.length (beNat params.g ^ a % beNat params.p))
      = beNat params.g ^ a % beNat params.p := by
  have hlt : beNat params.g ^ a % beNat params.p < 256 ^ params.p.length :=
    Nat.lt_trans (Nat.mod_lt _ (by omega)) (beNat_lt' _)
  unfold dhMessage
  rw [bnOfBytes_eq, bnOfBytes_eq, powm_nat _ _ _ ha hodd, except_ok_bind]
  refine ⟨?_, beNat_natToBE' hlt⟩
  have := toBytes_aligned he hl hlt
  push_cast at this ⊢
  exact this

theorem dhSharedSecret_eq {e : BnEnv} (he : 0 < e.limb) {params : DhParams}
    (hl : e.limb ∣ params.p.length) (hodd : beNat params.p % 2 = 1) {a : Nat} (ha : 0 < a)
    (msg : Bytes) :
    dhSharedSecret e params a msg
      = .ok (natToBE params.p.length (beNat msg ^ a % beNat params.p), zWipe a) := by
  have hlt : beNat msg ^ a % beNat params.p < 256 ^ params.p.length :=
    Nat.lt_trans (Nat.mod_lt _ (by omega)) (beNat_lt' _)
  unfold dhSharedSecret
  rw [bnOfBytes_eq, bnOfBytes_eq, powm_nat _ _ _ ha hodd, except_ok_bind]
  have := toBytes_aligned he hl hlt
  push_cast at this ⊢
  rw [this]
  rfl

/-- C57 for parameters given by the user: the modulus is odd, its length is a multiple of the size
of the machine words (8 bytes), the secrets are positive. What is missing: moduli of other lengths
(`C57_dh_unaligned_fails`). Even moduli are not primes. -/
theorem C57_dh_agreement_partial (e : BnEnv) (he : 0 < e.limb) (params : DhParams)
    (hl : e.limb ∣ params.p.length) (hodd : beNat params.p % 2 = 1) (a b : Int) (ha : 0 < a)
    (hb : 0 < b) :
    ∃ ma mb secret, dhMessage e params a = .ok ma ∧ dhMessage e params b = .ok mb ∧
      (∃ x, dhSharedSecret e params a mb = .ok (secret, x)) ∧
      (∃ x, dhSharedSecret e params b ma = .ok (secret, x)) ∧ secret.length = params.p.length ∧
      beNat secret = beNat params.g ^ (a.toNat * b.toNat) % beNat params.p := by
  obtain ⟨a, rfl⟩ := Int.eq_ofNat_of_zero_le (a := a) (by omega)
  obtain ⟨b, rfl⟩ := Int.eq_ofNat_of_zero_le (a := b) (by omega)
  have h1 := dhMessage_eq he hl hodd (a := a) (by omega)
  have h2 := dhMessage_eq he hl hodd (a := b) (by omega)
  have s1 := dhSharedSecret_eq he hl hodd (a := a) (by omega)
    (natToBE params.p.length (beNat params.g ^ b % beNat params.p))
  have s2 := dhSharedSecret_eq he hl hodd (a := b) (by omega)
    (natToBE params.p.length (beNat params.g ^ a % beNat params.p))
  rw [h2.2, ← Nat.pow_mod, ← pow_mul, Nat.mul_comm] at s1
  rw [h1.2, ← Nat.pow_mod, ← pow_mul] at s2
  refine ⟨_, _, _, h1.1, h2.1, ⟨_, s1⟩, ⟨_, s2⟩, natToBE_length _ _, ?_⟩
  exact beNat_natToBE' (Nat.lt_trans (Nat.mod_lt _ (by omega)) (beNat_lt' _))

theorem dhNewParameters_good {e : BnEnv} (he : 0 < e.limb) (hn : e.PrimeOk) {rng : RandomBytes σ}
    {fuel : Nat} {privlen numbits : Int} {s s' : σ} {params : DhParams}
    (h : dhNewParameters e rng fuel privlen numbits s = .ok params s') :
    e.limb ∣ params.p.length ∧ beNat params.p % 2 = 1 ∧ (beNat params.p).Prime := by
  unfold dhNewParameters at h
  split at h
  · cases h
  · next hb =>
    rw [not_or] at hb
    simp only [m_bind_ok, m_pure_ok] at h
    obtain ⟨np, s1, h1, ng, s2, _, p, s3, h3, g, s4, _, h5, _⟩ := h
    subst h5
    obtain ⟨k, rfl, hp, hk⟩ := bnRandomPrime_ok hn h1
    have hv := bnToBytes_val he (ofExcept_ok h3)
    rw [Int.natAbs_natCast] at hv
    have hlen : p.length = limbBytes e (k : Int) := by
      have := bits_le_limb he (k : Int)
      have := hv.2.2.2
      rw [hv.2.1]
      omega
    refine ⟨?_, ?_, by rw [show DhParams.p ⟨p, g, privlen⟩ = p from rfl, hv.1]; exact hp⟩
    · show e.limb ∣ p.length
      rw [hlen]
      exact limb_dvd e _
    · show beNat p % 2 = 1
      have := zNumbits_large hk (by omega)
      rw [hv.1]
      rcases hp.eq_two_or_odd with h2 | h2 <;> omega

/-- C57 for the parameters that `new_parameters` can return and the secrets that `private_secret`
can return, with any random generators: both parties obtain the same secret, `g ^ (a b) mod p`, a
string of the length of `p`. -/
theorem C57_dh_agreement (e : BnEnv) (he : 0 < e.limb) (hn : e.PrimeOk) (rng : RandomBytes σ)
    (fuel : Nat) (privlen numbits : Int) (s s' : σ) (params : DhParams)
    (hp : dhNewParameters e rng fuel privlen numbits s = .ok params s')
    (rngA : RandomBytes τ) (rngB : RandomBytes υ) (a b : Int) (t t' : τ) (u u' : υ)
    (ha : dhPrivateSecret rngA params t = .ok a t') (hb : dhPrivateSecret rngB params u = .ok b u') :
    ∃ ma mb secret, dhMessage e params a = .ok ma ∧ dhMessage e params b = .ok mb ∧
      (∃ x, dhSharedSecret e params a mb = .ok (secret, x)) ∧
      (∃ x, dhSharedSecret e params b ma = .ok (secret, x)) ∧ secret.length = params.p.length ∧
      beNat secret = beNat params.g ^ (a.toNat * b.toNat) % beNat params.p := by
  have hg := dhNewParameters_good he hn hp
  exact C57_dh_agreement_partial e he params hg.1 hg.2.1 a b (bnRandom_pos ha) (bnRandom_pos hb)

/-- C57 fails for a modulus whose length is not a number of machine words: `p = 23` over one byte,
`g = 5`, secret 6, on a 64-bit machine. -/
theorem C57_dh_unaligned_fails :
    dhMessage ⟨8, fun n => n⟩ ⟨[23], [5], 3⟩ 6 = .error .invalidArg := by decide +kernel

/-- The private secret does not survive `shared_secret`: on 64-bit machines a secret of 63 bits or
more (the default is 160) becomes 0, and a second call raises `Invalid_argument`. -/
theorem C57_dh_secret_used_once (e : BnEnv) (params : DhParams) (a x : Int) (ha : 2 ^ 62 ≤ a)
    (msg secret : Bytes) (h : dhSharedSecret e params a msg = .ok (secret, x)) (msg' : Bytes) :
    x = 0 ∧ dhSharedSecret e params x msg' = .error .invalidArg := by
  unfold dhSharedSecret at h
  simp only [except_bind_ok] at h
  obtain ⟨r, _, b, _, h⟩ := h
  cases h
  have : zWipe a = 0 := by unfold zWipe; rw [if_neg (by omega)]
  rw [this]
  exact ⟨rfl, rfl⟩

/-! ### C58 -/

namespace Spec

/-- `H(div ^ secret ^ "1") ^ H(div ^ secret ^ "2") ^ ...`, `k` terms. -/
def deriveBlocks (diversification secret : Bytes) (k : Nat) : Bytes :=
  (List.range k).flatMap fun i => SHA256 (diversification ++ secret ++ ascii (toString (i + 1)))

/-- The key derived: the first `numbytes` bytes of this sequence; 32 bytes per term. -/
def deriveKey (diversification secret : Bytes) (numbytes : Nat) : Bytes :=
  (deriveBlocks diversification secret ((numbytes + 31) / 32)).take numbytes

end Spec

theorem deriveBlocks_succ (d s : Bytes) (k : Nat) :
    Spec.deriveBlocks d s (k + 1)
      = Spec.deriveBlocks d s k ++ Spec.SHA256 (d ++ s ++ ascii (toString (k + 1))) := by
  unfold Spec.deriveBlocks
  rw [List.range_succ, List.flatMap_append]
  simp

theorem deriveBlocks_length (d s : Bytes) (k : Nat) : (Spec.deriveBlocks d s k).length = 32 * k := by
  induction k with
  | zero => rfl
  | succ k ih => rw [deriveBlocks_succ, List.length_append, ih, SHA256_length]; omega

theorem deriveBlocks_take {d s : Bytes} {n j k : Nat} (hj : n ≤ 32 * j) (hk : n ≤ 32 * k) :
    (Spec.deriveBlocks d s j).take n = (Spec.deriveBlocks d s k).take n := by
  have key : ∀ i m, n ≤ 32 * i →
      (Spec.deriveBlocks d s (i + m)).take n = (Spec.deriveBlocks d s i).take n := by
    intro i m h
    induction m with
    | zero => rfl
    | succ m ih =>
      rw [← Nat.add_assoc, deriveBlocks_succ, List.take_append_of_le_length, ih]
      rw [deriveBlocks_length]; omega
  rcases Nat.le_total j k with h | h
  · obtain ⟨m, rfl⟩ := Nat.exists_eq_add_of_le h
    exact (key j m hj).symm
  · obtain ⟨m, rfl⟩ := Nat.exists_eq_add_of_le h
    exact key k m hk

theorem stringOfNat_eq (n : Nat) : stringOfNat n = ascii (toString n) := by
  unfold stringOfNat ascii
  show _ = (Nat.repr n).toList.map _
  rw [Nat.repr_eq_ofList_toDigits, String.toList_ofList]

theorem stringOfNat_length {n : Nat} (h : n < 10 ^ 18) : (stringOfNat n).length ≤ 18 := by
  unfold stringOfNat
  rw [List.length_map]
  exact (Nat.length_toDigits_le_iff (by decide) (by decide)).2 h

theorem dhDerive_ok {buf0 d s : Bytes} (hb : buf0.length = 64) {n : Nat} (hn : n ≤ maxString)
    (hl : d.length + s.length + 18 ≤ maxString) :
    ∀ (fuel j : Nat) (result : Bytes), result.length = n → n < j + fuel →
      (32 * j ≤ n → result.take (32 * j) = Spec.deriveBlocks d s j) →
      (n < 32 * j → result = (Spec.deriveBlocks d s j).take n) → j ≤ n →
      dhDerive buf0 d s n fuel (32 * j) (j + 1) result () = .ok (Spec.deriveKey d s n) () := by
  intro fuel
  induction fuel with
  | zero =>
    intro j result hr hf h1 h2 hj
    omega
  | succ fuel ih =>
    intro j result hr hf h1 h2 hj
    unfold dhDerive
    by_cases hlt : 32 * j < n
    · rw [if_pos hlt]
      have hms : maxString = 2 ^ 57 - 9 := rfl
      have hsl : (stringOfNat (j + 1)).length ≤ 18 := stringOfNat_length (by omega)
      obtain ⟨s1, hs1⟩ := observe_ok (C23_sha256_hash_string buf0 hb (d ++ s ++ stringOfNat (j + 1))
        (by rw [List.length_append, List.length_append]; omega))
      rw [hs1]
      simp only
      have hH := SHA256_length (d ++ s ++ stringOfNat (j + 1))
      generalize hHdef : Spec.SHA256 (d ++ s ++ stringOfNat (j + 1)) = H at hH
      have hmin : min (H.length : Int) ((n - 32 * j : Nat) : Int) = ((min 32 (n - 32 * j) : Nat) : Int) := by
        rw [hH]; omega
      have hblit := bytesBlit_ok (src := H) (so := 0) (dst := result) (dofs := 32 * j)
        (n := min 32 (n - 32 * j)) (by omega) (by omega)
      rw [hmin, show (0 : Int) = ((0 : Nat) : Int) from rfl, hblit]
      rw [M.bind_def]
      simp only [M.orRaise]
      rw [hH, show 32 * j + 32 = 32 * (j + 1) by omega]
      have hsl0 : slice H 0 (min 32 (n - 32 * j)) = H.take (min 32 (n - 32 * j)) := by
        unfold slice; rw [List.drop_zero]
      rw [hsl0]
      have htl : (H.take (min 32 (n - 32 * j))).length = min 32 (n - 32 * j) := by
        rw [List.length_take]; omega
      have hspl : splice result (32 * j) (H.take (min 32 (n - 32 * j)))
          = Spec.deriveBlocks d s j ++ (H.take (min 32 (n - 32 * j))
            ++ result.drop (32 * j + min 32 (n - 32 * j))) := by
        unfold splice
        rw [h1 (by omega), htl, List.append_assoc]
      have hbs : Spec.deriveBlocks d s (j + 1) = Spec.deriveBlocks d s j ++ H := by
        rw [deriveBlocks_succ, ← stringOfNat_eq, hHdef]
      have hdl := deriveBlocks_length d s j
      refine ih (j + 1) _ ?_ (by omega) ?_ ?_ (by omega)
      · rw [splice_length (by rw [htl]; omega), hr]
      · intro h32
        have : min 32 (n - 32 * j) = 32 := by omega
        rw [hspl, this, hbs, List.take_of_length_le (i := 32) (by omega), ← List.append_assoc,
          List.take_append_of_le_length (by rw [List.length_append]; omega),
          List.take_of_length_le (by rw [List.length_append]; omega)]
      · intro h32
        have : min 32 (n - 32 * j) = n - 32 * j := by omega
        rw [hspl, this, hbs, List.drop_eq_nil_of_le (by omega), List.append_nil, List.take_append,
          List.take_of_length_le (by omega : (Spec.deriveBlocks d s j).length ≤ n), hdl]
    · rw [if_neg hlt]
      show Out.ok result () = _
      congr 1
      unfold Spec.deriveKey
      rcases Nat.lt_or_ge n (32 * j) with h3 | h3
      · rw [h2 h3]
        exact deriveBlocks_take (by omega) (by omega)
      · have h4 : n = 32 * j := by omega
        have := h1 (by omega)
        rw [List.take_of_length_le (by omega)] at this
        rw [this]
        have h5 : (n + 31) / 32 = j := by omega
        rw [h5, List.take_of_length_le (by rw [deriveBlocks_length]; omega)]

/-- C58: `derive_key` returns the first `numbytes` bytes of
`SHA256(div ^ secret ^ "1") ^ SHA256(div ^ secret ^ "2") ^ ...`. The strings are short enough for
the concatenations to exist. -/
theorem C58_derive_key (env : Env) (hmax : env.maxLen ≤ maxString) (buf0 : Bytes)
    (hb : buf0.length = 64) (diversification secret : Bytes)
    (hl : diversification.length + secret.length + 18 ≤ maxString) (numbytes : Nat)
    (hn : numbytes ≤ env.maxLen) :
    dhDeriveKey env buf0 diversification secret numbytes ()
      = .ok (Spec.deriveKey diversification secret numbytes) () := by
  unfold dhDeriveKey
  rw [if_neg (by omega), Int.toNat_natCast]
  refine dhDerive_ok hb (by omega) hl (numbytes + 1) 0 _ (by simp [Env.create]) (by omega)
    (fun _ => by simp [Spec.deriveBlocks]) (fun h => by omega) (by omega)

/-- C58: the result has exactly `numbytes` bytes. -/
theorem C58_derive_key_length (d s : Bytes) (n : Nat) : (Spec.deriveKey d s n).length = n := by
  unfold Spec.deriveKey
  rw [List.length_take, deriveBlocks_length]
  omega

/-- C58: a shorter key is a prefix of a longer one. -/
theorem C58_derive_key_prefix (d s : Bytes) {m n : Nat} (h : m ≤ n) :
    Spec.deriveKey d s m = (Spec.deriveKey d s n).take m := by
  unfold Spec.deriveKey
  rw [List.take_take, Nat.min_eq_left h]
  exact deriveBlocks_take (by omega) (by omega)

/-- C58: a negative length, or one longer than strings can be, is refused. -/
theorem C58_derive_key_refuses (env : Env) (buf0 d s : Bytes) (n : Int)
    (h : n < 0 ∨ env.maxLen < n) : dhDeriveKey env buf0 d s n () = .exn .invalidArg () := by
  unfold dhDeriveKey
  rw [if_pos (by omega)]
  rfl

namespace Example

/-- The hypotheses of C57 are met: parameters of 64 bits, secrets of 20 bits. -/
theorem dhParams : dhNewParameters bnEnv listRng 1 20 64
    [natToLE 8 (primeP - 2), natToLE 8 12345] = .ok ⟨natToBE 8 primeP, natToBE 8 (2 ^ 62 + 12345), 20⟩ [] := by
  decide +kernel

example : ∃ ma mb secret x y,
    dhMessage bnEnv ⟨natToBE 8 primeP, natToBE 8 (2 ^ 62 + 12345), 20⟩ (2 ^ 19 + 1234) = .ok ma ∧
    dhMessage bnEnv ⟨natToBE 8 primeP, natToBE 8 (2 ^ 62 + 12345), 20⟩ (2 ^ 19 + 4321) = .ok mb ∧
    dhSharedSecret bnEnv ⟨natToBE 8 primeP, natToBE 8 (2 ^ 62 + 12345), 20⟩ (2 ^ 19 + 1234) mb
      = .ok (secret, x) ∧
    dhSharedSecret bnEnv ⟨natToBE 8 primeP, natToBE 8 (2 ^ 62 + 12345), 20⟩ (2 ^ 19 + 4321) ma
      = .ok (secret, y) := by
  have ha : dhPrivateSecret listRng ⟨natToBE 8 primeP, natToBE 8 (2 ^ 62 + 12345), 20⟩
      [natToLE 3 1234] = .ok (2 ^ 19 + 1234) [] := by decide +kernel
  have hb : dhPrivateSecret listRng ⟨natToBE 8 primeP, natToBE 8 (2 ^ 62 + 12345), 20⟩
      [natToLE 3 4321] = .ok (2 ^ 19 + 4321) [] := by decide +kernel
  obtain ⟨ma, mb, secret, h1, h2, ⟨x, h3⟩, ⟨y, h4⟩, _⟩ :=
    C57_dh_agreement bnEnv (by decide) bnEnv_primeOk _ _ _ _ _ _ _ dhParams _ _ _ _ _ _ _ _ ha hb
  exact ⟨ma, mb, secret, x, y, h1, h2, h3, h4⟩

/-- A key of 40 bytes, two hashes, derived from a secret with a diversification. -/
example : dhDeriveKey Example.env64 (List.replicate 64 0) (ascii "key") (ascii "secret") 40 ()
    = .ok (Spec.deriveKey (ascii "key") (ascii "secret") 40) () :=
  C58_derive_key _ (by decide) _ (by decide) _ _ (by decide) 40 (by decide)

/-- The secret of `C57_dh_secret_used_once`. -/
example : ∃ r, dhSharedSecret bnEnv ⟨natToBE 8 primeP, natToBE 8 3, 20⟩ (2 ^ 62 : Int) [5] = .ok r := by
  exact ⟨_, dhSharedSecret_eq (a := 2 ^ 62) (by decide) (by decide) (by decide +kernel) (by decide) _⟩

end Example

end Verif
