import Verif.Props.C102_Correspond
import Verif.Props.C78_Uniform
import Mathlib.SetTheory.Cardinal.Finite
import Mathlib.Logic.Equiv.Basic
import Mathlib.Data.Nat.Prime.Infinite
/-
C103: secrets drawn again and again until they are suitable.
-/
namespace Verif

namespace Spec

/-- A generator of random bytes that reads a tape of numbers: each request is served with the bytes of
the next number. When the numbers range over those below `256 ^ k`, the requests of `k` bytes range over
all strings of `k` bytes, independently of each other. -/
def tape : RandomBytes (List Nat) := fun k l =>
  match l with
  | [] => .exn (.error .noEntropySource) []
  | x :: l => .ok (natToLE k x) l

/-- The tape with the numbers `t 0`, `t 1`... -/
def tapeOf {N : Nat} (t : Fin k → Fin N) : List Nat := List.ofFn fun i => (t i).val

/-- `r` is suitable for blinding a Paillier message: below the modulus and without common factor with
it. -/
def Blinds (n r : Nat) : Prop := Nat.Coprime r n ∧ r < n

/-- The Paillier ciphertext of the number `m` blinded by `r`. -/
def paillierCipher (n m r : Nat) : Nat := (n + 1) ^ m * r ^ n % (n * n)

end Spec

open Spec

theorem tape_exact : ExactLength tape := by
  intro n s b s' h
  cases s with
  | nil => cases h
  | cons x l =>
    simp only [tape, Out.ok.injEq] at h
    rw [← h.1]
    exact natToLE_length _ _

/-! ### Drawing from a tape -/

/-- The number of `n` bits made of `x`. -/
def numOf (n x : Nat) : Nat := 2 ^ (n - 1) + x % 2 ^ (n - 1)

theorem numOf_bounds {n : Nat} (x : Nat) : 2 ^ (n - 1) ≤ numOf n x ∧ numOf n x < 2 * 2 ^ (n - 1) := by
  have := Nat.mod_lt x (Nat.two_pow_pos (n - 1))
  unfold numOf
  omega

theorem bytes_split (n : Nat) :
    256 ^ ((n + 7) / 8) = 2 ^ (n - 1) * 2 ^ (8 * ((n + 7) / 8) - (n - 1)) := by
  rw [← Nat.pow_add, show (256 : Nat) = 2 ^ 8 from rfl, ← Nat.pow_mul]
  congr 1
  omega

theorem bnRandom_tape {n : Nat} (hn : 1 ≤ n) (x : Nat) (l : List Nat) :
    bnRandom tape false n (x :: l) = .ok (numOf n x : Int) l := by
  rw [bnRandom_eq (b := natToLE ((n + 7) / 8) x) (s' := l) false hn rfl (natToLE_length _ _),
    leNat_natToLE]
  unfold drawn numOf
  simp only [Bool.false_eq_true, if_false]
  rw [Nat.mod_mod_of_dvd _ ⟨_, bytes_split n⟩]

theorem bnRandom_tape_nil {n : Nat} (hn : 1 ≤ n) :
    bnRandom tape false n [] = .exn (.error .noEntropySource) [] := by
  have e1 : ((n : Int) + 7).tdiv 8 = (((n + 7) / 8 : Nat) : Int) := by
    rw [show ((n : Int) + 7) = ((n + 7 : Nat) : Int) by omega]; rfl
  unfold bnRandom
  simp only [e1]
  rw [if_neg (by omega)]
  rfl

/-- Draw until suitable. -/
def drawUntil (ok : Int → Bool) (n fuel : Nat) : M (List Nat) Int :=
  retry fuel do
    let r ← bnRandom tape false n
    pure (if ok r then some r else none)

theorem drawUntil_cons {ok : Int → Bool} {n : Nat} (hn : 1 ≤ n) (fuel x : Nat) (l : List Nat) :
    drawUntil ok n (fuel + 1) (x :: l)
      = if ok (numOf n x : Int) then .ok (numOf n x : Int) l else drawUntil ok n fuel l := by
  unfold drawUntil
  rw [retry, M.bind_def, M.bind_ok (bnRandom_tape hn x l)]
  cases ok (numOf n x : Int) <;> rfl

theorem drawUntil_nil {ok : Int → Bool} {n : Nat} (hn : 1 ≤ n) (fuel : Nat) (a : Int) (l : List Nat) :
    drawUntil ok n fuel [] ≠ .ok a l := by
  cases fuel with
  | zero => intro h; cases h
  | succ fuel =>
    unfold drawUntil
    rw [retry, M.bind_def, M.bind_def, bnRandom_tape_nil hn]
    intro h
    cases h

/-! ### Exchanging two suitable numbers -/

/-- Exchange the strings that give `v` with those that give `w`. -/
def swapNum (n v w x : Nat) : Nat :=
  2 ^ (n - 1) * (x / 2 ^ (n - 1)) + (Equiv.swap v w (numOf n x) - 2 ^ (n - 1))

section swap
variable {n v w : Nat} (hv : 2 ^ (n - 1) ≤ v) (hv' : v < 2 * 2 ^ (n - 1)) (hw : 2 ^ (n - 1) ≤ w)
  (hw' : w < 2 * 2 ^ (n - 1))
include hv hv' hw hw'

theorem swap_bounds (x : Nat) : 2 ^ (n - 1) ≤ Equiv.swap v w (numOf n x)
    ∧ Equiv.swap v w (numOf n x) < 2 * 2 ^ (n - 1) := by
  have := numOf_bounds (n := n) x
  rw [Equiv.swap_apply_def]
  split
  · exact ⟨hw, hw'⟩
  · split
    · exact ⟨hv, hv'⟩
    · exact this

theorem numOf_swap (x : Nat) : numOf n (swapNum n v w x) = Equiv.swap v w (numOf n x) := by
  have := swap_bounds hv hv' hw hw' x
  conv_lhs => unfold numOf
  unfold swapNum
  rw [Nat.mul_add_mod, Nat.mod_eq_of_lt (by omega)]
  omega

theorem swapNum_swap (x : Nat) : swapNum n v w (swapNum n v w x) = x := by
  have hb := swap_bounds hv hv' hw hw' x
  have h1 := numOf_swap hv hv' hw hw' x
  have h2 : swapNum n v w x / 2 ^ (n - 1) = x / 2 ^ (n - 1) := by
    have h3 : (Equiv.swap v w (numOf n x) - 2 ^ (n - 1)) / 2 ^ (n - 1) = 0 :=
      Nat.div_eq_of_lt (by omega)
    unfold swapNum
    rw [Nat.mul_add_div (Nat.two_pow_pos _), h3, Nat.add_zero]
  generalize swapNum n v w x = y at h1 h2 ⊢
  unfold swapNum
  rw [h1, h2, Equiv.swap_apply_self]
  unfold numOf
  rw [Nat.add_sub_cancel_left]
  exact Nat.div_add_mod x _

theorem swapNum_lt {x : Nat} (hx : x < 256 ^ ((n + 7) / 8)) : swapNum n v w x < 256 ^ ((n + 7) / 8) := by
  have hb := swap_bounds hv hv' hw hw' x
  rw [bytes_split] at hx ⊢
  generalize 2 ^ (8 * ((n + 7) / 8) - (n - 1)) = K at hx ⊢
  have hq : x / 2 ^ (n - 1) < K := Nat.div_lt_of_lt_mul hx
  unfold swapNum
  calc 2 ^ (n - 1) * (x / 2 ^ (n - 1)) + (Equiv.swap v w (numOf n x) - 2 ^ (n - 1))
      < 2 ^ (n - 1) * (x / 2 ^ (n - 1)) + 2 ^ (n - 1) := by omega
    _ = 2 ^ (n - 1) * (x / 2 ^ (n - 1) + 1) := by ring
    _ ≤ 2 ^ (n - 1) * K := Nat.mul_le_mul_left _ hq

/-- The exchange on the strings of bytes. -/
def swapFin : Fin (256 ^ ((n + 7) / 8)) ≃ Fin (256 ^ ((n + 7) / 8)) :=
  Function.Involutive.toPerm
    (fun x => ⟨swapNum n v w x.val, swapNum_lt hv hv' hw hw' x.isLt⟩)
    (fun x => Fin.ext (swapNum_swap hv hv' hw hw' x.val))

theorem tapeOf_swap {k : Nat} (t : Fin k → Fin (256 ^ ((n + 7) / 8))) :
    tapeOf (fun i => swapFin hv hv' hw hw' (t i)) = (tapeOf t).map (swapNum n v w) := by
  unfold tapeOf
  rw [List.map_ofFn]
  rfl

theorem drawUntil_swap {ok : Int → Bool} (hn : 1 ≤ n) (ov : ok v = true) (ow : ok w = true) :
    ∀ (fuel : Nat) (l : List Nat) (a : Nat) (l' : List Nat), drawUntil ok n fuel l = .ok (a : Int) l' →
      drawUntil ok n fuel (l.map (swapNum n v w))
        = .ok ((Equiv.swap v w a : Nat) : Int) (l'.map (swapNum n v w))
  | _, [], a, l', h => absurd h (drawUntil_nil hn _ _ _)
  | 0, _ :: _, a, l', h => by cases h
  | fuel + 1, x :: l, a, l', h => by
    have hok : ok ((Equiv.swap v w (numOf n x) : Nat) : Int) = ok (numOf n x : Int) := by
      rw [Equiv.swap_apply_def]
      split
      · next h1 => rw [h1, ov, ow]
      · split
        · next h1 => rw [h1, ov, ow]
        · rfl
    rw [drawUntil_cons hn] at h
    rw [List.map_cons, drawUntil_cons hn, numOf_swap hv hv' hw hw', hok]
    split at h
    · next h1 =>
      rw [if_pos h1]
      simp only [Out.ok.injEq, Nat.cast_inj] at h
      rw [h.1, h.2]
    · next h1 =>
      rw [if_neg h1]
      exact drawUntil_swap hn ov ow fuel l a l' h

/-- As many tapes give one suitable number as another. -/
theorem drawUntil_uniform {ok : Int → Bool} (hn : 1 ≤ n) (ov : ok v = true) (ow : ok w = true)
    (fuel k : Nat) :
    Nat.card {t : Fin k → Fin (256 ^ ((n + 7) / 8)) // ∃ l, drawUntil ok n fuel (tapeOf t) = .ok (v : Int) l}
      = Nat.card {t : Fin k → Fin (256 ^ ((n + 7) / 8)) //
          ∃ l, drawUntil ok n fuel (tapeOf t) = .ok (w : Int) l} := by
  refine Nat.card_congr (Equiv.subtypeEquiv
    (Equiv.arrowCongr (Equiv.refl (Fin k)) (swapFin hv hv' hw hw')) fun t => ?_)
  have he : tapeOf ((Equiv.arrowCongr (Equiv.refl (Fin k)) (swapFin hv hv' hw hw')) t)
      = (tapeOf t).map (swapNum n v w) := tapeOf_swap hv hv' hw hw' t
  rw [he]
  constructor
  · rintro ⟨l, h⟩
    have := drawUntil_swap hv hv' hw hw' hn ov ow fuel _ _ _ h
    rw [Equiv.swap_apply_left] at this
    exact ⟨_, this⟩
  · rintro ⟨l, h⟩
    have := drawUntil_swap hv hv' hw hw' hn ov ow fuel _ _ _ h
    rw [Equiv.swap_apply_right, List.map_map] at this
    have e : (swapNum n v w ∘ swapNum n v w) = id := by
      funext x; exact swapNum_swap hv hv' hw hw' x
    rw [e, List.map_id] at this
    exact ⟨_, this⟩

end swap

/-! ### The exponent of RSA -/

/-- C103, `RSA.new_key` without `?e`: the exponents of exactly the size requested that are prime with
`p - 1` and `q - 1` are equally likely: as many tapes of `k` random strings give one as another, for
every `k`. -/
theorem C103_rsa_exponent (fuel k : Nat) {n : Nat} (hn : 1 ≤ n) (p q : Nat) (hp : 1 ≤ p) (hq : 1 ≤ q)
    (v w : Nat) (hv : 2 ^ (n - 1) ≤ v) (hv' : v < 2 ^ n) (hw : 2 ^ (n - 1) ≤ w) (hw' : w < 2 ^ n)
    (cv : Nat.Coprime v (p - 1) ∧ Nat.Coprime v (q - 1))
    (cw : Nat.Coprime w (p - 1) ∧ Nat.Coprime w (q - 1)) :
    Nat.card {t : Fin k → Fin (256 ^ ((n + 7) / 8)) //
        ∃ l, rsaGenExponent tape fuel n ((p : Int) - 1) ((q : Int) - 1) (tapeOf t) = .ok (v : Int) l}
      = Nat.card {t : Fin k → Fin (256 ^ ((n + 7) / 8)) //
        ∃ l, rsaGenExponent tape fuel n ((p : Int) - 1) ((q : Int) - 1) (tapeOf t) = .ok (w : Int) l} := by
  have e : 2 ^ n = 2 * 2 ^ (n - 1) := by rw [← Nat.pow_succ']; congr 1; omega
  have ok : ∀ {u : Nat}, Nat.Coprime u (p - 1) ∧ Nat.Coprime u (q - 1) →
      (bnRelativePrime (u : Int) ((p : Int) - 1) && bnRelativePrime (u : Int) ((q : Int) - 1)) = true := by
    intro u hu
    rw [show (p : Int) - 1 = ((p - 1 : Nat) : Int) by omega,
      show (q : Int) - 1 = ((q - 1 : Nat) : Int) by omega]
    unfold bnRelativePrime
    rw [Bool.and_eq_true, beq_iff_eq, beq_iff_eq, Int.gcd_natCast_natCast, Int.gcd_natCast_natCast]
    exact ⟨by exact_mod_cast hu.1, by exact_mod_cast hu.2⟩
  exact drawUntil_uniform (ok := fun u => bnRelativePrime u ((p : Int) - 1) && bnRelativePrime u ((q : Int) - 1))
    hv (e ▸ hv') hw (e ▸ hw') hn (ok cv) (ok cw) fuel k

/-! ### The blinding of Paillier -/

section blind
variable {e : BnEnv} {priv : PaillierPrivate} {pub : PaillierPublic} {n l mu : Nat}

/-- The test that `encrypt` makes. -/
def blindOk (pub : PaillierPublic) (r : Int) : Bool :=
  bnRelativePrime r (bnOfBytes pub.n) && decide (r < bnOfBytes pub.n)

theorem blindOk_iff (pub : PaillierPublic) (r : Nat) : blindOk pub r = true ↔ Blinds (beNat pub.n) r := by
  unfold blindOk bnRelativePrime Blinds Nat.Coprime
  rw [Bool.and_eq_true, bnOfBytes_eq, beq_iff_eq, decide_eq_true_eq, Int.gcd_natCast_natCast]
  exact ⟨fun h => ⟨by exact_mod_cast h.1, by exact_mod_cast h.2⟩,
    fun h => ⟨by exact_mod_cast h.1, by exact_mod_cast h.2⟩⟩

theorem paillierEncrypt_tape (h : PaiGood e priv pub n l mu) (he : 0 < e.limb) {size : Nat}
    (hsz : pub.size = size) (h2 : 2 ≤ size) {fuel : Nat} {msg : Bytes} (hm : 0 < beNat msg)
    {r : Nat} (hr : Blinds n r) (tp : List Nat) :
    (∃ c s', paillierEncrypt e tape fuel pub msg tp = .ok c s' ∧ beNat c = paillierCipher n (beNat msg) r)
      ↔ ∃ s', drawUntil (blindOk pub) (size - 1) fuel tp = .ok (r : Int) s' := by
  have hrun : paillierGetR e tape fuel pub
      = drawUntil (blindOk pub) (size - 1) fuel >>= fun r => ofExcept (bnToBytes e none r) := by
    unfold paillierGetR drawUntil blindOk
    rw [hsz, show (size : Int) - 1 = ((size - 1 : Nat) : Int) by omega]
  unfold paillierEncrypt
  rw [hrun]
  constructor
  · rintro ⟨c, s', h1, hc⟩
    have h0 := h1
    simp only [m_bind_ok] at h1
    obtain ⟨rb, s1, ⟨d, s2, h3, h4⟩, h5⟩ := h1
    obtain ⟨s0, h6⟩ := retry_ok h3
    simp only [m_bind_ok, m_pure_ok] at h6
    obtain ⟨u, s3, h7, h8, _⟩ := h6
    have hu := bnRandom_ok h7
    split at h8
    · next hok =>
      cases h8
      obtain ⟨d', rfl⟩ := Int.eq_ofNat_of_zero_le hu.1
      have hd := (blindOk_iff pub d').1 hok
      rw [h.pubn] at hd
      have b1 := (bnToBytes_none_val he (ofExcept_ok h4)).1
      rw [Int.natAbs_natCast] at b1
      obtain ⟨c', h9, _, h10⟩ := paillierEncryptWith_eq h he (r := rb) hm
      rw [ofExcept_ok h5] at h9
      injection h9 with h9
      subst h9
      rw [b1, hc] at h10
      have hi := (pai_cipher_inj h.l0 h.n1 h.carm h.lmu hr.1 hd.1 h10).2
      unfold Nat.ModEq at hi
      rw [Nat.mod_eq_of_lt hr.2, Nat.mod_eq_of_lt hd.2] at hi
      subst hi
      exact ⟨_, h3⟩
    · cases h8
  · rintro ⟨s', h3⟩
    have hb := bnToBytes_none (e := e) (r : Int)
    have b1 := (bnToBytes_none_val he hb).1
    have hab : (r : Int).natAbs = r := Int.natAbs_natCast r
    obtain ⟨c, h9, _, h10⟩ := paillierEncryptWith_eq h he (r := natToBE (limbBytes e (r : Int)) (r : Int).natAbs) hm
    rw [b1, hab] at h10
    refine ⟨c, s', ?_, h10⟩
    rw [M.bind_ok (a := natToBE (limbBytes e (r : Int)) (r : Int).natAbs) (s' := s'), h9]
    · rfl
    · rw [M.bind_ok h3, hb]
      rfl

end blind

/-- C103, `Paillier.encrypt`, the part that is true: among the blinding numbers of exactly `size - 1`
bits that are suitable, all are equally likely. As many tapes of `k` random strings give the ciphertext
blinded by one as by another, for every key that `new_key` returns, every message and every `k`. What is
missing: the other suitable blinding numbers are never used (`C103_blinding_fails`). -/
theorem C103_blinding_partial (e : BnEnv) (he : 0 < e.limb) (hn : e.PrimeOk)
    (rng : RandomBytes σ) (fuel : Nat) (numbits : Int) (s s' : σ) (priv : PaillierPrivate)
    (pub : PaillierPublic) (hk : paillierNewKey e rng fuel numbits s = .ok (priv, pub) s')
    (size : Nat) (hsz : pub.size = size) (h2 : 2 ≤ size)
    (msg : Bytes) (hm : 0 < beNat msg) (r r' : Nat)
    (hr : Blinds (beNat pub.n) r) (hb : 2 ^ (size - 2) ≤ r ∧ r < 2 ^ (size - 1))
    (hr' : Blinds (beNat pub.n) r') (hb' : 2 ^ (size - 2) ≤ r' ∧ r' < 2 ^ (size - 1)) (k fuel' : Nat) :
    Nat.card {t : Fin k → Fin (256 ^ ((size - 1 + 7) / 8)) //
        ∃ c l, paillierEncrypt e tape fuel' pub msg (tapeOf t) = .ok c l
          ∧ beNat c = paillierCipher (beNat pub.n) (beNat msg) r}
      = Nat.card {t : Fin k → Fin (256 ^ ((size - 1 + 7) / 8)) //
        ∃ c l, paillierEncrypt e tape fuel' pub msg (tapeOf t) = .ok c l
          ∧ beNat c = paillierCipher (beNat pub.n) (beNat msg) r'} := by
  obtain ⟨n, l, mu, h⟩ := paillierNewKey_good he hn hk
  have e1 : size - 1 - 1 = size - 2 := by omega
  have e2 : 2 ^ (size - 1) = 2 * 2 ^ (size - 2) := by rw [← Nat.pow_succ']; congr 1; omega
  have o := (blindOk_iff pub r).2 hr
  have o' := (blindOk_iff pub r').2 hr'
  rw [h.pubn] at hr hr' ⊢
  simp only [paillierEncrypt_tape h he hsz h2 hm hr, paillierEncrypt_tape h he hsz h2 hm hr']
  exact drawUntil_uniform (n := size - 1) (by rw [e1]; exact hb.1) (by rw [e1, ← e2]; exact hb.2)
    (by rw [e1]; exact hb'.1) (by rw [e1, ← e2]; exact hb'.2) (by omega) o o' fuel' k

/-- C103, what `Paillier.encrypt` never returns, whatever the generator: the ciphertexts whose blinding
number does not have exactly `size - 1` bits. -/
theorem C103_blinding_range (e : BnEnv) (he : 0 < e.limb) (hn : e.PrimeOk)
    (rng : RandomBytes σ) (fuel : Nat) (numbits : Int) (s s' : σ) (priv : PaillierPrivate)
    (pub : PaillierPublic) (hk : paillierNewKey e rng fuel numbits s = .ok (priv, pub) s')
    (size : Nat) (hsz : pub.size = size) (h2 : 2 ≤ size)
    (rng' : RandomBytes τ) (hx : ExactLength rng') (fuel' : Nat) (t t' : τ)
    (msg c : Bytes) (hm : 0 < beNat msg) (hc : paillierEncrypt e rng' fuel' pub msg t = .ok c t')
    (r : Nat) (hr : Blinds (beNat pub.n) r)
    (hcr : beNat c = paillierCipher (beNat pub.n) (beNat msg) r) :
    2 ^ (size - 2) ≤ r ∧ r < 2 ^ (size - 1) := by
  obtain ⟨n, l, mu, h⟩ := paillierNewKey_good he hn hk
  obtain ⟨d, hd, hv⟩ := C96_paillier_encrypt e he rng' hx fuel' pub size hsz h2 msg c t t' hc hm
    (by rw [h.pubn]; have := h.n1; omega) (by rw [h.pubn2]; exact h.n2odd)
  obtain ⟨h1, s0, b, _, hb⟩ := FirstOf.last hd
  rw [h.pubn] at h1 hr hcr hv
  rw [h.pubn2, h.pubg, hcr] at hv
  have hi := (pai_cipher_inj h.l0 h.n1 h.carm h.lmu hr.1 h1.1 hv).2
  unfold Nat.ModEq at hi
  rw [Nat.mod_eq_of_lt hr.2, Nat.mod_eq_of_lt h1.2] at hi
  have e1 : size - 1 - 1 = size - 2 := by omega
  have e2 : 2 ^ (size - 1) = 2 * 2 ^ (size - 2) := by rw [← Nat.pow_succ']; congr 1; omega
  have := Nat.mod_lt (leNat b) (Nat.two_pow_pos (size - 2))
  rw [hi, hb, numberFrom, e1]
  omega

theorem paillierNewKey_size {e : BnEnv} {rng : RandomBytes σ} {fuel : Nat} {numbits : Int} {s s' : σ}
    {priv : PaillierPrivate} {pub : PaillierPublic}
    (h : paillierNewKey e rng fuel numbits s = .ok (priv, pub) s') :
    ∃ size : Nat, pub.size = size ∧ 32 ≤ size := by
  unfold paillierNewKey at h
  split at h
  · cases h
  · next hb =>
    rw [not_or] at hb
    simp only [m_bind_ok] at h
    obtain ⟨pq, s1, _, h3⟩ := h
    have h4 := ofExcept_ok h3
    unfold paillierBuild at h4
    simp only [except_bind_ok] at h4
    obtain ⟨mu, hmu, bn, hbn, bn2, hbn2, bp, hbp, bq, hbq, bl, hbl, bmu, hbmu, bg, hbg, hk⟩ := h4
    cases hk
    exact ⟨numbits.toNat, by show numbits = _; omega, by omega⟩

/-- C103 is false of `Paillier.encrypt`: for every key that `new_key` returns and every message, the
number 1 is suitable for blinding, and yet the ciphertext that it gives, `g ^ m mod n²`, is never
returned. -/
theorem C103_blinding_fails (e : BnEnv) (he : 0 < e.limb) (hn : e.PrimeOk)
    (rng : RandomBytes σ) (fuel : Nat) (numbits : Int) (s s' : σ) (priv : PaillierPrivate)
    (pub : PaillierPublic) (hk : paillierNewKey e rng fuel numbits s = .ok (priv, pub) s')
    (msg : Bytes) (hm : 0 < beNat msg) :
    Blinds (beNat pub.n) 1
      ∧ ∀ (τ : Type) (rng' : RandomBytes τ), ExactLength rng' → ∀ (fuel' : Nat) (t t' : τ) (c : Bytes),
        paillierEncrypt e rng' fuel' pub msg t = .ok c t' →
          beNat c ≠ paillierCipher (beNat pub.n) (beNat msg) 1 := by
  obtain ⟨size, hsz, h32⟩ := paillierNewKey_size hk
  obtain ⟨n, l, mu, h⟩ := paillierNewKey_good he hn hk
  have h1 : Blinds (beNat pub.n) 1 := ⟨Nat.coprime_one_left _, by rw [h.pubn]; exact h.n1⟩
  refine ⟨h1, fun τ rng' hx fuel' t t' c hc heq => ?_⟩
  have := (C103_blinding_range e he hn rng fuel numbits s s' priv pub hk size hsz (by omega) rng' hx fuel'
    t t' msg c hm hc 1 h1 heq).1
  have h2 : 2 ^ 1 ≤ 2 ^ (size - 2) := Nat.pow_le_pow_right (by decide) (by omega)
  omega

/-! ### Primes -/

namespace Spec

/-- `Z.nextprime` returns the smallest prime larger than its argument. -/
def NextPrime (e : BnEnv) : Prop :=
  ∀ n : Nat, ∃ p : Nat, e.nextprime n = p ∧ n < p ∧ p.Prime ∧ ∀ q, q.Prime → n < q → p ≤ q

end Spec

theorem card_between (M K a : Nat) : ∀ b, a ≤ b → b ≤ M →
    ((Finset.range (M * K)).filter fun x => a ≤ x % M ∧ x % M < b).card = (b - a) * K := by
  intro b hab
  induction b, hab using Nat.le_induction with
  | base =>
    intro _
    rw [Nat.sub_self, Nat.zero_mul, Finset.card_eq_zero]
    exact Finset.filter_eq_empty_iff.2 fun x _ h => by omega
  | succ b hab ih =>
    intro hb
    have : ((Finset.range (M * K)).filter fun x => a ≤ x % M ∧ x % M < b + 1)
        = ((Finset.range (M * K)).filter fun x => a ≤ x % M ∧ x % M < b)
          ∪ ((Finset.range (M * K)).filter fun x => x % M = b) := by
      ext x
      simp only [Finset.mem_filter, Finset.mem_union, ← and_or_left]
      exact and_congr_right fun _ => by omega
    rw [this, Finset.card_union_of_disjoint, ih (by omega), card_mod _ _ _ (by omega),
      Nat.succ_sub hab, Nat.succ_mul]
    rw [Finset.disjoint_left]
    intro x h1 h2
    simp only [Finset.mem_filter] at h1 h2
    omega

/-- C103, random primes (the factors of RSA and Paillier moduli, the modulus of Diffie-Hellman): the
number of random strings that give the prime `p` at the first draw is proportional to its distance from
the prime before it. -/
theorem C103_prime_gap (e : BnEnv) (hnp : NextPrime e) {n : Nat} (hn : 2 ≤ n) (p q : Nat) (hp : p.Prime)
    (hq : q.Prime) (hqp : q < p) (hgap : ∀ u, u.Prime → u ≤ q ∨ p ≤ u) (hq2 : 2 < q)
    (hlo : 2 ^ (n - 1) ≤ q) (hhi : p < 2 ^ n) (fuel : Nat) :
    ((Finset.range (256 ^ ((n + 7) / 8))).filter fun x =>
      bnRandomPrime e tape (fuel + 1) n [x] = .ok (p : Int) []).card
      = (p - q) * (256 ^ ((n + 7) / 8) / 2 ^ (n - 1)) := by
  have e2 : 2 ^ n = 2 * 2 ^ (n - 1) := by rw [← Nat.pow_succ']; congr 1; omega
  have hM : 2 ^ (n - 1) = 2 * 2 ^ (n - 2) := by rw [← Nat.pow_succ']; congr 1; omega
  have podd := hp.eq_two_or_odd
  have qodd := hq.eq_two_or_odd
  have hf : ∀ x ∈ Finset.range (256 ^ ((n + 7) / 8)),
      (bnRandomPrime e tape (fuel + 1) n [x] = .ok (p : Int) []
        ↔ (q - 1 - 2 ^ (n - 1) ≤ x % 2 ^ (n - 1) ∧ x % 2 ^ (n - 1) < p - 1 - 2 ^ (n - 1))) := by
    intro x hx
    rw [Finset.mem_range] at hx
    have hr := bnRandom_eq (rng := tape) (s := [x]) (b := natToLE ((n + 7) / 8) x) (s' := []) true
      (n := n) (by omega) rfl (natToLE_length _ _)
    rw [leNat_natToLE, Nat.mod_eq_of_lt hx] at hr
    have hd := drawn_bounds true (n := n) (by omega) x
    have ho := drawn_odd (n := n) (by omega) x
    have hv : drawn true n x = 2 ^ (n - 1) + (x % 2 ^ (n - 1) - x % 2 ^ (n - 1) % 2) + 1 := by
      unfold drawn
      simp only [if_true]
      generalize 2 ^ (n - 2) = k at hM
      rw [hM, Nat.mod_mul, Nat.mod_mul, show (x - x % 2 + 1) / 2 = x / 2 by omega]
      omega
    obtain ⟨u, hu, hu1, hu2, hu3⟩ := hnp (drawn true n x)
    have hrun : bnRandomPrime e tape (fuel + 1) n [x] = .ok (p : Int) []
        ↔ (u : Int) = p := by
      unfold bnRandomPrime
      rw [retry, M.bind_def, M.bind_ok hr, hu]
      by_cases hb : zNumbits (u : Int) = n
      · rw [if_pos (by exact_mod_cast hb)]
        simp [pure, M.pure]
      · rw [if_neg (by exact_mod_cast hb)]
        constructor
        · intro h
          cases fuel with
          | zero => cases h
          | succ fuel =>
            simp only [pure, M.pure] at h
            rw [retry, M.bind_def, M.bind_def] at h
            have hnil : bnRandom tape true n [] = .exn (.error .noEntropySource) [] := by
              have e1 : ((n : Int) + 7).tdiv 8 = (((n + 7) / 8 : Nat) : Int) := by
                rw [show ((n : Int) + 7) = ((n + 7 : Nat) : Int) by omega]; rfl
              unfold bnRandom
              simp only [e1]
              rw [if_neg (by omega)]
              rfl
            rw [hnil] at h
            cases h
        · intro h
          exfalso
          have : u = p := by exact_mod_cast h
          subst this
          exact hb (numbits_lt hhi (by omega) (by omega))
    rw [hrun, Nat.cast_inj]
    generalize hm : drawn true n x = m at *
    have hup : u = p ↔ q ≤ m ∧ m < p := by
      constructor
      · rintro rfl
        refine ⟨?_, hu1⟩
        refine Nat.le_of_not_lt fun h => ?_
        have := hu3 q hq h
        omega
      · rintro ⟨h1, h2⟩
        have h3 := hu3 p hp h2
        rcases hgap u hu2 with h4 | h4 <;> omega
    rw [hup]
    omega
  rw [Finset.filter_congr hf, bytes_split, Nat.mul_div_cancel_left _ (Nat.two_pow_pos _), card_between]
  · congr 1; omega
  · omega
  · omega

/-- C103 is false of random primes: of the primes of 16 bits, as in the moduli of 32 bits, 32779 is
obtained from twice as many random strings as 32783. -/
theorem C103_prime_fails (e : BnEnv) (hnp : NextPrime e) (fuel : Nat) :
    ((Finset.range (256 ^ 2)).filter fun x =>
      bnRandomPrime e tape (fuel + 1) 16 [x] = .ok 32779 []).card = 16
    ∧ ((Finset.range (256 ^ 2)).filter fun x =>
      bnRandomPrime e tape (fuel + 1) 16 [x] = .ok 32783 []).card = 8 := by
  have p1 : Nat.Prime 32771 := by norm_num
  have p2 : Nat.Prime 32779 := by norm_num
  have p3 : Nat.Prime 32783 := by norm_num
  have g1 : ∀ u : Nat, u.Prime → u ≤ 32771 ∨ 32779 ≤ u := by
    intro u hu
    by_contra h
    have h5 : u = 32772 ∨ u = 32773 ∨ u = 32774 ∨ u = 32775 ∨ u = 32776 ∨ u = 32777 ∨ u = 32778 := by omega
    rcases h5 with rfl | rfl | rfl | rfl | rfl | rfl | rfl <;> revert hu <;> norm_num
  have g2 : ∀ u : Nat, u.Prime → u ≤ 32779 ∨ 32783 ≤ u := by
    intro u hu
    by_contra h
    have h5 : u = 32780 ∨ u = 32781 ∨ u = 32782 := by omega
    rcases h5 with rfl | rfl | rfl <;> revert hu <;> norm_num
  exact ⟨C103_prime_gap e hnp (n := 16) (by decide) 32779 32771 p2 p1 (by decide) g1 (by decide) (by decide)
      (by decide) fuel,
    C103_prime_gap e hnp (n := 16) (by decide) 32783 32779 p3 p2 (by decide) g2 (by decide) (by decide)
      (by decide) fuel⟩

/-! ### Non-vacuity -/

namespace Example

/-- Exponents of 128 bits for the primes 23 and 47: 2^127 + 1 and 2^127 + 7 are equally likely. -/
example (k : Nat) : Nat.card {t : Fin k → Fin (256 ^ 16) //
      ∃ l, rsaGenExponent tape 9 128 ((23 : Nat) - 1) ((47 : Nat) - 1) (tapeOf t) = .ok ((2 ^ 127 + 1 : Nat) : Int) l}
    = Nat.card {t : Fin k → Fin (256 ^ 16) //
      ∃ l, rsaGenExponent tape 9 128 ((23 : Nat) - 1) ((47 : Nat) - 1) (tapeOf t) = .ok ((2 ^ 127 + 7 : Nat) : Int) l} :=
  C103_rsa_exponent 9 k (n := 128) (by decide) 23 47 (by decide) (by decide) (2 ^ 127 + 1) (2 ^ 127 + 7)
    (by decide) (by decide) (by decide) (by decide) (by decide +kernel) (by decide +kernel)

/-- A Paillier key of 128 bits: the blinding numbers 2^126 + 1 and 2^126 + 2 are equally likely. -/
example : ∃ priv pub, paillierNewKey bnEnv listRng 1 128 rsaRandom = .ok (priv, pub) []
    ∧ ∀ k, Nat.card {t : Fin k → Fin (256 ^ 16) //
        ∃ c l, paillierEncrypt bnEnv tape 9 pub (ascii "hello") (tapeOf t) = .ok c l
          ∧ beNat c = paillierCipher (beNat pub.n) (beNat (ascii "hello")) (2 ^ 126 + 1)}
      = Nat.card {t : Fin k → Fin (256 ^ 16) //
        ∃ c l, paillierEncrypt bnEnv tape 9 pub (ascii "hello") (tapeOf t) = .ok c l
          ∧ beNat c = paillierCipher (beNat pub.n) (beNat (ascii "hello")) (2 ^ 126 + 2)} := by
  obtain ⟨priv, pub, hk, hs, hn⟩ := paiKey
  exact ⟨priv, pub, hk, fun k => C103_blinding_partial bnEnv (by decide) bnEnv_primeOk _ _ _ _ _ _ _ hk 128 hs
    (by decide) (ascii "hello") (by decide +kernel) (2 ^ 126 + 1) (2 ^ 126 + 2)
    (by rw [hn]; exact ⟨by decide +kernel, by decide +kernel⟩) (by decide)
    (by rw [hn]; exact ⟨by decide +kernel, by decide +kernel⟩) (by decide) k 9⟩

/-- One tape of one number gives 2^126 + 1. -/
example : ∃ priv pub, paillierNewKey bnEnv listRng 1 128 rsaRandom = .ok (priv, pub) []
    ∧ ∃ c l, paillierEncrypt bnEnv tape 9 pub (ascii "hello") [1] = .ok c l
      ∧ beNat c = paillierCipher (beNat pub.n) (beNat (ascii "hello")) (2 ^ 126 + 1) := by
  obtain ⟨priv, pub, hk, hs, hn⟩ := paiKey
  refine ⟨priv, pub, hk, ?_⟩
  obtain ⟨n, l, mu, h⟩ := paillierNewKey_good (by decide) bnEnv_primeOk hk
  have hb : Blinds (beNat pub.n) (2 ^ 126 + 1) := by rw [hn]; exact ⟨by decide +kernel, by decide +kernel⟩
  have ho := (blindOk_iff pub (2 ^ 126 + 1)).2 hb
  rw [h.pubn] at hb ⊢
  refine (paillierEncrypt_tape h (by decide) (size := 128) hs (by decide) (by decide +kernel) hb [1]).2 ⟨[], ?_⟩
  rw [drawUntil_cons (by decide), show numOf (128 - 1) 1 = 2 ^ 126 + 1 by decide, if_pos ho]

/-- Exact primes. -/
noncomputable def exactEnv : BnEnv where
  limb := 8
  nextprime := fun n => (Nat.find (Nat.exists_infinite_primes (n.toNat + 1)) : Int)

theorem exactEnv_next : NextPrime exactEnv := by
  intro n
  have h := Nat.find_spec (Nat.exists_infinite_primes ((n : Int).toNat + 1))
  refine ⟨_, rfl, ?_, h.2, fun q hq hlt => Nat.find_min' _ ⟨?_, hq⟩⟩
  · have := h.1
    have e : (n : Int).toNat = n := Int.toNat_natCast n
    omega
  · rw [Int.toNat_natCast]; omega

example : ((Finset.range (256 ^ 2)).filter fun x =>
    bnRandomPrime exactEnv tape 1 16 [x] = .ok 32779 []).card = 16 := (C103_prime_fails exactEnv exactEnv_next 0).1

end Example

end Verif
