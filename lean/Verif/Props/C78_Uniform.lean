import Verif.Proof.Uniform
/-
C78: random numbers are uniform, given uniform random bytes.
-/
namespace Verif

namespace Spec

/-- A generator of random bytes that gives the bytes of `x` (the least significant first). When `x`
ranges over the numbers below `256 ^ k`, the `k` bytes range over all strings of `k` bytes, each
obtained once. -/
def bytesOf (x : Nat) : RandomBytes Unit := fun k => pure (natToLE k x)

end Spec

open Spec

/-- `bytesOf` gives each string of `k` bytes for exactly one `x` below `256 ^ k`. -/
theorem C78_bytesOf (b : Bytes) :
    ∃ x, x < 256 ^ b.length ∧ bytesOf x b.length () = .ok b ()
      ∧ ∀ y, y < 256 ^ b.length → bytesOf y b.length () = .ok b () → y = x := by
  refine ⟨leNat b, leNat_lt b, by rw [bytesOf, natToLE_leNat]; rfl, fun y hy h => ?_⟩
  have h1 : natToLE b.length y = b := by injection h
  have h2 := leNat_natToLE b.length y
  rw [h1, Nat.mod_eq_of_lt hy] at h2
  exact h2.symm

/-- C78, `DH.private_secret`: each number of exactly `privlen` bits is obtained from the same number
of strings of random bytes. -/
theorem C78_private_secret (params : DhParams) {n : Nat} (hp : params.privlen = n) (hn : 1 ≤ n)
    (v : Nat) (hv : 2 ^ (n - 1) ≤ v) (hv' : v < 2 ^ n) :
    ((Finset.range (256 ^ ((n + 7) / 8))).filter fun x =>
      dhPrivateSecret (bytesOf x) params () = .ok (v : Int) ()).card
      = 256 ^ ((n + 7) / 8) / 2 ^ (n - 1) := by
  have e : 256 ^ ((n + 7) / 8) = 2 ^ (n - 1) * 2 ^ (8 * ((n + 7) / 8) - (n - 1)) := by
    rw [← Nat.pow_add, show (256 : Nat) = 2 ^ 8 from rfl, ← Nat.pow_mul]
    congr 1
    omega
  have hf : ∀ x ∈ Finset.range (256 ^ ((n + 7) / 8)),
      (dhPrivateSecret (bytesOf x) params () = .ok (v : Int) () ↔ drawn false n x = v) := by
    intro x hx
    rw [Finset.mem_range] at hx
    unfold dhPrivateSecret
    rw [hp, bnRandom_eq (b := natToLE ((n + 7) / 8) x) (s' := ()) false hn rfl (natToLE_length _ _),
      leNat_natToLE, Nat.mod_eq_of_lt hx]
    simp
  rw [Finset.filter_congr hf, e, Nat.mul_div_cancel_left _ (Nat.two_pow_pos _)]
  exact card_drawn hv (by rw [← Nat.pow_succ']; exact (show n - 1 + 1 = n by omega) ▸ hv')

/-- C78, `Bn.random` without and with `~odd:true`, as used for the exponent of RSA, the blinding of
Paillier and the starting point of the search for primes. -/
theorem C78_random {n : Nat} (hn : 2 ≤ n) (odd : Bool) (v : Nat) (hv : 2 ^ (n - 1) ≤ v)
    (hv' : v < 2 ^ n) (ho : odd = true → v % 2 = 1) :
    ((Finset.range (256 ^ ((n + 7) / 8))).filter fun x =>
      bnRandom (bytesOf x) odd n () = .ok (v : Int) ()).card
      = (if odd then 2 else 1) * (256 ^ ((n + 7) / 8) / 2 ^ (n - 1)) := by
  have e : 256 ^ ((n + 7) / 8) = 2 ^ (n - 1) * 2 ^ (8 * ((n + 7) / 8) - (n - 1)) := by
    rw [← Nat.pow_add, show (256 : Nat) = 2 ^ 8 from rfl, ← Nat.pow_mul]
    congr 1
    omega
  have hv2 : v < 2 * 2 ^ (n - 1) := by
    rw [← Nat.pow_succ']; exact (show n - 1 + 1 = n by omega) ▸ hv'
  have hf : ∀ x ∈ Finset.range (256 ^ ((n + 7) / 8)),
      (bnRandom (bytesOf x) odd n () = .ok (v : Int) () ↔ drawn odd n x = v) := by
    intro x hx
    rw [Finset.mem_range] at hx
    rw [bnRandom_eq (b := natToLE ((n + 7) / 8) x) (s' := ()) odd (by omega) rfl (natToLE_length _ _),
      leNat_natToLE, Nat.mod_eq_of_lt hx]
    simp
  rw [Finset.filter_congr hf, e, Nat.mul_div_cancel_left _ (Nat.two_pow_pos _)]
  cases odd
  · rw [card_drawn hv hv2]; simp
  · rw [card_drawn_odd hn hv hv2 (ho rfl)]; simp

/-- No other result is possible: every draw succeeds, with a number of exactly `n` bits, odd if so
requested, whatever the generator. -/
theorem C78_random_range {rng : RandomBytes σ} (odd : Bool) {n : Nat} (hn : 1 ≤ n) {s s' : σ}
    {b : Bytes} (hr : rng ((n + 7) / 8) s = .ok b s') (hb : b.length = (n + 7) / 8) :
    ∃ v : Nat, bnRandom rng odd n s = .ok (v : Int) s' ∧ 2 ^ (n - 1) ≤ v ∧ v < 2 ^ n
      ∧ (odd = true → v % 2 = 1) :=
  ⟨_, bnRandom_eq odd hn hr hb, (drawn_bounds odd hn _).1, (drawn_bounds odd hn _).2,
    fun h => h ▸ drawn_odd hn _⟩

/-! ### Non-vacuity -/

/-- 160-bit secrets: 2 strings of 20 bytes for each. -/
example : ((Finset.range (256 ^ 20)).filter fun x =>
    dhPrivateSecret (Spec.bytesOf x) ⟨[], [], 160⟩ () = .ok ((2 ^ 159 + 12345 : Nat) : Int) ()).card = 2 :=
  (C78_private_secret ⟨[], [], 160⟩ (n := 160) rfl (by decide) (2 ^ 159 + 12345) (by decide)
    (by decide)).trans (by decide)

/-- 11-bit odd numbers: 128 strings of 2 bytes for each. -/
example : ((Finset.range (256 ^ 2)).filter fun x =>
    bnRandom (Spec.bytesOf x) true 11 () = .ok ((1025 : Nat) : Int) ()).card = 128 :=
  (C78_random (n := 11) (by decide) true 1025 (by decide) (by decide) (fun _ => rfl)).trans (by decide)

end Verif
