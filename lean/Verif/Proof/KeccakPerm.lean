import Verif.Proof.Keccak
import Verif.Proof.Des
/-
Keccak-f[1600] is injective. The mixing of the parities of the columns in `theta` is undone by
repeating it: 64 times it is a mixing without rotations, whose cube is the identity.
-/
namespace Verif.KeccakPerm

open Spec Spec.Keccak
open Des (eq_of_getMsbD rotateLeft_xlin)

theorem rotl_inj {r : Nat} {a b : BitVec 64} (h : a.rotateLeft r = b.rotateLeft r) : a = b := by
  apply eq_of_getMsbD
  intro i hi
  have e := congrArg (fun x => x.getMsbD ((i + (64 - r % 64)) % 64)) h
  have hlt : (i + (64 - r % 64)) % 64 < 64 := Nat.mod_lt _ (by decide)
  have hr : (r + (i + (64 - r % 64)) % 64) % 64 = i := by omega
  simpa only [BitVec.getMsbD_rotateLeft, hlt, decide_true, Bool.true_and, hr] using e

theorem rotl_xor (r : Nat) (a b : BitVec 64) :
    (a ^^^ b).rotateLeft r = a.rotateLeft r ^^^ b.rotateLeft r := rotateLeft_xlin r a b

theorem rotl_rotl (r s : Nat) (a : BitVec 64) : (a.rotateLeft r).rotateLeft s = a.rotateLeft (r + s) := by
  apply eq_of_getMsbD
  intro i hi
  have hlt : (s + i) % 64 < 64 := Nat.mod_lt _ (by decide)
  have e : (r + (s + i) % 64) % 64 = (r + s + i) % 64 := by omega
  simp only [BitVec.getMsbD_rotateLeft, hi, hlt, decide_true, Bool.true_and, e]

theorem rotl_64 (a : BitVec 64) : a.rotateLeft 64 = a := by
  apply eq_of_getMsbD
  intro i hi
  have e : (64 + i) % 64 = i := by omega
  simp only [BitVec.getMsbD_rotateLeft, hi, decide_true, Bool.true_and, e]

/-- The parities of the columns. -/
def parity (A : State) (x : Fin 5) : BitVec 64 := A x 0 ^^^ A x 1 ^^^ A x 2 ^^^ A x 3 ^^^ A x 4

/-- Mix the parities of columns at distance `k`, with rotations by `r`. -/
def mix (k : Fin 5) (r : Nat) (C : Fin 5 → BitVec 64) (x : Fin 5) : BitVec 64 :=
  C x ^^^ (C (x - k) ^^^ (C (x + k)).rotateLeft r)

theorem cancel9 (a b c d e f : BitVec 64) :
    (a ^^^ (b ^^^ c)) ^^^ ((b ^^^ (d ^^^ e)) ^^^ (c ^^^ (e ^^^ f))) = a ^^^ (d ^^^ f) := by
  apply BitVec.eq_of_getLsbD_eq
  intro i _
  simp only [BitVec.getLsbD_xor]
  generalize a.getLsbD i = a, b.getLsbD i = b, c.getLsbD i = c, d.getLsbD i = d,
    e.getLsbD i = e, f.getLsbD i = f
  revert a b c d e f
  decide

theorem mix_mix (k : Fin 5) (r : Nat) (C : Fin 5 → BitVec 64) :
    mix k r (mix k r C) = mix (k + k) (r + r) C := by
  funext x
  have e1 : ∀ x k : Fin 5, x - k - k = x - (k + k) := by decide
  have e2 : ∀ x k : Fin 5, x - k + k = x := by decide
  have e3 : ∀ x k : Fin 5, x + k - k = x := by decide
  have e4 : ∀ x k : Fin 5, x + k + k = x + (k + k) := by decide
  simp only [mix, rotl_xor, e1, e2, e3, e4, rotl_rotl]
  exact cancel9 _ _ _ _ _ _

theorem mix_twice {k : Fin 5} {r : Nat} {C D : Fin 5 → BitVec 64} (h : mix k r C = mix k r D) :
    mix (k + k) (r + r) C = mix (k + k) (r + r) D := by
  rw [← mix_mix, ← mix_mix, h]

theorem mix_inj {C D : Fin 5 → BitVec 64} (h : mix 1 1 C = mix 1 1 D) : C = D := by
  have h64 : mix 4 64 C = mix 4 64 D :=
    mix_twice (k := 2) (r := 32) (mix_twice (k := 1) (r := 16) (mix_twice (k := 3) (r := 8)
      (mix_twice (k := 4) (r := 4) (mix_twice (k := 2) (r := 2) (mix_twice (k := 1) (r := 1) h)))))
  -- without rotations, every bit position is on its own
  funext x
  apply BitVec.eq_of_getLsbD_eq
  intro i _
  have hx : ∀ x, ((C x).getLsbD i ^^ ((C (x - 4)).getLsbD i ^^ (C (x + 4)).getLsbD i))
      = ((D x).getLsbD i ^^ ((D (x - 4)).getLsbD i ^^ (D (x + 4)).getLsbD i)) := by
    intro x
    have := congrArg (fun v : BitVec 64 => v.getLsbD i) (congrFun h64 x)
    simpa only [mix, rotl_64, BitVec.getLsbD_xor] using this
  have key : ∀ c0 c1 c2 c3 c4 d0 d1 d2 d3 d4 : Bool,
      (c0 ^^ (c1 ^^ c4)) = (d0 ^^ (d1 ^^ d4)) → (c1 ^^ (c2 ^^ c0)) = (d1 ^^ (d2 ^^ d0)) →
      (c2 ^^ (c3 ^^ c1)) = (d2 ^^ (d3 ^^ d1)) → (c3 ^^ (c4 ^^ c2)) = (d3 ^^ (d4 ^^ d2)) →
      (c4 ^^ (c0 ^^ c3)) = (d4 ^^ (d0 ^^ d3)) →
      c0 = d0 ∧ c1 = d1 ∧ c2 = d2 ∧ c3 = d3 ∧ c4 = d4 := by decide +kernel
  obtain ⟨e0, e1, e2, e3, e4⟩ := key _ _ _ _ _ _ _ _ _ _ (hx 0) (hx 1) (hx 2) (hx 3) (hx 4)
  revert x
  exact forall_fin5 e0 e1 e2 e3 e4

theorem xor_right_inj {w : Nat} {a b c : BitVec w} (h : a ^^^ c = b ^^^ c) : a = b := by
  have := congrArg (· ^^^ c) h
  simpa [BitVec.xor_assoc] using this

theorem theta_eq (A : State) (x y : Fin 5) :
    theta A x y = A x y ^^^ (parity A (x - 1) ^^^ (parity A (x + 1)).rotateLeft 1) := rfl

theorem xor_five (a b c d e t : BitVec 64) :
    (a ^^^ t) ^^^ (b ^^^ t) ^^^ (c ^^^ t) ^^^ (d ^^^ t) ^^^ (e ^^^ t) = (a ^^^ b ^^^ c ^^^ d ^^^ e) ^^^ t := by
  apply BitVec.eq_of_getLsbD_eq
  intro i _
  simp only [BitVec.getLsbD_xor]
  generalize a.getLsbD i = a, b.getLsbD i = b, c.getLsbD i = c, d.getLsbD i = d,
    e.getLsbD i = e, t.getLsbD i = t
  revert a b c d e t
  decide

theorem parity_theta (A : State) : parity (theta A) = mix 1 1 (parity A) := by
  funext x
  rw [parity]
  simp only [theta_eq, xor_five]
  rfl

theorem theta_inj {A B : State} (h : theta A = theta B) : A = B := by
  have hp : parity A = parity B := mix_inj (by rw [← parity_theta, ← parity_theta, h])
  funext x y
  have := congrFun (congrFun h x) y
  rw [theta_eq, theta_eq, hp] at this
  exact xor_right_inj this

theorem rho_inj {A B : State} (h : rho A = rho B) : A = B := by
  funext x y
  exact rotl_inj (congrFun (congrFun h x) y)

theorem pi_inj {A B : State} (h : pi A = pi B) : A = B := by
  funext u v
  have e : ∀ u v : Fin 5, v + 3 * (2 * (u - v)) = u := by decide
  have := congrFun (congrFun h v) (2 * (u - v))
  simpa only [pi, e] using this

theorem chi_inj {A B : State} (h : chi A = chi B) : A = B := by
  funext x y
  apply BitVec.eq_of_getLsbD_eq
  intro i hi
  have hx : ∀ x, ((A x y).getLsbD i ^^ (!(A (x + 1) y).getLsbD i && (A (x + 2) y).getLsbD i))
      = ((B x y).getLsbD i ^^ (!(B (x + 1) y).getLsbD i && (B (x + 2) y).getLsbD i)) := by
    intro x
    have := congrArg (fun v : BitVec 64 => v.getLsbD i) (congrFun (congrFun h x) y)
    simpa only [chi, BitVec.getLsbD_xor, BitVec.getLsbD_and, BitVec.getLsbD_not, hi, decide_true,
      Bool.true_and] using this
  have key : ∀ c0 c1 c2 c3 c4 d0 d1 d2 d3 d4 : Bool,
      (c0 ^^ (!c1 && c2)) = (d0 ^^ (!d1 && d2)) → (c1 ^^ (!c2 && c3)) = (d1 ^^ (!d2 && d3)) →
      (c2 ^^ (!c3 && c4)) = (d2 ^^ (!d3 && d4)) → (c3 ^^ (!c4 && c0)) = (d3 ^^ (!d4 && d0)) →
      (c4 ^^ (!c0 && c1)) = (d4 ^^ (!d0 && d1)) →
      c0 = d0 ∧ c1 = d1 ∧ c2 = d2 ∧ c3 = d3 ∧ c4 = d4 := by decide +kernel
  obtain ⟨e0, e1, e2, e3, e4⟩ := key _ _ _ _ _ _ _ _ _ _ (hx 0) (hx 1) (hx 2) (hx 3) (hx 4)
  revert x
  exact forall_fin5 e0 e1 e2 e3 e4

theorem iota_inj {A B : State} {ir : Nat} (h : iota A ir = iota B ir) : A = B := by
  funext x y
  have := congrFun (congrFun h x) y
  simp only [iota] at this
  split at this
  · next hxy => rw [hxy.1, hxy.2]; exact xor_right_inj this
  · exact this

theorem round_inj {A B : State} {ir : Nat} (h : round A ir = round B ir) : A = B :=
  theta_inj (rho_inj (pi_inj (chi_inj (iota_inj h))))

theorem permute_inj {A B : State} (h : permute A = permute B) : A = B := by
  unfold permute at h
  generalize List.range 24 = l at h
  induction l generalizing A B with
  | nil => exact h
  | cons r l ih => exact round_inj (ih h)

theorem toBytes_inj {A B : State} (h : toBytes A = toBytes B) : A = B := by
  unfold toBytes at h
  have lanes : ∀ A : State, ∀ y : Fin 5,
      ((([0, 1, 2, 3, 4] : List (Fin 5)).map fun x => natToLE 8 (A x y).toNat).flatten).length = 40 := by
    intro A y
    simp [natToLE_length]
  have split : ∀ (f g : Fin 5 → Bytes) (n : Nat), (∀ x, (f x).length = n) → (∀ x, (g x).length = n) →
      (([0, 1, 2, 3, 4] : List (Fin 5)).map f).flatten = (([0, 1, 2, 3, 4] : List (Fin 5)).map g).flatten →
      ∀ x, f x = g x := by
    intro f g n hf hg e
    simp only [List.map_cons, List.map_nil, List.flatten_cons, List.flatten_nil] at e
    obtain ⟨e0, e⟩ := List.append_inj e (by rw [hf, hg])
    obtain ⟨e1, e⟩ := List.append_inj e (by rw [hf, hg])
    obtain ⟨e2, e⟩ := List.append_inj e (by rw [hf, hg])
    obtain ⟨e3, e⟩ := List.append_inj e (by rw [hf, hg])
    obtain ⟨e4, -⟩ := List.append_inj e (by rw [hf, hg])
    exact forall_fin5 e0 e1 e2 e3 e4
  funext x y
  have h1 := split _ _ 40 (lanes A) (lanes B) h y
  have h2 := split _ _ 8 (fun x => natToLE_length _ _) (fun x => natToLE_length _ _) h1 x
  have := congrArg leNat h2
  rw [leNat_natToLE, leNat_natToLE, Nat.mod_eq_of_lt (A x y).isLt, Nat.mod_eq_of_lt (B x y).isLt] at this
  exact BitVec.eq_of_toNat_eq this

end Verif.KeccakPerm
