import Verif.Model.Keccak
import Verif.Spec.Keccak
import Verif.Proof.Hash
import Verif.Proof.MD
/-
The C code of Keccak computes the functions of FIPS 202.
-/
namespace Verif
open Spec

/-- The lanes of the C array. -/
def lanesOf (st : List W64) : Keccak.State := fun x y => lane st (5 * y.val + x.val)

theorem state_ext {A B : Keccak.State} (h : ∀ y x, A x y = B x y) : A = B :=
  funext fun x => funext fun y => h y x

theorem forall_fin5 {P : Fin 5 → Prop} (h0 : P 0) (h1 : P 1) (h2 : P 2) (h3 : P 3) (h4 : P 4) :
    ∀ x, P x
  | 0 => h0 | 1 => h1 | 2 => h2 | 3 => h3 | 4 => h4

@[simp] theorem xorAt_length (st : List W64) (i : Nat) (t : W64) :
    (xorAt st i t).length = st.length := by simp [xorAt]

theorem foldl_length_inv {f : List W64 → β → List W64} (hf : ∀ st b, (f st b).length = st.length)
    (l : List β) (st : List W64) : (l.foldl f st).length = st.length := by
  induction l generalizing st with
  | nil => rfl
  | cons b l ih => rw [List.foldl_cons, ih, hf]

theorem keccakTheta_length (st : List W64) : (keccakTheta st).length = st.length := by
  apply foldl_length_inv; intro st b; simp [keccakTheta2]
theorem keccakChi_length (st : List W64) : (keccakChi st).length = st.length := by
  apply foldl_length_inv; intro st b; apply foldl_length_inv; intro st b; simp
theorem keccakRhoPi_length (st : List W64) : (keccakRhoPi st).length = st.length := by
  have : ∀ (l : List (Nat × Nat)) (p : List W64 × W64),
      (l.foldl keccakRhoPiStep p).1.length = p.1.length := by
    intro l
    induction l with
    | nil => intro p; rfl
    | cons a l ih => intro p; rw [List.foldl_cons, ih]; simp [keccakRhoPiStep]
  exact this _ _
theorem keccakRound_length (st : List W64) (rc : W64) : (keccakRound st rc).length = st.length := by
  simp [keccakRound, keccakTheta_length, keccakChi_length, keccakRhoPi_length]

theorem lane_set (st : List W64) (i j : Nat) (t : W64) :
    lane (st.set i t) j = if i = j ∧ j < st.length then t else lane st j := by
  unfold lane
  by_cases h : i = j
  · subst h
    by_cases h2 : i < st.length
    · simp [h2]
    · simp [h2]
  · simp [h, List.getElem?_set]

theorem lane_xorAt (st : List W64) (i j : Nat) (t : W64) :
    lane (xorAt st i t) j = if i = j ∧ j < st.length then lane st j ^^^ t else lane st j := by
  rw [xorAt, lane_set]
  by_cases h : i = j
  · subst h; rfl
  · simp [h]

theorem lane5_0 (a b c d e : W64) : lane [a, b, c, d, e] 0 = a := rfl
theorem lane5_1 (a b c d e : W64) : lane [a, b, c, d, e] 1 = b := rfl
theorem lane5_2 (a b c d e : W64) : lane [a, b, c, d, e] 2 = c := rfl
theorem lane5_3 (a b c d e : W64) : lane [a, b, c, d, e] 3 = d := rfl
theorem lane5_4 (a b c d e : W64) : lane [a, b, c, d, e] 4 = e := rfl
theorem val5_3 : (3 : Fin 5).val = 3 := rfl
theorem val5_4 : (4 : Fin 5).val = 4 := rfl

theorem keccakTheta_eq {st : List W64} (h : st.length = 25) :
    lanesOf (keccakTheta st) = Keccak.theta (lanesOf st) := by
  apply state_ext
  apply forall_fin5 <;> apply forall_fin5 <;>
    simp [lanesOf, keccakTheta, keccakTheta2, lane_xorAt, h, keccakTheta1, Keccak.theta, rol64_eq,
      lane5_0, lane5_1, lane5_2, lane5_3, lane5_4, val5_3, val5_4]

theorem rhoOffset_eq : ∀ x y, Keccak.rhoOffset x y % 64 =
    [0, 1, 62, 28, 27, 36, 44, 6, 55, 20, 3, 10, 43, 25, 39, 41, 45, 15, 21, 8, 18, 2, 61, 56,
      14].getD (5 * y.val + x.val) 0 := by decide +kernel

theorem rotl_zero (x : W64) : x.rotateLeft 0 = x := by
  have : x >>> 64 = 0 := by
    apply BitVec.eq_of_toNat_eq
    rw [BitVec.toNat_ushiftRight, Nat.shiftRight_eq_div_pow, Nat.div_eq_of_lt x.isLt]; rfl
  simp [BitVec.rotateLeft, BitVec.rotateLeftAux, this]

theorem keccakRhoPi_eq {st : List W64} (h : st.length = 25) :
    lanesOf (keccakRhoPi st) = Keccak.pi (Keccak.rho (lanesOf st)) := by
  apply state_ext
  apply forall_fin5 <;> apply forall_fin5 <;>
    simp [lanesOf, keccakRhoPi, keccakRhoPiStep, keccakRhoPiArgs, lane_set, h, Keccak.pi, Keccak.rho,
      rol64_eq, rhoOffset_eq, val5_3, val5_4, rotl_zero, -BitVec.rotateLeft_mod_eq_rotateLeft]

theorem keccakChi_eq {st : List W64} (h : st.length = 25) :
    lanesOf (keccakChi st) = Keccak.chi (lanesOf st) := by
  apply state_ext
  apply forall_fin5 <;> apply forall_fin5 <;>
    simp [lanesOf, keccakChi, keccakChiRow, lane_xorAt, h, Keccak.chi,
      lane5_0, lane5_1, lane5_2, lane5_3, lane5_4, val5_3, val5_4]

theorem keccakRound_eq {st : List W64} (h : st.length = 25) (ir : Nat) :
    lanesOf (keccakRound st (Keccak.RC ir)) = Keccak.round (lanesOf st) ir := by
  have h1 := keccakTheta_length st
  have h2 := keccakRhoPi_length (keccakTheta st)
  have h3 := keccakChi_length (keccakRhoPi (keccakTheta st))
  rw [Keccak.round, ← keccakTheta_eq h, ← keccakRhoPi_eq (by omega), ← keccakChi_eq (by omega)]
  funext x y
  unfold keccakRound Keccak.iota lanesOf
  rw [lane_xorAt]
  by_cases hxy : x = 0 ∧ y = 0
  · obtain ⟨rfl, rfl⟩ := hxy
    have hl : 5 * (0 : Fin 5).val + (0 : Fin 5).val = 0 := rfl
    rw [hl, if_pos ⟨rfl, by omega⟩, if_pos ⟨rfl, rfl⟩]
  · rw [if_neg (by omega), if_neg hxy]

theorem keccakRndc_eq : keccakRndc = (List.range 24).map Keccak.RC := by decide +kernel

theorem keccakPermutation_eq {st : List W64} (h : st.length = 25) :
    lanesOf (keccakPermutation st) = Keccak.permute (lanesOf st) ∧
      (keccakPermutation st).length = 25 := by
  unfold keccakPermutation Keccak.permute
  rw [keccakRndc_eq, List.foldl_map]
  generalize List.range 24 = l
  induction l generalizing st with
  | nil => exact ⟨rfl, h⟩
  | cons i l ih =>
    have := ih (st := keccakRound st (Keccak.RC i)) (by rw [keccakRound_length, h])
    rw [List.foldl_cons, List.foldl_cons, this.1, keccakRound_eq h]
    exact ⟨rfl, this.2⟩

/-! ### Absorbing -/

theorem leNat_xorb {a b : Bytes} (h : a.length = b.length) :
    leNat (xorb a b) = leNat a ^^^ leNat b := by
  induction a generalizing b with
  | nil => cases b with
    | nil => rfl
    | cons _ _ => simp at h
  | cons x a ih => cases b with
    | nil => simp at h
    | cons y b =>
      have ih := ih (b := b) (by simpa using h)
      simp only [xorb, List.zipWith_cons_cons, leNat] at ih ⊢
      rw [ih]
      apply Nat.eq_of_testBit_eq
      intro i
      have e : ∀ (u : Byte) (v : Nat), (u.toNat + 256 * v).testBit i
          = if i < 8 then u.toNat.testBit i else v.testBit (i - 8) := by
        intro u v
        rw [Nat.add_comm, show (256 : Nat) = 2 ^ 8 by rfl, Nat.testBit_two_pow_mul_add _ u.isLt]
      rw [Nat.testBit_xor, e, e, e, Nat.testBit_xor, BitVec.toNat_xor, Nat.testBit_xor]
      split <;> rfl

theorem keccakLoad_eq {p : Bytes} (h : 8 ≤ p.length) :
    keccakLoad p = BitVec.ofNat 64 (leNat (p.take 8)) := by
  unfold keccakLoad
  simp only
  rw [le32or_eq (by omega), le32or_eq (by simp; omega)]
  have e : p.take 8 = p.take 4 ++ (p.drop 4).take 4 := by
    rw [← List.take_add]
  rw [e, leNat_append]
  have l1 := leNat_lt (p.take 4)
  have l2 := leNat_lt ((p.drop 4).take 4)
  have n1 : (p.take 4).length = 4 := by simp; omega
  have n2 : ((p.drop 4).take 4).length = 4 := by simp; omega
  rw [n1] at l1 ⊢; rw [n2] at l2
  generalize leNat (p.take 4) = a at *
  generalize leNat ((p.drop 4).take 4) = b at *
  apply BitVec.eq_of_toNat_eq
  rw [BitVec.toNat_or, BitVec.toNat_shiftLeft]
  simp only [BitVec.toNat_setWidth, BitVec.toNat_ofNat]
  rw [Nat.mod_eq_of_lt (a := a) (by omega), Nat.mod_eq_of_lt (a := b) (b := 2 ^ 32) (by omega),
    Nat.mod_eq_of_lt (a := a) (by omega), Nat.mod_eq_of_lt (a := b) (by omega), Nat.shiftLeft_eq,
    Nat.mod_eq_of_lt (a := b * _) (by omega), Nat.or_comm, Nat.mul_comm b,
    ← Nat.two_pow_add_eq_or_of_lt (by omega)]
  omega

theorem drop8_memOfWords {st : List W64} {i : Nat} (h : i < st.length) :
    ((memOfWords 8 st).drop (8 * i)).take 8 = natToLE 8 (lane st i).toNat := by
  induction st generalizing i with
  | nil => simp at h
  | cons w st ih =>
    have e : memOfWords 8 (w :: st) = natToLE 8 w.toNat ++ memOfWords 8 st := by simp [memOfWords]
    rw [e]
    cases i with
    | zero => simp [lane]
    | succ i =>
      rw [show 8 * (i + 1) = 8 + 8 * i by omega, ← List.drop_drop, List.drop_left' (by simp)]
      have := ih (i := i) (by simpa using h)
      rw [this]; rfl

theorem memOfWords_length8 (st : List W64) : (memOfWords 8 st).length = 8 * st.length := by
  induction st with
  | nil => rfl
  | cons w st ih =>
    have e : memOfWords 8 (w :: st) = natToLE 8 w.toNat ++ memOfWords 8 st := by simp [memOfWords]
    rw [e, List.length_append, ih, natToLE_length, List.length_cons]; omega

theorem lane_absorb (p : Bytes) (k : Nat) {st : List W64} (i : Nat) (hk : k ≤ st.length) :
    lane ((List.range k).foldl (fun st i => xorAt st i (keccakLoad (p.drop (8 * i)))) st) i
      = if i < k then lane st i ^^^ keccakLoad (p.drop (8 * i)) else lane st i := by
  induction k with
  | zero => simp
  | succ k ih =>
    rw [List.range_succ, List.foldl_append, List.foldl_cons, List.foldl_nil, lane_xorAt,
      foldl_length_inv (by simp), ih (by omega)]
    by_cases h1 : k = i
    · subst h1
      rw [if_pos ⟨rfl, by omega⟩, if_neg (by omega), if_pos (by omega)]
    · rw [if_neg (by omega)]
      by_cases h2 : i < k
      · rw [if_pos h2, if_pos (by omega)]
      · rw [if_neg h2, if_neg (by omega)]

theorem toBytes_lanesOf {st : List W64} (h : st.length = 25) :
    Keccak.toBytes (lanesOf st) = memOfWords 8 st := by
  match st, h with
  | [a0, a1, a2, a3, a4, a5, a6, a7, a8, a9, a10, a11, a12, a13, a14, a15, a16, a17, a18, a19, a20,
      a21, a22, a23, a24], _ =>
    simp [Keccak.toBytes, memOfWords, lanesOf, lane, val5_3, val5_4]

theorem keccakAbsorb_eq {st : List W64} (h : st.length = 25) {block : Bytes} {k : Nat}
    (hb : block.length = 8 * k) (hk : k ≤ 25) :
    memOfWords 8 (keccakAbsorb st block)
      = Keccak.f (xorb (memOfWords 8 st) (block ++ List.replicate (200 - block.length) 0)) ∧
    (keccakAbsorb st block).length = 25 := by
  have hl : ((List.range (block.length / 8)).foldl
      (fun st i => xorAt st i (keccakLoad (block.drop (8 * i)))) st).length = 25 := by
    rw [foldl_length_inv (by simp), h]
  have hp := keccakPermutation_eq hl
  refine ⟨?_, hp.2⟩
  unfold keccakAbsorb
  rw [← toBytes_lanesOf hp.2, hp.1, Keccak.f]
  congr 2
  funext x y
  unfold lanesOf Keccak.ofBytes
  have hxy : 5 * y.val + x.val < 25 := by omega
  generalize 5 * y.val + x.val = i at hxy
  rw [lane_absorb _ _ _ (by omega), xorb, List.drop_zipWith, List.take_zipWith]
  have hm := memOfWords_length8 st
  have e := leNat_xorb (a := ((memOfWords 8 st).drop (8 * i)).take 8)
    (b := ((block ++ List.replicate (200 - block.length) 0).drop (8 * i)).take 8)
    (by simp; omega)
  rw [xorb] at e
  rw [e, drop8_memOfWords (by omega), leNat_natToLE, show (256 : Nat) ^ 8 = 2 ^ 64 by decide,
    Nat.mod_eq_of_lt (lane st i).isLt]
  have e2 : ∀ a b : Nat, BitVec.ofNat 64 (a ^^^ b) = BitVec.ofNat 64 a ^^^ BitVec.ofNat 64 b := by
    intro a b; simp
  rw [e2, BitVec.ofNat_toNat, BitVec.setWidth_eq]
  by_cases hi : i < block.length / 8
  · rw [if_pos hi, keccakLoad_eq (by simp; omega)]
    congr 3
    rw [List.drop_append_of_le_length (by omega), List.take_append_of_le_length (by simp; omega)]
  · rw [if_neg hi]
    have : ((block ++ List.replicate (200 - block.length) 0).drop (8 * i)).take 8
        = List.replicate 8 (0 : Byte) := by
      rw [List.drop_append, List.drop_eq_nil_of_le (by omega), List.nil_append, List.drop_replicate,
        List.take_replicate]
      congr 1; omega
    rw [this]
    have : leNat (List.replicate 8 (0 : Byte)) = 0 := by decide
    rw [this]; simp

/-! ### Extraction -/

theorem sha3Output_eq (q : Nat) (st : List W64) (h : 4 * q ≤ 8 * st.length) :
    sha3Output (4 * q) st = (memOfWords 8 st).take (4 * q) := by
  induction st generalizing q with
  | nil => rw [show q = 0 by simp at h; omega]; rfl
  | cons w st ih =>
    have e : memOfWords 8 (w :: st) = natToLE 8 w.toNat ++ memOfWords 8 st := by simp [memOfWords]
    have e8 : natToLE 8 w.toNat = ([w.setWidth 8, (w >>> 8).setWidth 8, (w >>> 16).setWidth 8,
        (w >>> 24).setWidth 8] ++ [(w >>> 32).setWidth 8, (w >>> 40).setWidth 8,
        (w >>> 48).setWidth 8, (w >>> 56).setWidth 8] : Bytes) := by
      rw [← toLE64_eq]; simp [toLE64]
    rw [e, e8, sha3Output]
    match q, h with
    | 0, _ => simp
    | 1, _ => simp
    | q + 2, h =>
      rw [if_neg (by omega), if_neg (by omega), show 4 * (q + 2) - 8 = 4 * q by omega,
        ih q (by simp only [List.length_cons] at h; omega), List.take_append]
      have hl8 : ∀ a b c d e f g h : Byte, ([a, b, c, d] ++ [e, f, g, h] : Bytes).length = 8 :=
        fun _ _ _ _ _ _ _ _ => rfl
      rw [hl8, show 4 * (q + 2) - 8 = 4 * q by omega, ← List.append_assoc]
      congr 1
      exact (List.take_of_length_le (by rw [hl8]; omega)).symm

/-! ### Padding -/

theorem bytesOfBits_nil : bytesOfBits [] = [] := by simp [bytesOfBits, chunks_nil]

theorem bytesOfBits_append (k : Nat) {a : List Bool} (l : List Bool) (h : a.length = 8 * k) :
    bytesOfBits (a ++ l) = bytesOfBits a ++ bytesOfBits l := by
  induction k generalizing a with
  | zero => rw [List.length_eq_zero_iff.1 h]; simp [bytesOfBits_nil]
  | succ k ih =>
    have e : a = a.take 8 ++ a.drop 8 := (List.take_append_drop 8 a).symm
    have hl : (a.take 8).length = 8 := by simp; omega
    have := ih (a := a.drop 8) (by simp; omega)
    rw [e, List.append_assoc]
    unfold bytesOfBits at this ⊢
    rw [chunks_append (by decide) hl, chunks_append (by decide) hl, List.map_cons, List.map_cons,
      this]
    rfl

theorem bitsOfBytes_length (m : Bytes) : (bitsOfBytes m).length = 8 * m.length := by
  induction m with
  | nil => rfl
  | cons b m ih =>
    have : bitsOfBytes (b :: m) = (List.range 8).map (fun i => b.getLsbD i) ++ bitsOfBytes m := by
      simp [bitsOfBytes]
    rw [this, List.length_append, ih]; simp; omega

theorem bytesOfBits_bitsOfBytes (m : Bytes) : bytesOfBits (bitsOfBytes m) = m := by
  induction m with
  | nil => exact bytesOfBits_nil
  | cons b m ih =>
    have : bitsOfBytes (b :: m) = (List.range 8).map (fun i => b.getLsbD i) ++ bitsOfBytes m := by
      simp [bitsOfBytes]
    rw [this, bytesOfBits_append 1 _ (by simp), ih]
    have : ∀ b : Byte, bytesOfBits ((List.range 8).map (fun i => b.getLsbD i)) = [b] := by
      decide +kernel
    rw [this]; rfl

theorem bytesOfBits_zeros (k : Nat) :
    bytesOfBits (List.replicate (8 * k) false) = List.replicate k 0 := by
  induction k with
  | zero => exact bytesOfBits_nil
  | succ k ih =>
    rw [show 8 * (k + 1) = 8 + 8 * k by omega, ← List.replicate_append_replicate,
      bytesOfBits_append 1 _ (by simp), ih,
      show bytesOfBits (List.replicate 8 false) = [0] by decide +kernel]
    rfl

/-- What follows the message, `q` bytes in all. -/
def sha3Tail (pad : Byte) (q : Nat) : Bytes :=
  if q = 1 then [pad ||| 0x80] else pad :: List.replicate (q - 2) 0 ++ [0x80]

theorem sha3Tail_bits (official : Bool) {q : Nat} (hq : 0 < q) :
    let suffix := if official then [false, true] else []
    bytesOfBits (suffix ++ true :: List.replicate (8 * q - 2 - suffix.length) false ++ [true])
      = sha3Tail (if official then 0x06 else 0x01) q := by
  intro suffix
  by_cases h1 : q = 1
  · subst h1
    cases official <;> decide +kernel
  · obtain ⟨k, rfl⟩ : ∃ k, q = k + 2 := ⟨q - 2, by omega⟩
    have hs : suffix.length ≤ 2 := by cases official <;> decide
    rw [show 8 * (k + 2) - 2 - suffix.length = (7 - suffix.length) + (8 * k + 7) by omega,
      ← List.replicate_append_replicate, ← List.replicate_append_replicate]
    have e : suffix ++ true :: (List.replicate (7 - suffix.length) false ++
          (List.replicate (8 * k) false ++ List.replicate 7 false)) ++ [true]
        = (suffix ++ true :: List.replicate (7 - suffix.length) false) ++
          (List.replicate (8 * k) false ++ (List.replicate 7 false ++ [true])) := by
      simp only [List.append_assoc, List.cons_append]
    have hl : (suffix ++ true :: List.replicate (7 - suffix.length) false).length = 8 * 1 := by
      simp only [List.length_append, List.length_cons, List.length_replicate]; omega
    rw [e, bytesOfBits_append 1 _ hl,
      bytesOfBits_append (a := List.replicate (8 * k) false) k _ (by simp),
      bytesOfBits_zeros, sha3Tail, if_neg h1, Nat.add_sub_cancel]
    rw [show bytesOfBits (List.replicate 7 false ++ [true]) = [0x80] by decide +kernel]
    cases official
    · rw [show bytesOfBits (suffix ++ true :: List.replicate (7 - suffix.length) false) = [0x01] by
        decide +kernel]
      rfl
    · rw [show bytesOfBits (suffix ++ true :: List.replicate (7 - suffix.length) false) = [0x06] by
        decide +kernel]
      rfl

theorem keccak_padded (official : Bool) (m : Bytes) {r : Nat} (hr : 0 < r) :
    let N := bitsOfBytes m ++ (if official then [false, true] else [])
    bytesOfBits (N ++ pad101 (8 * r) N.length)
      = m ++ sha3Tail (if official then 0x06 else 0x01) (r - m.length % r) := by
  intro N
  have hlt := Nat.mod_lt m.length hr
  have hd := Nat.div_add_mod m.length r
  rw [← sha3Tail_bits official (q := r - m.length % r) (by omega)]
  simp only [N, pad101]
  generalize hsf : (if official then [false, true] else ([] : List Bool)) = suffix
  have hs : suffix.length = 0 ∨ suffix.length = 2 := by cases official <;> simp at hsf <;> simp [← hsf]
  have hj : (8 * r - (((bitsOfBytes m ++ suffix).length) + 2) % (8 * r)) % (8 * r)
      = 8 * (r - m.length % r) - 2 - suffix.length := by
    rw [List.length_append, bitsOfBytes_length]
    have e : (8 * m.length + suffix.length + 2) % (8 * r) = 8 * (m.length % r) + suffix.length + 2 := by
      have e2 : 8 * m.length + suffix.length + 2
          = (8 * (m.length % r) + suffix.length + 2) + 8 * r * (m.length / r) := by
        rw [Nat.mul_assoc]; omega
      rw [e2, Nat.add_mul_mod_self_left, Nat.mod_eq_of_lt (by omega)]
    rw [e, Nat.mod_eq_of_lt (by omega)]
    omega
  rw [hj, List.append_assoc, bytesOfBits_append m.length _ (bitsOfBytes_length m),
    bytesOfBits_bitsOfBytes]
  simp only [List.append_assoc, List.cons_append]

/-! ### The whole hash -/

/-- The state after absorbing full blocks. -/
theorem absorb_foldl {k : Nat} (hk : k ≤ 25) (bs : List Bytes) (hb : ∀ b ∈ bs, b.length = 8 * k)
    {st : List W64} (h : st.length = 25) :
    (bs.foldl keccakAbsorb st).length = 25 ∧
    memOfWords 8 (bs.foldl keccakAbsorb st) = bs.foldl
      (fun S Pi => Keccak.f (xorb S (Pi ++ List.replicate (200 - 8 * k) 0))) (memOfWords 8 st) := by
  induction bs generalizing st with
  | nil => exact ⟨h, rfl⟩
  | cons b bs ih =>
    have hbl := hb b List.mem_cons_self
    have e := keccakAbsorb_eq h hbl hk
    have := ih (fun b hm => hb b (List.mem_cons_of_mem _ hm)) e.2
    rw [List.foldl_cons, List.foldl_cons, this.2, e.1, hbl]
    exact ⟨this.1, rfl⟩

theorem memOfWords_zero : memOfWords 8 (List.replicate 25 (0 : W64)) = List.replicate 200 0 := by
  decide +kernel

/-- The context of a SHA-3 object reflects the message `m`. -/
def Sha3Rep (sz : Nat) (m : Bytes) (c : Option Sha3Ctx) : Prop :=
  ∃ x, c = some x ∧ x.rsiz = 200 - 2 * (sz / 8) ∧ x.hsiz = sz / 8 ∧
    MDRep (200 - 2 * (sz / 8)) keccakAbsorb (List.replicate 25 0) m x.buf

theorem sha3Rep_init {sz : Nat} (hs : sz < 800) {buf0 : Bytes}
    (hb : buf0.length = 200 - 2 * (sz / 8)) : Sha3Rep sz [] (some (sha3InitC sz buf0)) :=
  ⟨_, rfl, rfl, rfl, mdRep_init (by omega) _ _ hb⟩

theorem sha3Buffer_eq {b rest : Bytes} {r : Nat} (pad : Byte) (hb : b.length = r)
    (hlt : rest.length < r) (htk : b.take rest.length = rest) :
    ∃ b1 b2 last,
      cWrite b rest.length [pad] = some b1 ∧
      cWrite b1 (rest.length + 1 : Nat) (List.replicate (r - (rest.length + 1)) 0) = some b2 ∧
      cRead b2 (r - 1 : Nat) 1 = some last ∧
      cWrite b2 (r - 1 : Nat) (last.map (· ||| 0x80)) = some (rest ++ sha3Tail pad (r - rest.length)) := by
  have e1 : (splice b rest.length [pad]).take (rest.length + 1) = rest ++ [pad] := by
    have := take_splice (b := b) (o := rest.length) (x := [pad]) (by simp; omega)
    rw [htk] at this
    simpa using this
  have l1 : (splice b rest.length [pad]).length = r := by
    rw [splice_length (by simp; omega)]; exact hb
  have e2 := splice_prefix (b := splice b rest.length [pad])
    (x := List.replicate (r - (rest.length + 1)) 0) e1 (by rw [l1]; simp; omega)
  obtain ⟨q, rfl⟩ : ∃ q, r = rest.length + 1 + q := ⟨r - (rest.length + 1), by omega⟩
  rw [Nat.add_sub_cancel_left] at e2 ⊢
  have e3 : rest ++ [pad] ++ List.replicate q (0 : Byte)
      = (rest ++ [pad] ++ List.replicate q 0).take (rest.length + q)
        ++ [if q = 0 then pad else 0] := by
    match q with
    | 0 => simp
    | q + 1 =>
      simp [List.take_append, List.replicate_succ']
      rw [List.take_of_length_le (by omega)]
  have l3 : (rest ++ [pad] ++ List.replicate q (0 : Byte)).length = rest.length + 1 + q := by
    simp; omega
  refine ⟨_, _, [if q = 0 then pad else 0], cWrite_ok (by simp; omega),
    cWrite_ok (by rw [l1]; simp), ?_, ?_⟩
  · rw [e2, show rest.length + 1 + q - 1 = rest.length + q by omega, cRead_ok (by omega)]
    congr 1
    unfold slice
    conv => lhs; rw [e3]
    rw [List.drop_left' (by simp)]; rfl
  · rw [e2, show rest.length + 1 + q - 1 = rest.length + q by omega, cWrite_ok (by simp; omega)]
    congr 1
    rw [splice_prefix rfl (by rw [l3]; simp; omega), show rest.length + 1 + q - rest.length = q + 1 by omega,
      sha3Tail]
    match q with
    | 0 => simp
    | q + 1 =>
      simp [List.take_append, List.replicate_succ']
      rw [List.take_of_length_le (by omega)]

theorem sha3Extract_of {c : Sha3Ctx} {pad : Byte} {b1 b2 last b3 : Bytes}
    (w1 : cWrite c.buf.buffer c.buf.numbytes [pad] = some b1)
    (w2 : cWrite b1 (c.buf.numbytes + 1 : Nat) (List.replicate (c.rsiz - (c.buf.numbytes + 1)) 0)
      = some b2)
    (w3 : cRead b2 ((c.rsiz : Int) - 1) 1 = some last)
    (w4 : cWrite b2 ((c.rsiz : Int) - 1) (last.map (· ||| 0x80)) = some b3)
    (hl : (sha3Output c.hsiz (keccakAbsorb c.buf.h b3)).length = c.hsiz) :
    sha3Extract pad c = some (sha3Output c.hsiz (keccakAbsorb c.buf.h b3),
      { c with buf := { c.buf with h := keccakAbsorb c.buf.h b3, buffer := b3 } }) := by
  unfold sha3Extract
  rw [w1, Option.bind_eq_bind, Option.bind_some]
  simp only []
  rw [w2, Option.bind_some, w3, Option.bind_some, w4, Option.bind_some]
  generalize keccakAbsorb c.buf.h b3 = st at *
  rw [if_pos hl]
  rfl

theorem sha3_spec {sz : Nat} (hs : sz % 32 = 0) (h2 : sz ≤ 512) (official : Bool) :
    StubSpec (Sha3Rep sz)
      (fun c d => c.bind fun c => (sha3Absorb c d).map some)
      (fun c => c.bind fun c =>
        (sha3Extract (if official then 0x06 else 0x01) c).map fun (r, c) => (r, some c))
      (if official then Spec.SHA3 sz else Spec.Keccak sz) where
  update := by
    rintro m _ d ⟨x, rfl, hr, hh, hm⟩ _
    obtain ⟨b, hb, hmb⟩ := mdAdd_rep (n := 200 - 2 * (sz / 8)) (by omega) (via := false) hm d
    refine ⟨some { x with buf := b }, ?_, _, rfl, hr, hh, hmb⟩
    simp [sha3Absorb, hr, hb]
  final := by
    rintro m _ ⟨x, rfl, hr, hh, hm⟩
    obtain ⟨k, hk⟩ : ∃ k, sz / 8 = 4 * k := ⟨sz / 32, by omega⟩
    generalize hR : 200 - 2 * (sz / 8) = r at hm hr
    have hrate : r = 8 * (25 - k) := by omega
    obtain ⟨hb, bs, rest, rfl, hbs, hlt, hst, hnb, htk⟩ := hm
    generalize hpad : (if official then (0x06 : Byte) else 0x01) = pad
    obtain ⟨b1, b2, last, w1, w2, w3, w4⟩ := sha3Buffer_eq pad hb hlt htk
    have htl : (sha3Tail pad (r - rest.length)).length
        = r - rest.length := by
      unfold sha3Tail; split <;> simp <;> omega
    have hblk : (rest ++ sha3Tail pad (r - rest.length)).length
        = 8 * (25 - k) := by
      rw [List.length_append, htl]; omega
    have habs := absorb_foldl (k := 25 - k) (by omega)
      (bs ++ [rest ++ sha3Tail pad (r - rest.length)])
      (by
        intro b hm
        rcases List.mem_append.1 hm with hm | hm
        · rw [hbs b hm, hrate]
        · rw [List.mem_singleton.1 hm]; exact hblk)
      (st := List.replicate 25 0) (by simp)
    rw [List.foldl_append, List.foldl_cons, List.foldl_nil, ← hst] at habs
    have hout := sha3Output_eq k _ (by rw [habs.1]; omega)
    have hlen : (sha3Output (4 * k) (keccakAbsorb x.buf.h
        (rest ++ sha3Tail pad (r - rest.length)))).length = 4 * k := by
      rw [hout, List.length_take, memOfWords_length8, habs.1]; omega
    have hdig : (if official then Spec.SHA3 sz else Spec.Keccak sz) (bs.flatten ++ rest)
        = sha3Output (4 * k) (keccakAbsorb x.buf.h
        (rest ++ sha3Tail pad (r - rest.length))) := by
      have hmod : (bs.flatten ++ rest).length % (r) = rest.length := by
        rw [List.length_append, flatten_length_of bs hbs, Nat.mul_add_mod, Nat.mod_eq_of_lt hlt]
      have hp := keccak_padded official (bs.flatten ++ rest) (r := r) (by omega)
      simp only [hpad, hmod] at hp
      have hsp : sponge (r)
          (bitsOfBytes (bs.flatten ++ rest) ++ (if official then [false, true] else [])) (4 * k)
          = sha3Output (4 * k) (keccakAbsorb x.buf.h
            (rest ++ sha3Tail pad (r - rest.length))) := by
        unfold sponge
        simp only
        rw [hp, List.append_assoc, chunks_flatten_append (by omega) _ hbs,
          chunks_self (by omega) (by rw [hblk, hrate]), hout, habs.2, hrate,
          List.foldl_append, List.foldl_append, memOfWords_zero]
      rw [← hsp]
      cases official
      · simp only [Bool.false_eq_true, if_false, List.append_nil, Spec.Keccak]
        rw [show (1600 - 2 * sz) / 8 = r by omega, hk]
      · simp only [if_true, Spec.SHA3]
        rw [show (1600 - 2 * sz) / 8 = r by omega, hk]
    have hx := sha3Extract_of (c := x) (pad := pad) (hnb ▸ w1)
      (show cWrite b1 (x.buf.numbytes + 1 : Nat) (List.replicate (x.rsiz - (x.buf.numbytes + 1)) 0)
        = some b2 by rw [hnb, hr]; exact w2)
      (show cRead b2 ((x.rsiz : Int) - 1) 1 = some last by
        rw [hr, show (r : Int) - 1 = ((r - 1 : Nat) : Int) by omega]; exact w3)
      (show cWrite b2 ((x.rsiz : Int) - 1) (last.map (· ||| 0x80)) = some _ by
        rw [hr, show (r : Int) - 1 = ((r - 1 : Nat) : Int) by omega]; exact w4)
      (by rw [hh, hk]; exact hlen)
    rw [hh, hk, ← hdig] at hx
    exact ⟨_, by rw [Option.bind_some, hx, Option.map_some]⟩

end Verif
