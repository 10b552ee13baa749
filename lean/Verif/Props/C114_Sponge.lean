import Verif.Spec.SpongeCollision
import Verif.Proof.KeccakPerm
import Verif.Props.C27_SHA3
import Verif.Props.C113_Extension
/-
C114: two objects of `Hash.sha3` or `Hash.keccak` that yield the same digest for different data, or
one of each kind for any data, have a collision inside the sponge; and the permutation of the
sponge has no collisions.
-/
namespace Verif

open Spec

theorem keccak_f_length (S : Bytes) : (Keccak.f S).length = 200 := by
  simp [Keccak.f, Keccak.toBytes, natToLE_length]

/-- C114, the permutation of 200 bytes: different arguments, different results. -/
theorem C114_permutation {S S' : Bytes} (h : S.length = 200) (h' : S'.length = 200) (hne : S ≠ S') :
    Keccak.f S ≠ Keccak.f S' := by
  intro e
  have e := KeccakPerm.permute_inj (KeccakPerm.toBytes_inj e)
  apply hne
  have lanes : ∀ j, j < 25 → (S.drop (8 * j)).take 8 = (S'.drop (8 * j)).take 8 := by
    intro j hj
    have := congrFun (congrFun e ⟨j % 5, Nat.mod_lt _ (by decide)⟩) ⟨j / 5, by omega⟩
    simp only [Keccak.ofBytes, show 5 * (j / 5) + j % 5 = j by omega] at this
    have l : ∀ T : Bytes, T.length = 200 → ((T.drop (8 * j)).take 8).length = 8 := by
      intro T hT
      rw [List.length_take, List.length_drop]; omega
    have b : ∀ T : Bytes, T.length = 200 → leNat ((T.drop (8 * j)).take 8) < 2 ^ 64 := by
      intro T hT
      have := leNat_lt ((T.drop (8 * j)).take 8)
      rw [l T hT] at this
      exact Nat.lt_of_lt_of_eq this (by decide)
    have := congrArg BitVec.toNat this
    rw [BitVec.toNat_ofNat, BitVec.toNat_ofNat, Nat.mod_eq_of_lt (b S h),
      Nat.mod_eq_of_lt (b S' h')] at this
    rw [← natToLE_leNat ((S.drop (8 * j)).take 8), ← natToLE_leNat ((S'.drop (8 * j)).take 8), this,
      l S h, l S' h']
  apply List.ext_getElem?
  intro i
  by_cases hi : i < 200
  · have e := congrArg (fun l : Bytes => l[i % 8]?) (lanes (i / 8) (by omega))
    simp only [List.getElem?_take_of_lt (Nat.mod_lt i (show 0 < 8 by decide)), List.getElem?_drop,
      show 8 * (i / 8) + i % 8 = i by omega] at e
    exact e
  · rw [List.getElem?_eq_none (by omega), List.getElem?_eq_none (by omega)]

/-! ### The padding is unambiguous -/

theorem zeros_one_inj {j j' : Nat} {N N' : List Bool}
    (h : List.replicate j false ++ true :: N = List.replicate j' false ++ true :: N') : N = N' := by
  induction j generalizing j' with
  | zero =>
    cases j' with
    | zero => simpa using h
    | succ j' => simp [List.replicate_succ] at h
  | succ j ih =>
    cases j' with
    | zero => simp [List.replicate_succ] at h
    | succ j' =>
      simp only [List.replicate_succ, List.cons_append, List.cons.injEq, true_and] at h
      exact ih h

theorem pad101_inj {x : Nat} {N N' : List Bool}
    (h : N ++ pad101 x N.length = N' ++ pad101 x N'.length) : N = N' := by
  have := congrArg List.reverse h
  simp only [pad101, List.reverse_append, List.reverse_cons, List.reverse_replicate,
    List.reverse_nil, List.nil_append, List.singleton_append, List.cons_append, List.append_assoc,
    List.cons.injEq, true_and] at this
  have := zeros_one_inj this
  simpa using this

theorem bitsOfBytes_append (a b : Bytes) : bitsOfBytes (a ++ b) = bitsOfBytes a ++ bitsOfBytes b := by
  simp [bitsOfBytes]

theorem bitsOfBytes_bytesOfBits (k : Nat) {l : List Bool} (h : l.length = 8 * k) :
    bitsOfBytes (bytesOfBits l) = l := by
  induction k generalizing l with
  | zero => rw [List.length_eq_zero_iff.1 h, bytesOfBits_nil]; rfl
  | succ k ih =>
    have e : l = l.take 8 ++ l.drop 8 := (List.take_append_drop 8 l).symm
    have h8 : (l.take 8).length = 8 * 1 := by rw [List.length_take]; omega
    have hd := ih (l := l.drop 8) (by rw [List.length_drop]; omega)
    rw [e, bytesOfBits_append 1 _ h8, bitsOfBytes_append, hd]
    congr 1
    generalize l.take 8 = a at h8
    have all : ∀ a b c d e f g h : Bool,
        bitsOfBytes (bytesOfBits [a, b, c, d, e, f, g, h]) = [a, b, c, d, e, f, g, h] := by
      decide +kernel
    match a, h8 with
    | [a, b, c, d, e, f, g, h], _ => exact all a b c d e f g h

theorem pad101_dvd {x : Nat} (hx : 0 < x) (N : List Bool) : x ∣ (N ++ pad101 x N.length).length := by
  have e : (N ++ pad101 x N.length).length = (N.length + 2) + (x - (N.length + 2) % x) % x := by
    simp only [pad101, List.length_append, List.length_cons, List.length_replicate, List.length_nil]
    omega
  rw [e]
  generalize N.length + 2 = a
  have hd := Nat.div_add_mod a x
  have hm := Nat.mod_lt a hx
  by_cases h0 : a % x = 0
  · rw [h0, Nat.sub_zero, Nat.mod_self, Nat.add_zero]
    exact Nat.dvd_of_mod_eq_zero h0
  · rw [Nat.mod_eq_of_lt (show x - a % x < x by omega)]
    exact ⟨a / x + 1, by rw [Nat.mul_add]; omega⟩

theorem bytesOfBits_length (k : Nat) {l : List Bool} (h : l.length = 8 * k) :
    (bytesOfBits l).length = k := by
  rw [bytesOfBits, List.length_map, chunks_length (by decide), h]
  omega

/-- Different messages, or messages of different kinds, are different once padded. -/
theorem spongePad_inj {rate : Nat} (hr : 0 < rate) {o o' : Bool} {M M' : Bytes}
    (h : spongePad o rate M = spongePad o' rate M') : o = o' ∧ M = M' := by
  unfold spongePad at h
  simp only at h
  generalize hN : bitsOfBytes M ++ (if o = true then [false, true] else []) = N at h
  generalize hN' : bitsOfBytes M' ++ (if o' = true then [false, true] else []) = N' at h
  obtain ⟨k, hk⟩ := pad101_dvd (show 0 < 8 * rate by omega) N
  obtain ⟨k', hk'⟩ := pad101_dvd (show 0 < 8 * rate by omega) N'
  rw [Nat.mul_assoc] at hk hk'
  have e := congrArg bitsOfBytes h
  rw [bitsOfBytes_bytesOfBits _ hk, bitsOfBytes_bytesOfBits _ hk'] at e
  have e := pad101_inj e
  subst hN hN'
  have hl := congrArg List.length e
  simp only [List.length_append, bitsOfBytes_length] at hl
  have ho : o = o' := by
    cases o <;> cases o' <;> simp at hl <;> first | rfl | omega
  subst ho
  have e := List.append_cancel_right e
  exact ⟨rfl, by rw [← bytesOfBits_bitsOfBytes M, e, bytesOfBits_bitsOfBytes]⟩

theorem spongePad_dvd {rate : Nat} (hr : 0 < rate) (o : Bool) (M : Bytes) :
    rate ∣ (spongePad o rate M).length ∧ spongePad o rate M ≠ [] := by
  unfold spongePad
  simp only
  generalize bitsOfBytes M ++ (if o = true then [false, true] else []) = N
  obtain ⟨k, hk⟩ := pad101_dvd (show 0 < 8 * rate by omega) N
  have hk2 := hk
  rw [Nat.mul_assoc] at hk
  have hl := bytesOfBits_length _ hk
  refine ⟨⟨k, hl⟩, fun e => ?_⟩
  rw [e, List.length_nil] at hl
  rw [← hl] at hk
  simp [pad101] at hk

/-! ### The sponge -/

theorem spongeState_length (rate : Nat) (p : Bytes) : (spongeState rate p).length = 200 := by
  unfold spongeState
  generalize chunks rate p = L
  have : ∀ (L : List Bytes) (S : Bytes), S.length = 200 →
      (L.foldl (fun S Pi => Keccak.f (xorb S (Pi ++ List.replicate (200 - rate) 0))) S).length = 200 := by
    intro L
    induction L with
    | nil => exact fun S h => h
    | cons b L ih => exact fun S _ => ih _ (keccak_f_length _)
  exact this L _ List.length_replicate

theorem spongeState_last {rate : Nat} (hr : 0 < rate) {p b : Bytes} (hp : rate ∣ p.length)
    (hb : b.length = rate) :
    spongeState rate (p ++ b)
      = Keccak.f (xorb (spongeState rate p) (b ++ List.replicate (200 - rate) 0)) := by
  have e : chunks rate b = [b] := by
    have := chunks_append hr (l := ([] : Bytes)) hb
    rwa [List.append_nil, chunks_nil] at this
  rw [spongeState, chunks_split hr p b hp, List.foldl_append, e]
  rfl

theorem last_block {rate : Nat} {x : Bytes} (hx : rate ∣ x.length) (h0 : x ≠ []) :
    ∃ p b, x = p ++ b ∧ rate ∣ p.length ∧ b.length = rate := by
  obtain ⟨k, hk⟩ := hx
  have hpos : 0 < x.length := List.length_pos_iff.2 h0
  cases k with
  | zero => omega
  | succ k =>
    rw [Nat.mul_succ] at hk
    refine ⟨x.take (rate * k), x.drop (rate * k), (List.take_append_drop _ _).symm, ?_, ?_⟩
    · rw [List.length_take]; exact ⟨k, by omega⟩
    · rw [List.length_drop]; omega

theorem sponge_collision {rate d : Nat} (hr : 0 < rate) (h200 : rate ≤ 200) {x y : Bytes}
    (hx : rate ∣ x.length) (hy : rate ∣ y.length) (x0 : x ≠ []) (y0 : y ≠ []) (hne : x ≠ y)
    (he : (spongeState rate x).take d = (spongeState rate y).take d) :
    InnerCollision rate x y ∨ OutputCollision rate d x y := by
  obtain ⟨p, b, rfl, hp, hb⟩ := last_block hx x0
  obtain ⟨p', b', rfl, hp', hb'⟩ := last_block hy y0
  have ex := spongeState_last hr hp hb
  have ey := spongeState_last hr hp' hb'
  have la := spongeState_length rate p
  have la' := spongeState_length rate p'
  have lz : (List.replicate (200 - rate) (0 : Byte)).length = 200 - rate := List.length_replicate
  have cut : ∀ a c : Bytes, a.length = 200 → c.length = rate →
      xorb a (c ++ List.replicate (200 - rate) 0) = xorb (a.take rate) c ++ a.drop rate := by
    intro a c ha hc
    conv => lhs; rw [← List.take_append_drop rate a]
    rw [xorb_append (by rw [List.length_take]; omega), xorb_zeros (by rw [List.length_drop]; omega)]
  rcases Classical.em (xorb (spongeState rate p) (b ++ List.replicate (200 - rate) 0)
      = xorb (spongeState rate p') (b' ++ List.replicate (200 - rate) 0)) with e | e
  · left
    rw [cut _ _ la hb, cut _ _ la' hb'] at e
    obtain ⟨e1, e2⟩ := List.append_inj e (by simp only [xorb_length, List.length_take]; omega)
    refine ⟨p, b, p', b', rfl, rfl, hp, hp', hb, hb', fun epp => ?_, e2⟩
    subst epp
    apply hne
    have l1 : ((spongeState rate p).take rate).length = rate := by rw [List.length_take]; omega
    have := congrArg (fun z => xorb z ((spongeState rate p).take rate)) e1
    simp only [xorb_comm ((spongeState rate p).take rate)] at this
    rw [xorb_xorb_cancel (by omega), xorb_xorb_cancel (by omega)] at this
    rw [this]
  · right
    have l1 : ∀ a c : Bytes, a.length = 200 → c.length = rate →
        (xorb a (c ++ List.replicate (200 - rate) 0)).length = 200 := by
      intro a c ha hc
      rw [xorb_length, List.length_append, lz]; omega
    refine ⟨_, _, l1 _ _ la hb, l1 _ _ la' hb', e, ex, ey,
      C114_permutation (l1 _ _ la hb) (l1 _ _ la' hb') e, ?_⟩
    rw [← ex, ← ey]; exact he

theorem spongeDigest_eq (o : Bool) (sz : Nat) (M : Bytes) :
    spongeDigest o sz M
      = (spongeState ((1600 - 2 * sz) / 8) (spongePad o ((1600 - 2 * sz) / 8) M)).take (sz / 8) := by
  cases o
  · simp only [spongeDigest, Spec.Keccak, sponge, spongeState, spongePad, Bool.false_eq_true, if_false,
      List.append_nil]
  · simp only [spongeDigest, SHA3, sponge, spongeState, spongePad, if_true]

/-- C114. Two objects made by `Hash.sha3 sz` (`official`) or `Hash.keccak sz`, of the same size, yield
the same digest although the data differ, or although one is of each kind. Then a collision of the
capacity occurs before the last blocks, or the last application of the permutation takes two
different states to different states with the same beginning. -/
theorem C114_sha3 (sz : Int) (o o' : Bool) (buf0 buf0' : Bytes) (s s' : Option Sha3Ctx)
    (h : sha3New sz buf0 = .ok s) (h' : sha3New sz buf0' = .ok s')
    (hb : (buf0.length : Int) = 200 - 2 * (sz / 8)) (hb' : (buf0'.length : Int) = 200 - 2 * (sz / 8))
    (ops ops' : List HOp) (hl : ∀ op ∈ ops, op.Legal) (hl' : ∀ op ∈ ops', op.Legal)
    (hne : o ≠ o' ∨ hinputOf ops ≠ hinputOf ops')
    (he : ((sha3Class sz.toNat o).digest ops s).observe
      = ((sha3Class sz.toNat o').digest ops' s').observe) :
    let rate := (1600 - 2 * sz.toNat) / 8
    let x := spongePad o rate (hinputOf ops)
    let y := spongePad o' rate (hinputOf ops')
    InnerCollision rate x y ∨ OutputCollision rate (sz.toNat / 8) x y := by
  intro rate x y
  have hsz := ((C14_sha3_size sz buf0).1).1 (by rw [h]; rfl)
  have c : ∀ (o : Bool) (buf0 : Bytes) (s : Option Sha3Ctx), sha3New sz buf0 = .ok s →
      (buf0.length : Int) = 200 - 2 * (sz / 8) →
      (sha3Class sz.toNat o).Computes s (spongeDigest o sz.toNat) := by
    intro o buf0 s h hb
    cases o
    · exact C27_keccak sz buf0 s h hb
    · exact C27_sha3 sz buf0 s h hb
  have e1 := c o buf0 s h hb ops hl
  have e2 := c o' buf0' s' h' hb' ops' hl'
  rw [e1, e2] at he
  have he : spongeDigest o sz.toNat (hinputOf ops) = spongeDigest o' sz.toNat (hinputOf ops') := by
    simpa using he
  rw [spongeDigest_eq, spongeDigest_eq] at he
  have hr : 0 < rate ∧ rate ≤ 200 := by
    rcases hsz with rfl | rfl | rfl | rfl <;> decide
  have dx := spongePad_dvd hr.1 o (hinputOf ops)
  have dy := spongePad_dvd hr.1 o' (hinputOf ops')
  refine sponge_collision hr.1 hr.2 dx.1 dy.1 dx.2 dy.2 (fun e => ?_) he
  have := spongePad_inj hr.1 e
  rcases hne with hne | hne
  · exact hne this.1
  · exact hne this.2

namespace Example

theorem sha3_run {c : Byte} {d : Nat}
    (e : ((sha3Class 256 true).digest [.addChar c] (some (sha3InitC 256 (List.replicate 136 0x55)))).observe
      = some (.ok (natToBE 32 d))) : SHA3 256 [c] = natToBE 32 d := by
  have h := C27_sha3 256 (List.replicate 136 0x55) _ rfl (by simp) [.addChar c]
    (by intro op ho; rw [List.mem_singleton.1 ho]; trivial)
  have e2 := e.symm.trans h
  simpa [hinputOf, HOp.input] using e2.symm

set_option maxRecDepth 100000 in
/-- No two messages with the same SHA-3 digest are known, and none should be. Two messages whose
digests begin with the same byte are easy to find, and the argument applies to this byte. -/
theorem sha3_first_byte : (SHA3 256 [8]).take 1 = (SHA3 256 [28]).take 1 := by
  rw [sha3_run (c := 8) (d := 0x04058b18052fd86b2a3032bcc55c823c48bf5810a3726f538a1d01ebb42584c5) (by decide +kernel),
    sha3_run (c := 28) (d := 0x045fe5716b0ff6293c1e984a3b699dfd628f2b5cab47cf67f021297276c778d7) (by decide +kernel)]
  decide +kernel

example : InnerCollision 136 (spongePad true 136 [8]) (spongePad true 136 [28])
    ∨ OutputCollision 136 1 (spongePad true 136 [8]) (spongePad true 136 [28]) := by
  have dx := spongePad_dvd (rate := 136) (by decide) true [8]
  have dy := spongePad_dvd (rate := 136) (by decide) true [28]
  refine sponge_collision (by decide) (by decide) dx.1 dy.1 dx.2 dy.2
    (fun e => absurd (spongePad_inj (by decide) e).2 (by decide)) ?_
  have e := sha3_first_byte
  rw [show SHA3 256 [8] = spongeDigest true 256 [8] from rfl,
    show SHA3 256 [28] = spongeDigest true 256 [28] from rfl, spongeDigest_eq, spongeDigest_eq,
    List.take_take, List.take_take] at e
  exact e

/-- The permutation keeps apart the zero state and the state whose last bit is set. -/
example : Keccak.f (List.replicate 200 0) ≠ Keccak.f (List.replicate 199 0 ++ [0x80]) :=
  C114_permutation List.length_replicate (by decide +kernel) (by decide +kernel)

end Example

end Verif
