import Verif.Model.Padding
import Verif.Spec.Padding
import Verif.Proof.Bytes
/-
The padding classes against Spec/Padding.
-/
namespace Verif

open Padding

theorem Spec.padLength_length {n : Nat} {x : Bytes} (h : x.length ≤ n) :
    (Spec.padLength n x).length = n := by
  simp [Spec.padLength]; omega

theorem Spec.pad8000_length {n : Nat} {x : Bytes} (h : x.length < n) :
    (Spec.pad8000 n x).length = n := by
  simp [Spec.pad8000]; omega

theorem lengthPad_ok {buffer : Bytes} {used n : Nat} (hb : buffer.length = n) (hu : used < n)
    (hn : n - used < 256) :
    lengthPad buffer used = .ok (Spec.padLength n (buffer.take used)) := by
  subst hb
  unfold lengthPad
  have h1 : ((buffer.length : Int) - used) = ((buffer.length - used : Nat) : Int) := by omega
  simp only [h1]
  rw [if_pos (by omega)]
  unfold bytesFill
  rw [if_pos (by simp only [InRange]; omega)]
  simp only [Int.toNat_natCast]
  unfold splice Spec.padLength
  rw [List.drop_of_length_le (by simp; omega), List.append_nil, BitVec.ofInt_natCast,
    List.length_take, Nat.min_eq_left (by omega)]

theorem lengthPad_full {buffer : Bytes} {used : Nat} (hu : buffer.length ≤ used) :
    lengthPad buffer used = .error .assertFailure := by
  unfold lengthPad
  rw [if_neg]
  omega

theorem lengthPad_big {buffer : Bytes} {used : Nat} (hu : used + 256 ≤ buffer.length) :
    lengthPad buffer used = .error .assertFailure := by
  unfold lengthPad
  rw [if_neg]
  omega

theorem stripLoop_ok {b : Bytes} {n : Nat} (k : Nat) : ∀ (i : Nat), i + k ≤ b.length →
    slice b i k = List.replicate k (BitVec.ofNat 8 n) → n < 256 →
    stripLoop b n i k = .ok () := by
  induction k with
  | zero => intros; rfl
  | succ k ih =>
    intro i hi hs hn
    have hlt : i < b.length := by omega
    rw [slice, List.drop_eq_getElem_cons hlt, List.take_succ_cons, List.replicate_succ,
      List.cons.injEq] at hs
    rw [stripLoop, bytesGet, if_pos (by omega), Int.toNat_natCast, List.getElem?_eq_getElem hlt]
    simp only
    rw [if_neg]
    · have := ih (i + 1) (by omega) hs.2 hn
      rw [Int.natCast_add] at this
      exact this
    · rw [hs.1, BitVec.toNat_ofNat, Nat.mod_eq_of_lt hn]; simp

theorem stripLoop_inv {b : Bytes} {n : Nat} (k : Nat) : ∀ (i : Nat), i + k ≤ b.length →
    n < 256 →
    (stripLoop b n i k = .ok () ∧ slice b i k = List.replicate k (BitVec.ofNat 8 n))
    ∨ stripLoop b n i k = .error (.error .badPadding) := by
  induction k with
  | zero => intros; left; exact ⟨rfl, by simp [slice]⟩
  | succ k ih =>
    intro i hi hn
    have hlt : i < b.length := by omega
    rw [slice, List.drop_eq_getElem_cons hlt, List.take_succ_cons, List.replicate_succ,
      List.cons.injEq]
    rw [stripLoop, bytesGet, if_pos (by omega), Int.toNat_natCast, List.getElem?_eq_getElem hlt]
    simp only
    by_cases hc : (b[i]).toNat = n
    · rw [if_neg (by simpa using hc)]
      have := ih (i + 1) (by omega) hn
      rw [Int.natCast_add] at this
      rcases this with ⟨h1, h2⟩ | h1
      · left
        refine ⟨h1, ?_, h2⟩
        rw [← hc]; simp
      · right; exact h1
    · rw [if_pos (by simpa using hc)]
      right; rfl

theorem getLast_byte {b : Bytes} (h : b ≠ []) :
    bytesGet b ((b.length : Int) - 1) = some (b.getLast h) := by
  have : 0 < b.length := List.length_pos_iff.2 h
  rw [bytesGet, if_pos (by omega), List.getLast_eq_getElem, show ((b.length : Int) - 1).toNat = b.length - 1 by omega,
    List.getElem?_eq_getElem]

/-- Stripping a padded block. -/
theorem lengthStrip_pad {n : Nat} {x : Bytes} (hx : x.length < n) (hn : n - x.length < 256) :
    lengthStrip (Spec.padLength n x) = .ok x.length := by
  have hlen := Spec.padLength_length (n := n) (x := x) (by omega)
  have hne : Spec.padLength n x ≠ [] := by
    intro h; rw [h] at hlen; simp at hlen; omega
  have hlast : (Spec.padLength n x).getLast hne = BitVec.ofNat 8 (n - x.length) := by
    have h1 : (Spec.padLength n x)[n - 1]? = some (BitVec.ofNat 8 (n - x.length)) := by
      unfold Spec.padLength
      rw [List.getElem?_append_right (by omega), List.getElem?_replicate, if_pos (by omega)]
    rw [List.getLast_eq_getElem]
    simp only [hlen]
    rw [List.getElem?_eq_getElem (by omega)] at h1
    exact Option.some.inj h1
  unfold lengthStrip
  simp only
  rw [getLast_byte hne, hlast]
  simp only
  rw [BitVec.toNat_ofNat, Nat.mod_eq_of_lt (by omega), hlen]
  rw [if_neg (by omega)]
  have := stripLoop_ok (b := Spec.padLength n x) (n := n - x.length) (n - x.length - 1) x.length
    (by omega) ?_ (by omega)
  · rw [show ((n : Int) - ((n - x.length : Nat) : Int)) = (x.length : Int) by omega, this]
    simp; omega
  · unfold slice Spec.padLength
    rw [List.drop_left, List.take_replicate, Nat.min_eq_left (by omega)]

/-- Stripping any block either yields the unpadded prefix, or raises `Bad_padding`. -/
theorem lengthStrip_inv {b : Bytes} (hb : b ≠ []) :
    (∃ v, lengthStrip b = .ok v ∧ v < b.length ∧ b.length - v < 256
        ∧ b = Spec.padLength b.length (b.take v))
    ∨ lengthStrip b = .error (.error .badPadding) := by
  have hpos : 0 < b.length := List.length_pos_iff.2 hb
  have h256 := (b.getLast hb).isLt
  unfold lengthStrip
  simp only
  rw [getLast_byte hb]
  simp only
  by_cases h0 : (b.getLast hb).toNat = 0 ∨ (b.getLast hb).toNat > b.length
  · rw [if_pos h0]; right; rfl
  · rw [if_neg h0]
    generalize hN : (b.getLast hb).toNat = N at *
    have hloop := stripLoop_inv (b := b) (n := N) (N - 1)
      (b.length - N) (by omega) h256
    rw [show ((b.length : Int) - (N : Int)) = ((b.length - N : Nat) : Int) by omega]
    rcases hloop with ⟨h1, h2⟩ | h1
    · left
      rw [h1]
      refine ⟨b.length - N, rfl, by omega, by omega, ?_⟩
      unfold Spec.padLength
      rw [List.length_take, Nat.min_eq_left (by omega), show b.length - (b.length - N) = N by omega]
      have hd : b.drop (b.length - N) = List.replicate N (BitVec.ofNat 8 N) := by
        have h3 : b.drop (b.length - N) = slice b (b.length - N) (N - 1) ++ b.drop (b.length - 1) := by
          unfold slice
          conv => lhs; rw [← List.take_append_drop (N - 1) (b.drop (b.length - N)), List.drop_drop]
          rw [show b.length - N + (N - 1) = b.length - 1 by omega]
        have h4 : b.drop (b.length - 1) = [BitVec.ofNat 8 N] := by
          rw [List.drop_eq_getElem_cons (by omega), List.drop_of_length_le (by omega), ← hN,
            List.getLast_eq_getElem]
          simp
        rw [h3, h2, h4, show [BitVec.ofNat 8 N] = List.replicate 1 (BitVec.ofNat 8 N) from rfl,
          List.replicate_append_replicate, show N - 1 + 1 = N by omega]
      conv => lhs; rw [← List.take_append_drop (b.length - N) b, hd]
    · right; rw [h1]

/-! ### The 8000 scheme -/

theorem zeroLoop_ok (k : Nat) : ∀ (b : Bytes) (i : Nat), i + k ≤ b.length →
    zeroLoop b i k = .ok (splice b i (List.replicate k 0)) := by
  induction k with
  | zero => intro b i h; simp [zeroLoop, splice]
  | succ k ih =>
    intro b i h
    rw [zeroLoop, bytesSet_ok (by omega)]
    simp only
    have := ih (b.set i 0) (i + 1) (by simp; omega)
    rw [Int.natCast_add] at this
    rw [show ((i : Int) + 1) = (i : Int) + ((1 : Nat) : Int) from rfl, this]
    congr 1
    unfold splice
    simp only [List.length_replicate]
    rw [List.drop_set_of_lt (by omega), show i + 1 + k = i + (k + 1) by omega]
    congr 1
    rw [List.take_succ_eq_append_getElem (by simp; omega), List.take_set_of_le (by omega),
      List.getElem_set_self, List.append_assoc, List.replicate_succ]
    rfl

theorem pad8000_ok {buffer : Bytes} {used n : Nat} (hb : buffer.length = n) (hu : used < n) :
    pad8000 buffer used = .ok (Spec.pad8000 n (buffer.take used)) := by
  subst hb
  unfold pad8000
  rw [bytesSet_ok (by omega)]
  simp only
  have := zeroLoop_ok (buffer.length - 1 - used) (buffer.set used 0x80) (used + 1) (by simp; omega)
  rw [Int.natCast_add] at this
  rw [show ((used : Int) + 1) = (used : Int) + ((1 : Nat) : Int) from rfl, this]
  congr 1
  unfold splice Spec.pad8000
  simp only [List.length_replicate]
  rw [List.drop_of_length_le (by simp; omega), List.append_nil,
    List.take_succ_eq_append_getElem (by simp; omega), List.take_set_of_le (by omega),
      List.getElem_set_self, List.append_assoc, List.length_take, Nat.min_eq_left (by omega),
      show buffer.length - 1 - used = buffer.length - used - 1 by omega]
  rfl

theorem pad8000_full {buffer : Bytes} {used : Nat} (hu : buffer.length ≤ used) :
    pad8000 buffer used = .error .invalidArg := by
  unfold pad8000 bytesSet
  rw [if_neg (by omega)]

theorem strip8000Loop_ok {b : Bytes} {v : Nat} (hv : b[v]? = some 0x80) (k : Nat) :
    v + 1 + k ≤ b.length → slice b (v + 1) k = List.replicate k 0 →
    strip8000Loop b (v + 1 + k) = .ok v := by
  induction k with
  | zero =>
    intro _ _
    rw [Nat.add_zero, strip8000Loop, bytesGet, if_pos (by omega), Int.toNat_natCast, hv]
    simp
  | succ k ih =>
    intro h hs
    rw [← Nat.add_assoc, strip8000Loop, bytesGet, if_pos (by omega), Int.toNat_natCast,
      List.getElem?_eq_getElem (by omega)]
    simp only
    have h1 : b[v + 1 + k] = 0 := by
      have h2 := congrArg (fun l => l[k]?) hs
      simp only [slice, List.getElem?_replicate] at h2
      rw [if_pos (by omega), List.getElem?_take, if_pos (by omega), List.getElem?_drop,
        List.getElem?_eq_getElem (by omega)] at h2
      exact Option.some.inj h2
    rw [h1, if_neg (by decide), if_pos rfl]
    apply ih (by omega)
    have h2 := congrArg (List.take k) hs
    simpa [slice, List.take_take] using h2

theorem strip8000_pad {n : Nat} {x : Bytes} (hx : x.length < n) :
    strip8000 (Spec.pad8000 n x) = .ok x.length := by
  have hlen := Spec.pad8000_length hx
  unfold strip8000
  rw [hlen, show n = x.length + 1 + (n - x.length - 1) by omega]
  rw [show x.length + 1 + (n - x.length - 1) = n by omega]
  conv => lhs; arg 2; rw [show n = x.length + 1 + (n - x.length - 1) by omega]
  apply strip8000Loop_ok
  · simp [Spec.pad8000]
  · omega
  · simp only [slice, Spec.pad8000, List.drop_append]
    rw [List.drop_of_length_le (by omega), show x.length + 1 - x.length = 1 by omega]
    simp

theorem strip8000Loop_inv {b : Bytes} (k : Nat) : k ≤ b.length →
    b.drop k = List.replicate (b.length - k) 0 →
    (∃ v, strip8000Loop b k = .ok v ∧ v < b.length ∧ b = Spec.pad8000 b.length (b.take v))
    ∨ strip8000Loop b k = .error (.error .badPadding) := by
  induction k with
  | zero => intros; right; rfl
  | succ k ih =>
    intro hk hz
    rw [strip8000Loop, bytesGet, if_pos (by omega), Int.toNat_natCast,
      List.getElem?_eq_getElem (by omega)]
    simp only
    by_cases h1 : b[k] = 0x80
    · rw [if_pos h1]
      left
      refine ⟨k, rfl, by omega, ?_⟩
      conv => lhs; rw [← List.take_append_drop k b, List.drop_eq_getElem_cons (by omega : k < b.length), hz, h1]
      unfold Spec.pad8000
      rw [List.length_take, Nat.min_eq_left (by omega), Nat.sub_add_eq]
    · rw [if_neg h1]
      by_cases h2 : b[k] = 0
      · rw [if_pos h2]
        apply ih (by omega)
        rw [List.drop_eq_getElem_cons (by omega : k < b.length), hz, h2, ← List.replicate_succ]
        congr 1; omega
      · rw [if_neg h2]; right; rfl

theorem strip8000_inv (b : Bytes) :
    (∃ v, strip8000 b = .ok v ∧ v < b.length ∧ b = Spec.pad8000 b.length (b.take v))
    ∨ strip8000 b = .error (.error .badPadding) := by
  unfold strip8000
  exact strip8000Loop_inv b.length (Nat.le_refl _) (by simp)

end Verif
