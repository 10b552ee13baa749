import Verif.Model.Hash
import Verif.Spec.MD
import Verif.Proof.Bytes
import Verif.Proof.Chunks
import Verif.Proof.Words
/-
Buffering by blocks: what the context holds after any data has been added.
-/
namespace Verif

/-- The context reflects the message `m`: full blocks have been processed, the rest is in the
buffer. -/
structure MDRep (n : Nat) (tr : γ → Bytes → γ) (h0 : γ) (m : Bytes) (c : MDBuf γ) : Prop where
  buf : c.buffer.length = n
  split : ∃ bs : List Bytes, ∃ rest : Bytes, m = bs.flatten ++ rest ∧ (∀ b ∈ bs, b.length = n) ∧
    rest.length < n ∧ c.h = bs.foldl tr h0 ∧ c.numbytes = rest.length ∧
    c.buffer.take rest.length = rest

theorem mdRep_init {n : Nat} (hn : 0 < n) (tr : γ → Bytes → γ) (h0 : γ) {buf : Bytes}
    (hb : buf.length = n) : MDRep n tr h0 [] ⟨h0, 0, buf⟩ :=
  ⟨hb, [], [], by simp, by simp, by simpa using hn, rfl, rfl, by simp⟩

theorem splice_zero_take {b x : Bytes} (h : x.length ≤ b.length) :
    (splice b 0 x).take x.length = x := by
  have := take_splice (b := b) (o := 0) (x := x) (by omega)
  simpa using this

theorem mdTail_rep {n : Nat} (hn : 0 < n) {via : Bool} {tr : γ → Bytes → γ} {h0 : γ}
    (data : Bytes) (c : MDBuf γ) (hb : c.buffer.length = n) (bs : List Bytes)
    (hbs : ∀ b ∈ bs, b.length = n) (hh : c.h = bs.foldl tr h0) :
    ∃ c', mdTail n via tr c data = some c' ∧ MDRep n tr h0 (bs.flatten ++ data) c' := by
  induction h : data.length using Nat.strongRecOn generalizing data c bs with
  | _ k ih =>
    rw [mdTail]
    by_cases hd : n ≤ data.length
    · rw [dif_pos ⟨hn, hd⟩]
      have e : bs.flatten ++ data = (bs ++ [data.take n]).flatten ++ data.drop n := by simp
      have hbs' : ∀ b ∈ bs ++ [data.take n], b.length = n := by
        intro b hm
        rcases List.mem_append.1 hm with hm | hm
        · exact hbs b hm
        · simp at hm; subst hm; simp; omega
      cases via with
      | true =>
        have hw : cWrite c.buffer 0 (data.take n) = some (data.take n) := by
          rw [show (0 : Int) = ((0 : Nat) : Int) by rfl, cWrite_ok (by simp; omega),
            splice_full (by simp; omega)]
        rw [if_pos rfl, hw]
        rw [e]
        exact ih (data.drop n).length (by simp; omega) (data.drop n)
          { c with buffer := data.take n, h := tr c.h (data.take n) } (by simp; omega) _ hbs'
          (by simp [hh]) rfl
      | false =>
        rw [if_neg (by decide), e]
        exact ih (data.drop n).length (by simp; omega) (data.drop n)
          { c with h := tr c.h (data.take n) } hb _ hbs' (by simp [hh]) rfl
    · rw [dif_neg (fun x => hd x.2)]
      have hw : cWrite c.buffer 0 data = some (splice c.buffer 0 data) := by
        rw [show (0 : Int) = ((0 : Nat) : Int) by rfl, cWrite_ok (by omega)]
      rw [hw]
      refine ⟨_, rfl, ?_, bs, data, rfl, hbs, by omega, hh, rfl, ?_⟩
      · simp only; rw [splice_length (by omega)]; exact hb
      · exact splice_zero_take (by omega)

theorem mdAdd_rep {n : Nat} (hn : 0 < n) {via : Bool} {tr : γ → Bytes → γ} {h0 : γ} {m : Bytes}
    {c : MDBuf γ} (hr : MDRep n tr h0 m c) (data : Bytes) :
    ∃ c', mdAdd n via tr c data = some c' ∧ MDRep n tr h0 (m ++ data) c' := by
  obtain ⟨hb, bs, rest, rfl, hbs, hlt, hh, hnb, htk⟩ := hr
  rw [mdAdd]
  by_cases h0' : c.numbytes = 0
  · rw [if_neg (by simpa using h0')]
    have hr0 : rest = [] := List.length_eq_zero_iff.1 (by omega)
    subst hr0
    simpa using mdTail_rep hn data c hb bs hbs hh
  · rw [if_pos h0']
    by_cases hd : data.length < n - c.numbytes
    · simp only [hd, if_true]
      rw [cWrite_ok (by omega)]
      refine ⟨_, rfl, ?_, bs, rest ++ data, by simp, hbs, by simp; omega, hh, by simp [hnb], ?_⟩
      · simp only; rw [splice_length (by omega)]; exact hb
      · simp only [List.length_append]
        rw [hnb, take_splice (by omega), htk]
    · simp only [hd, if_false]
      have htl : (data.take (n - c.numbytes)).length = n - c.numbytes := by simp; omega
      rw [cWrite_ok (by omega)]
      have hfull : splice c.buffer c.numbytes (data.take (n - c.numbytes))
          = rest ++ data.take (n - c.numbytes) := by
        have := take_splice (b := c.buffer) (o := c.numbytes) (x := data.take (n - c.numbytes))
          (by omega)
        rw [List.take_of_length_le (by rw [splice_length (by omega)]; omega)] at this
        rw [this, hnb, htk]
      simp only [hfull]
      have e : bs.flatten ++ rest ++ data
          = (bs ++ [rest ++ data.take (n - c.numbytes)]).flatten ++ data.drop (n - c.numbytes) := by
        simp
      rw [e]
      refine mdTail_rep hn _ _ (by simp; omega) _ ?_ (by simp [hh])
      intro b hm
      rcases List.mem_append.1 hm with hm | hm
      · exact hbs b hm
      · simp at hm; subst hm; simp; omega

theorem chunks_flatten_append {n : Nat} (hn : 0 < n) (bs : List (List α))
    (h : ∀ b ∈ bs, b.length = n) (l : List α) : chunks n (bs.flatten ++ l) = bs ++ chunks n l := by
  induction bs with
  | nil => simp
  | cons b bs ih =>
    rw [List.flatten_cons, List.append_assoc, chunks_append hn (h b List.mem_cons_self),
      ih (fun b hb => h b (List.mem_cons_of_mem _ hb))]
    rfl

theorem chunks_self {n : Nat} (hn : 0 < n) {a : List α} (ha : a.length = n) : chunks n a = [a] := by
  have := chunks_append hn (l := ([] : List α)) ha
  simpa [chunks_nil] using this

theorem splice_prefix {b x p : Bytes} {o : Nat} (hp : b.take o = p)
    (h : o + x.length = b.length) : splice b o x = p ++ x := by
  have := take_splice (b := b) (o := o) (x := x) (by omega)
  rw [List.take_of_length_le (by rw [splice_length (by omega)]; omega)] at this
  rw [this, hp]

theorem mdFinish_rep {n l : Nat} (hl : l < n) {tr : γ → Bytes → γ} {h0 : γ} {m : Bytes}
    {c : MDBuf γ} (hr : MDRep n tr h0 m c) {len : Bytes} (hlen : len.length = l) :
    ∃ c', mdFinish n l tr c len = some c' ∧
      c'.h = Spec.merkleDamgard n tr h0 (Spec.mdPad n m len) := by
  obtain ⟨hb, bs, rest, rfl, hbs, hlt, hh, hnb, htk⟩ := hr
  have hn : 0 < n := by omega
  have hmod : ((bs.flatten ++ rest).length + 1 + len.length) % n = (rest.length + 1 + l) % n := by
    have hm : bs.flatten.length = n * bs.length := by
      clear hh
      induction bs with
      | nil => simp
      | cons b bs ih =>
        rw [List.flatten_cons, List.length_append, ih (fun b hb => hbs b (List.mem_cons_of_mem _ hb)),
          hbs b List.mem_cons_self, List.length_cons, Nat.mul_succ]
        omega
    rw [List.length_append, hm, hlen, show n * bs.length + rest.length + 1 + l
      = (rest.length + 1 + l) + n * bs.length by omega, Nat.add_mul_mod_self_left]
  rw [mdFinish, hnb]
  have hw1 : cWrite c.buffer (rest.length : Int) [0x80] = some (splice c.buffer rest.length [0x80]) :=
    cWrite_ok (by simp; omega)
  have hl1 : (splice c.buffer rest.length [0x80]).length = n := by
    rw [splice_length (by simp; omega)]; exact hb
  have ht1 : (splice c.buffer rest.length [0x80]).take (rest.length + 1) = rest ++ [0x80] := by
    have := take_splice (b := c.buffer) (o := rest.length) (x := [0x80]) (by simp; omega)
    simpa [htk] using this
  rw [hw1]
  simp only [Option.bind_eq_bind, Option.bind_some]
  generalize splice c.buffer rest.length [0x80] = b1 at hl1 ht1
  -- the last block, given a buffer whose first `i` bytes are `p`
  have last : ∀ (b p : Bytes) (i : Nat) (h : γ), b.length = n → b.take i = p → p.length = i →
      i ≤ n - l →
      (((cWrite b (i : Int) (List.replicate (n - l - i) 0)).bind fun b =>
        (cWrite b ((n - l : Nat) : Int) len).bind fun b =>
          some ({ h := tr h b, numbytes := rest.length, buffer := b } : MDBuf γ))
        = some ⟨tr h (p ++ List.replicate (n - l - i) 0 ++ len), rest.length,
            p ++ List.replicate (n - l - i) 0 ++ len⟩) := by
    intro b p i h hbl htp hpl hi
    have hin : i + (List.replicate (n - l - i) (0 : Byte)).length = n - l := by simp; omega
    rw [cWrite_ok (by rw [hin]; omega)]
    simp only [Option.bind_some]
    have hl2 : (splice b i (List.replicate (n - l - i) 0)).length = n := by
      rw [splice_length (by rw [hin]; omega)]; exact hbl
    have ht2 : (splice b i (List.replicate (n - l - i) 0)).take (n - l)
        = p ++ List.replicate (n - l - i) 0 := by
      have := take_splice (b := b) (o := i) (x := List.replicate (n - l - i) 0) (by rw [hin]; omega)
      rw [hin, htp] at this
      exact this
    rw [cWrite_ok (by omega)]
    simp only [Option.bind_some]
    rw [splice_prefix ht2 (by omega)]
  by_cases hc : rest.length + 1 > n - l
  · simp only [hc, if_true]
    have hw : cWrite b1 ((rest.length + 1 : Nat) : Int) (List.replicate (n - (rest.length + 1)) 0)
        = some (rest ++ [0x80] ++ List.replicate (n - (rest.length + 1)) 0) := by
      rw [cWrite_ok (by simp; omega), splice_prefix ht1 (by simp; omega)]
    simp only [Int.natCast_add, Int.cast_ofNat_Int] at hw ⊢
    rw [hw]
    simp only [Option.pure_def, Option.bind_some]
    refine ⟨_, last _ [] 0 _ ?_ (by simp) rfl (by omega), ?_⟩
    · simp; omega
    · simp only [List.nil_append, Spec.merkleDamgard, Spec.mdPad]
      have hk : (n - ((bs.flatten ++ rest).length + 1 + len.length) % n) % n
          = (n - (rest.length + 1)) + (n - l) := by
        rw [hmod]
        have : (rest.length + 1 + l) % n = rest.length + 1 + l - n := by
          rw [Nat.mod_eq_sub_mod (by omega), Nat.mod_eq_of_lt (by omega)]
        rw [this]
        by_cases h2 : rest.length + 1 + l - n = 0
        · omega
        · rw [Nat.mod_eq_of_lt (by omega)]; omega
      rw [hk, ← List.replicate_append_replicate]
      rw [show bs.flatten ++ rest ++ [(0x80 : Byte)] ++ (List.replicate (n - (rest.length + 1)) 0
          ++ List.replicate (n - l) 0) ++ len
        = bs.flatten ++ ((rest ++ [(0x80 : Byte)] ++ List.replicate (n - (rest.length + 1)) 0)
          ++ (List.replicate (n - l) 0 ++ len)) by simp only [List.append_assoc]]
      rw [chunks_flatten_append hn bs hbs, chunks_append hn (by simp; omega),
        chunks_self hn (by simp; omega)]
      simp [hh]
  · simp only [hc, if_false]
    simp only [Option.pure_def, Option.bind_some]
    have := last b1 (rest ++ [0x80]) (rest.length + 1) c.h hl1 ht1 (by simp) (by omega)
    refine ⟨_, this, ?_⟩
    simp only [Spec.merkleDamgard, Spec.mdPad]
    have hk : (n - ((bs.flatten ++ rest).length + 1 + len.length) % n) % n
        = n - l - (rest.length + 1) := by
      rw [hmod]
      by_cases h2 : rest.length + 1 + l = n
      · rw [h2, Nat.mod_self, Nat.sub_zero, Nat.mod_self]; omega
      · have h3 : (rest.length + 1 + l) % n = rest.length + 1 + l := Nat.mod_eq_of_lt (by omega)
        rw [h3, Nat.mod_eq_of_lt (by omega)]; omega
    rw [hk]
    rw [show bs.flatten ++ rest ++ [(0x80 : Byte)] ++ List.replicate (n - l - (rest.length + 1)) 0
        ++ len = bs.flatten ++ (rest ++ [(0x80 : Byte)]
          ++ List.replicate (n - l - (rest.length + 1)) 0 ++ len) by simp]
    rw [chunks_flatten_append hn bs hbs, chunks_self hn (by simp; omega)]
    simp [hh]

/-! ### Message length -/

/-- The number kept in the two length words. -/
def lenVal (w : Nat) (hi lo : BitVec w) : Nat := hi.toNat * 2 ^ w + lo.toNat

theorem lenAdd_val {w : Nat} (hw : w = 32 ∨ w = 64) (hi lo : BitVec w) (len : Nat)
    (hlen : len < 2 ^ 64) :
    lenVal w (lenAdd w hi lo len).1 (lenAdd w hi lo len).2
      = (lenVal w hi lo + 8 * len) % 2 ^ (2 * w) := by
  have h1 := hi.isLt
  have h2 := lo.isLt
  simp only [lenVal, lenAdd]
  have e1 : (BitVec.ofNat 64 len <<< 3).toNat = len * 8 % 2 ^ 64 := by
    simp [BitVec.toNat_shiftLeft, Nat.shiftLeft_eq]
  rcases hw with rfl | rfl
  · have e2 : (((BitVec.ofNat 64 len) >>> (32 - 3)).setWidth 32).toNat = len / 2 ^ 29 % 2 ^ 32 := by
      simp [Nat.shiftRight_eq_div_pow, Nat.mod_eq_of_lt hlen]
    have e3 : ((BitVec.ofNat 64 len <<< 3).setWidth 32).toNat = len * 8 % 2 ^ 32 := by
      rw [BitVec.toNat_setWidth, e1]; omega
    generalize (BitVec.ofNat 64 len <<< 3).setWidth 32 = A at *
    generalize ((BitVec.ofNat 64 len) >>> (32 - 3)).setWidth 32 = B at *
    split
    · rename_i h
      rw [BitVec.lt_def, BitVec.toNat_add, e3] at h
      rw [BitVec.toNat_add, BitVec.toNat_add, BitVec.toNat_add, e2, e3]
      have h1' : (1 : BitVec 32).toNat = 1 := rfl
      rw [h1']
      omega
    · rename_i h
      rw [BitVec.lt_def, BitVec.toNat_add, e3] at h
      rw [BitVec.toNat_add, BitVec.toNat_add, e2, e3]
      omega
  · have e2 : (((BitVec.ofNat 64 len) >>> (64 - 3)).setWidth 64).toNat = len / 2 ^ 61 := by
      simp [Nat.shiftRight_eq_div_pow, Nat.mod_eq_of_lt hlen]
    have e3 : ((BitVec.ofNat 64 len <<< 3).setWidth 64).toNat = len * 8 % 2 ^ 64 := by
      rw [BitVec.toNat_setWidth, e1]; omega
    generalize (BitVec.ofNat 64 len <<< 3).setWidth 64 = A at *
    generalize ((BitVec.ofNat 64 len) >>> (64 - 3)).setWidth 64 = B at *
    split
    · rename_i h
      rw [BitVec.lt_def, BitVec.toNat_add, e3] at h
      rw [BitVec.toNat_add, BitVec.toNat_add, BitVec.toNat_add, e2, e3]
      have h1' : (1 : BitVec 64).toNat = 1 := rfl
      rw [h1']
      omega
    · rename_i h
      rw [BitVec.lt_def, BitVec.toNat_add, e3] at h
      rw [BitVec.toNat_add, BitVec.toNat_add, e2, e3]
      omega

/-! ### Byte order -/

theorem leNat_append (a b : Bytes) : leNat (a ++ b) = leNat a + 256 ^ a.length * leNat b := by
  induction a with
  | nil => simp [leNat]
  | cons x xs ih =>
    simp only [List.cons_append, leNat, ih, List.length_cons]
    rw [Nat.pow_succ', Nat.mul_add, Nat.mul_assoc, Nat.add_assoc]

theorem leNat_reverse (b : Bytes) : leNat b.reverse = beNat b := by
  induction b with
  | nil => rfl
  | cons x xs ih =>
    rw [List.reverse_cons, leNat_append, ih, beNat, List.length_reverse]
    simp [leNat, Nat.mul_comm, Nat.add_comm]

theorem natToLE_append (n k x : Nat) :
    natToLE (n + k) x = natToLE n x ++ natToLE k (x / 256 ^ n) := by
  induction n generalizing x with
  | zero => simp [natToLE]
  | succ n ih =>
    rw [show n + 1 + k = (n + k) + 1 by omega]
    simp only [natToLE, List.cons_append, ih]
    rw [Nat.div_div_eq_div_mul, ← Nat.pow_succ' (n := n) (m := 256)]

theorem natToLE_reverse (n x : Nat) : (natToLE n x).reverse = natToBE n x := by
  induction n with
  | zero => rfl
  | succ n ih =>
    rw [natToLE_append n 1, List.reverse_append, ih]
    simp [natToLE, natToBE]

theorem wordsOfMem_copyAndSwap {k w : Nat} (hk : 0 < k) {b : Bytes} (hd : k ∣ b.length) :
    wordsOfMem k w (copyAndSwap k b) = (chunks k b).map fun c => BitVec.ofNat w (beNat c) := by
  have hl := chunks_length_of_dvd hk b hd
  rw [wordsOfMem, copyAndSwap, chunks_of_flatten hk]
  · rw [List.map_map]
    apply List.map_congr_left
    intro c _
    simp [leNat_reverse]
  · intro c hc
    obtain ⟨d, hd, rfl⟩ := List.mem_map.1 hc
    simpa using hl d hd

theorem copyAndSwap_memOfWords {k w : Nat} (hk : 0 < k) (ws : List (BitVec w)) :
    copyAndSwap k (memOfWords k ws) = (ws.map fun x => natToBE k x.toNat).flatten := by
  rw [copyAndSwap, memOfWords, chunks_of_flatten hk]
  · rw [List.map_map]
    congr 1
    apply List.map_congr_left
    intro x _
    simp [natToLE_reverse]
  · intro c hc
    obtain ⟨x, _, rfl⟩ := List.mem_map.1 hc
    simp

theorem natToBE_append (n k x : Nat) :
    natToBE (n + k) x = natToBE n (x / 256 ^ k) ++ natToBE k x := by
  rw [← natToLE_reverse, Nat.add_comm, natToLE_append, List.reverse_append, natToLE_reverse,
    natToLE_reverse]

theorem natToBE_mod (n x : Nat) : natToBE n (x % 256 ^ n) = natToBE n x := by
  rw [← natToLE_reverse, ← natToLE_reverse]
  congr 1
  induction n generalizing x with
  | zero => rfl
  | succ n ih =>
    simp only [natToLE]
    congr 1
    · apply BitVec.eq_of_toNat_eq
      rw [BitVec.toNat_ofNat, BitVec.toNat_ofNat, Nat.pow_succ', show (2 : Nat) ^ 8 = 256 by rfl,
        Nat.mod_mul_right_mod]
    · rw [Nat.pow_succ', Nat.mod_mul_right_div_self]
      exact ih (x / 256)

/-- The length field written big-endian from the two words. -/
theorem copyAndSwap_len {k w : Nat} (hk : 0 < k) (hw : w = 8 * k) (hi lo : BitVec w) (x : Nat)
    (h : lenVal w hi lo = x % 2 ^ (2 * w)) :
    copyAndSwap k (memOfWords k [hi, lo]) = natToBE (2 * k) x := by
  have e : 2 ^ (2 * w) = 256 ^ (2 * k) := by
    rw [show (256 : Nat) = 2 ^ 8 by rfl, ← Nat.pow_mul, hw]; congr 1; omega
  have e1 : 2 ^ w = 256 ^ k := by
    rw [show (256 : Nat) = 2 ^ 8 by rfl, ← Nat.pow_mul, hw]
  rw [copyAndSwap_memOfWords hk, ← natToBE_mod, ← e, ← h, lenVal, Nat.two_mul, natToBE_append, e1]
  have hl := lo.isLt
  rw [e1] at hl
  have hp : 0 < 256 ^ k := Nat.pow_pos (by decide)
  rw [Nat.add_comm, Nat.add_mul_div_right _ _ hp, Nat.div_eq_of_lt hl, Nat.zero_add]
  rw [← natToBE_mod k (lo.toNat + _), Nat.add_mul_mod_self_right, Nat.mod_eq_of_lt hl]
  simp

end Verif
