import Verif.Model.SipHash
import Verif.Spec.SipHash
import Verif.Proof.Hash
import Verif.Proof.MD
/-
The C code of SipHash computes the function of its designers.
-/
namespace Verif
open Spec

def sipV (s : SipState) : SipV := ⟨s.v0, s.v1, s.v2, s.v3⟩

theorem sipRound_eq (s : SipState) : sipV (sipRound s) = SipRound (sipV s) := by
  simp [sipV, sipRound, SipRound, rol64_eq]

theorem sipMix_eq (s : SipState) (x : W64) : sipV (sipMix s x) = sipCompress (sipV s) x := by
  have h : ∀ s : SipState, SipRounds 2 (sipV s) = sipV (sipRound (sipRound s)) := by
    intro s; rw [sipRound_eq, sipRound_eq]; rfl
  have h2 := h { s with v3 := s.v3 ^^^ x }
  unfold sipCompress
  rw [show ({ sipV s with v3 := (sipV s).v3 ^^^ x } : SipV) = sipV { s with v3 := s.v3 ^^^ x } by rfl,
    h2]
  rfl

theorem sipBlock_eq (s : SipState) {b : Bytes} (h : b.length = 8) :
    sipV (sipBlock s b) = sipCompress (sipV s) (BitVec.ofNat 64 (leNat b)) := by
  rw [sipBlock, sipMix_eq, le64or_eq (by omega), List.take_of_length_le (by omega)]

theorem sipFold_eq (bs : List Bytes) (h : ∀ b ∈ bs, b.length = 8) (s : SipState) :
    sipV (bs.foldl sipBlock s)
      = (bs.map fun b => BitVec.ofNat 64 (leNat b)).foldl sipCompress (sipV s) := by
  induction bs generalizing s with
  | nil => rfl
  | cons b bs ih =>
    rw [List.foldl_cons, ih (fun b hb => h b (List.mem_cons_of_mem _ hb)),
      sipBlock_eq _ (h b List.mem_cons_self)]
    rfl

theorem sipAdd_eq (c : SipCtx) (data : Bytes) (h : c.buf.buffer.length = 8)
    (hn : c.buf.numbytes < 8) :
    sipAdd c data = (mdAdd 8 false sipBlock c.buf data).map
      fun buf => ⟨buf, c.len8 + BitVec.ofNat 8 data.length⟩ := by
  unfold sipAdd mdAdd
  simp only
  by_cases h0 : c.buf.numbytes = 0
  · simp only [h0, Nat.lt_irrefl, gt_iff_lt, if_false, ne_eq, not_true]
    split
    · next hd =>
      rw [mdTail, dif_neg (by omega)]
      rw [show ((0 : Nat) : Int) = 0 by rfl]
      split
      · next e => rw [e]; rfl
      · next e => rw [e]; simp
    · rfl
  · rw [if_pos (show c.buf.numbytes ≠ 0 from h0)]
    split
    · split
      · next e => rw [e]; rfl
      · next e => rw [e]; rfl
    · rw [if_pos (by omega)]
      split
      · next e => rw [e]; rfl
      · next e => rw [e]

theorem sipLast_eq {len8 : BitVec 8} {buffer rest : Bytes} (hr : rest.length < 8)
    (hl : len8.toNat % 8 = rest.length) (hb : buffer.take rest.length = rest) :
    sipLast len8 buffer
      = BitVec.ofNat 64 (leNat (rest ++ List.replicate (7 - rest.length) 0 ++ [len8])) := by
  have hb' : ∀ i, i < rest.length → byteAt buffer i = byteAt rest i := by
    intro i hi
    unfold byteAt
    rw [← hb]
    simp [List.getElem?_take, hi]
  have hlen : (rest ++ List.replicate (7 - rest.length) 0 ++ [len8]).length = 8 := by simp; omega
  have e := le64or_eq (b := rest ++ List.replicate (7 - rest.length) 0 ++ [len8]) (by omega)
  rw [List.take_of_length_le (by omega)] at e
  rw [← e]
  unfold sipLast
  have h7 : (len8 &&& 7).toNat = rest.length := by
    rw [BitVec.toNat_and, ← hl]; exact Nat.and_two_pow_sub_one_eq_mod len8.toNat 3
  rw [h7]
  clear e hlen h7 hl hb
  have hz : ∀ n : Nat, (0 : Byte).setWidth 64 <<< n = (0#64) := by intro n; simp
  match rest, hr with
  | [], _ =>
    show _ = (0 : Byte).setWidth 64 ||| ((0 : Byte).setWidth 64 <<< 8) ||| ((0 : Byte).setWidth 64 <<< 16) ||| ((0 : Byte).setWidth 64 <<< 24) ||| ((0 : Byte).setWidth 64 <<< 32) ||| ((0 : Byte).setWidth 64 <<< 40) ||| ((0 : Byte).setWidth 64 <<< 48) ||| (len8.setWidth 64 <<< 56)
    rw [show (0 : Byte).setWidth 64 = (0#64) by rfl]
    simp
  | [a], _ =>
    have h0 : byteAt buffer 0 = a := hb' 0 (by simp)
    rw [show (List.range ([a] : Bytes).length).reverse = [0] from rfl]
    simp only [List.foldl_cons, List.foldl_nil, h0]
    show _ = a.setWidth 64 ||| ((0 : Byte).setWidth 64 <<< 8) ||| ((0 : Byte).setWidth 64 <<< 16) ||| ((0 : Byte).setWidth 64 <<< 24) ||| ((0 : Byte).setWidth 64 <<< 32) ||| ((0 : Byte).setWidth 64 <<< 40) ||| ((0 : Byte).setWidth 64 <<< 48) ||| (len8.setWidth 64 <<< 56)
    simp only [hz, BitVec.or_zero]
    simp only [Nat.mul_zero, BitVec.shiftLeft_zero, Nat.mul_one, Nat.reduceMul]
    generalize len8.setWidth 64 <<< 56 = w
    generalize BitVec.setWidth 64 a = x0
    ac_rfl
  | [a, b], _ =>
    have h0 : byteAt buffer 0 = a := hb' 0 (by simp)
    have h1 : byteAt buffer 1 = b := hb' 1 (by simp)
    rw [show (List.range ([a, b] : Bytes).length).reverse = [1, 0] from rfl]
    simp only [List.foldl_cons, List.foldl_nil, h0, h1]
    show _ = a.setWidth 64 ||| (b.setWidth 64 <<< 8) ||| ((0 : Byte).setWidth 64 <<< 16) ||| ((0 : Byte).setWidth 64 <<< 24) ||| ((0 : Byte).setWidth 64 <<< 32) ||| ((0 : Byte).setWidth 64 <<< 40) ||| ((0 : Byte).setWidth 64 <<< 48) ||| (len8.setWidth 64 <<< 56)
    simp only [hz, BitVec.or_zero]
    simp only [Nat.mul_zero, BitVec.shiftLeft_zero, Nat.mul_one, Nat.reduceMul]
    generalize len8.setWidth 64 <<< 56 = w
    generalize BitVec.setWidth 64 a = x0
    generalize BitVec.setWidth 64 b <<< 8 = x1
    ac_rfl
  | [a, b, c], _ =>
    have h0 : byteAt buffer 0 = a := hb' 0 (by simp)
    have h1 : byteAt buffer 1 = b := hb' 1 (by simp)
    have h2 : byteAt buffer 2 = c := hb' 2 (by simp)
    rw [show (List.range ([a, b, c] : Bytes).length).reverse = [2, 1, 0] from rfl]
    simp only [List.foldl_cons, List.foldl_nil, h0, h1, h2]
    show _ = a.setWidth 64 ||| (b.setWidth 64 <<< 8) ||| (c.setWidth 64 <<< 16) ||| ((0 : Byte).setWidth 64 <<< 24) ||| ((0 : Byte).setWidth 64 <<< 32) ||| ((0 : Byte).setWidth 64 <<< 40) ||| ((0 : Byte).setWidth 64 <<< 48) ||| (len8.setWidth 64 <<< 56)
    simp only [hz, BitVec.or_zero]
    simp only [Nat.mul_zero, BitVec.shiftLeft_zero, Nat.mul_one, Nat.reduceMul]
    generalize len8.setWidth 64 <<< 56 = w
    generalize BitVec.setWidth 64 a = x0
    generalize BitVec.setWidth 64 b <<< 8 = x1
    generalize BitVec.setWidth 64 c <<< 16 = x2
    ac_rfl
  | [a, b, c, d], _ =>
    have h0 : byteAt buffer 0 = a := hb' 0 (by simp)
    have h1 : byteAt buffer 1 = b := hb' 1 (by simp)
    have h2 : byteAt buffer 2 = c := hb' 2 (by simp)
    have h3 : byteAt buffer 3 = d := hb' 3 (by simp)
    rw [show (List.range ([a, b, c, d] : Bytes).length).reverse = [3, 2, 1, 0] from rfl]
    simp only [List.foldl_cons, List.foldl_nil, h0, h1, h2, h3]
    show _ = a.setWidth 64 ||| (b.setWidth 64 <<< 8) ||| (c.setWidth 64 <<< 16) ||| (d.setWidth 64 <<< 24) ||| ((0 : Byte).setWidth 64 <<< 32) ||| ((0 : Byte).setWidth 64 <<< 40) ||| ((0 : Byte).setWidth 64 <<< 48) ||| (len8.setWidth 64 <<< 56)
    simp only [hz, BitVec.or_zero]
    simp only [Nat.mul_zero, BitVec.shiftLeft_zero, Nat.mul_one, Nat.reduceMul]
    generalize len8.setWidth 64 <<< 56 = w
    generalize BitVec.setWidth 64 a = x0
    generalize BitVec.setWidth 64 b <<< 8 = x1
    generalize BitVec.setWidth 64 c <<< 16 = x2
    generalize BitVec.setWidth 64 d <<< 24 = x3
    ac_rfl
  | [a, b, c, d, e], _ =>
    have h0 : byteAt buffer 0 = a := hb' 0 (by simp)
    have h1 : byteAt buffer 1 = b := hb' 1 (by simp)
    have h2 : byteAt buffer 2 = c := hb' 2 (by simp)
    have h3 : byteAt buffer 3 = d := hb' 3 (by simp)
    have h4 : byteAt buffer 4 = e := hb' 4 (by simp)
    rw [show (List.range ([a, b, c, d, e] : Bytes).length).reverse = [4, 3, 2, 1, 0] from rfl]
    simp only [List.foldl_cons, List.foldl_nil, h0, h1, h2, h3, h4]
    show _ = a.setWidth 64 ||| (b.setWidth 64 <<< 8) ||| (c.setWidth 64 <<< 16) ||| (d.setWidth 64 <<< 24) ||| (e.setWidth 64 <<< 32) ||| ((0 : Byte).setWidth 64 <<< 40) ||| ((0 : Byte).setWidth 64 <<< 48) ||| (len8.setWidth 64 <<< 56)
    simp only [hz, BitVec.or_zero]
    simp only [Nat.mul_zero, BitVec.shiftLeft_zero, Nat.mul_one, Nat.reduceMul]
    generalize len8.setWidth 64 <<< 56 = w
    generalize BitVec.setWidth 64 a = x0
    generalize BitVec.setWidth 64 b <<< 8 = x1
    generalize BitVec.setWidth 64 c <<< 16 = x2
    generalize BitVec.setWidth 64 d <<< 24 = x3
    generalize BitVec.setWidth 64 e <<< 32 = x4
    ac_rfl
  | [a, b, c, d, e, f], _ =>
    have h0 : byteAt buffer 0 = a := hb' 0 (by simp)
    have h1 : byteAt buffer 1 = b := hb' 1 (by simp)
    have h2 : byteAt buffer 2 = c := hb' 2 (by simp)
    have h3 : byteAt buffer 3 = d := hb' 3 (by simp)
    have h4 : byteAt buffer 4 = e := hb' 4 (by simp)
    have h5 : byteAt buffer 5 = f := hb' 5 (by simp)
    rw [show (List.range ([a, b, c, d, e, f] : Bytes).length).reverse = [5, 4, 3, 2, 1, 0] from rfl]
    simp only [List.foldl_cons, List.foldl_nil, h0, h1, h2, h3, h4, h5]
    show _ = a.setWidth 64 ||| (b.setWidth 64 <<< 8) ||| (c.setWidth 64 <<< 16) ||| (d.setWidth 64 <<< 24) ||| (e.setWidth 64 <<< 32) ||| (f.setWidth 64 <<< 40) ||| ((0 : Byte).setWidth 64 <<< 48) ||| (len8.setWidth 64 <<< 56)
    simp only [hz, BitVec.or_zero]
    simp only [Nat.mul_zero, BitVec.shiftLeft_zero, Nat.mul_one, Nat.reduceMul]
    generalize len8.setWidth 64 <<< 56 = w
    generalize BitVec.setWidth 64 a = x0
    generalize BitVec.setWidth 64 b <<< 8 = x1
    generalize BitVec.setWidth 64 c <<< 16 = x2
    generalize BitVec.setWidth 64 d <<< 24 = x3
    generalize BitVec.setWidth 64 e <<< 32 = x4
    generalize BitVec.setWidth 64 f <<< 40 = x5
    ac_rfl
  | [a, b, c, d, e, f, g], _ =>
    have h0 : byteAt buffer 0 = a := hb' 0 (by simp)
    have h1 : byteAt buffer 1 = b := hb' 1 (by simp)
    have h2 : byteAt buffer 2 = c := hb' 2 (by simp)
    have h3 : byteAt buffer 3 = d := hb' 3 (by simp)
    have h4 : byteAt buffer 4 = e := hb' 4 (by simp)
    have h5 : byteAt buffer 5 = f := hb' 5 (by simp)
    have h6 : byteAt buffer 6 = g := hb' 6 (by simp)
    rw [show (List.range ([a, b, c, d, e, f, g] : Bytes).length).reverse = [6, 5, 4, 3, 2, 1, 0] from rfl]
    simp only [List.foldl_cons, List.foldl_nil, h0, h1, h2, h3, h4, h5, h6]
    show _ = a.setWidth 64 ||| (b.setWidth 64 <<< 8) ||| (c.setWidth 64 <<< 16) ||| (d.setWidth 64 <<< 24) ||| (e.setWidth 64 <<< 32) ||| (f.setWidth 64 <<< 40) ||| (g.setWidth 64 <<< 48) ||| (len8.setWidth 64 <<< 56)
    simp only [Nat.mul_zero, BitVec.shiftLeft_zero, Nat.mul_one, Nat.reduceMul]
    generalize len8.setWidth 64 <<< 56 = w
    generalize BitVec.setWidth 64 a = x0
    generalize BitVec.setWidth 64 b <<< 8 = x1
    generalize BitVec.setWidth 64 c <<< 16 = x2
    generalize BitVec.setWidth 64 d <<< 24 = x3
    generalize BitVec.setWidth 64 e <<< 32 = x4
    generalize BitVec.setWidth 64 f <<< 40 = x5
    generalize BitVec.setWidth 64 g <<< 48 = x6
    ac_rfl

/-- The context reflects the message `m`. -/
def SipRep (h0 : SipState) (m : Bytes) (c : SipCtx) : Prop :=
  MDRep 8 sipBlock h0 m c.buf ∧ c.len8 = BitVec.ofNat 8 m.length

/-- The state before finalization. -/
theorem sip_state {h0 : SipState} {m : Bytes} {c : SipCtx} (h : SipRep h0 m c) :
    sipV (sipMix c.buf.h (sipLast c.len8 c.buf.buffer)) = (sipWords m).foldl sipCompress (sipV h0) := by
  obtain ⟨⟨hb, bs, rest, rfl, hbs, hlt, hst, hnb, htk⟩, hl8⟩ := h
  have hmod : (bs.flatten ++ rest).length % 8 = rest.length := by
    rw [List.length_append, flatten_length_of bs hbs, Nat.mul_add_mod, Nat.mod_eq_of_lt hlt]
  unfold sipWords
  rw [hmod, List.append_assoc, List.append_assoc,
    chunks_flatten_append (by decide) _ hbs, ← List.append_assoc,
    chunks_self (by decide) (by simp; omega), List.map_append, List.foldl_append, ← sipFold_eq _ hbs,
    ← hst, sipMix_eq, sipLast_eq hlt (by rw [hl8, BitVec.toNat_ofNat]; omega) htk, hl8]
  rfl

theorem sipFinalRounds_eq (s : SipState) : sipV (sipFinalRounds s).1 = SipRounds 4 (sipV s) := by
  simp only [sipFinalRounds, sipRound_eq]; rfl

theorem sipUpdate_rep {h0 : SipState} {m : Bytes} {c : SipCtx} (h : SipRep h0 m c) (d : Bytes) :
    ∃ c', sipAdd c d = some c' ∧ SipRep h0 (m ++ d) c' := by
  obtain ⟨hm, hl⟩ := h
  obtain ⟨b, hb, hr⟩ := mdAdd_rep (n := 8) (by decide) (via := false) hm d
  have hn : c.buf.numbytes < 8 := by
    obtain ⟨_, _, rest, _, _, h1, _, h2, _⟩ := hm; omega
  refine ⟨⟨b, c.len8 + BitVec.ofNat 8 d.length⟩, ?_, hr, ?_⟩
  · rw [sipAdd_eq c d hm.buf hn, hb]; rfl
  · rw [hl, List.length_append, BitVec.ofNat_add]

theorem sip_init_v (key : Bytes) (h : key.length = 16) (outlen : Nat) (buf0 : Bytes) :
    sipV (sipInit key outlen buf0).buf.h
      = if outlen = 16 then { sipStart key with v1 := (sipStart key).v1 ^^^ 0xee } else sipStart key := by
  have e0 := le64or_eq (b := key) (by omega)
  have e1 := le64or_eq (b := key.drop 8) (by simp; omega)
  unfold sipInit sipStart
  simp only [e0, e1]
  split <;> simp [sipV, BitVec.xor_comm]

theorem sipRep_init (key : Bytes) (outlen : Nat) {buf0 : Bytes} (hb : buf0.length = 8) :
    SipRep (sipInit key outlen buf0).buf.h [] (sipInit key outlen buf0) :=
  ⟨mdRep_init (by decide) _ _ hb, rfl⟩

theorem sip64_spec (key : Bytes) (h : key.length = 16) (buf0 : Bytes) :
    StubSpec (SipRep (sipInit key 8 buf0).buf.h) sipAdd (sipFinal 8) (SipHash64 key) where
  update m c d hr _ := sipUpdate_rep hr d
  final m c hr := by
    have hs := sip_state hr
    rw [sip_init_v key h, if_neg (by decide)] at hs
    unfold sipFinal SipHash64
    simp only
    rw [← hs]
    generalize sipMix c.buf.h (sipLast c.len8 c.buf.buffer) = st
    have hf := sipFinalRounds_eq { st with v2 := st.v2 ^^^ 0xff }
    have e : sipV { st with v2 := st.v2 ^^^ 0xff } = { sipV st with v2 := (sipV st).v2 ^^^ 0xff } := rfl
    rw [e] at hf
    rw [← hf]
    refine ⟨{ c with buf := { c.buf with h := (sipFinalRounds { st with v2 := st.v2 ^^^ 0xff }).1 } }, ?_⟩
    simp only [if_neg (show ¬ (8 = 16) by decide)]
    rw [show (0 : Int) = ((0 : Nat) : Int) by rfl, cWrite_ok (by simp [toLE64]), toLE64_eq,
      splice_full (by simp)]
    rfl

theorem sip128_spec (key : Bytes) (h : key.length = 16) (buf0 : Bytes) :
    StubSpec (SipRep (sipInit key 16 buf0).buf.h) sipAdd (sipFinal 16) (SipHash128 key) where
  update m c d hr _ := sipUpdate_rep hr d
  final m c hr := by
    have hs := sip_state hr
    rw [sip_init_v key h, if_pos rfl] at hs
    unfold sipFinal SipHash128
    simp only [if_true]
    rw [← hs]
    generalize sipMix c.buf.h (sipLast c.len8 c.buf.buffer) = st
    have hf := sipFinalRounds_eq { st with v2 := st.v2 ^^^ 0xee }
    have e : sipV { st with v2 := st.v2 ^^^ 0xee } = { sipV st with v2 := (sipV st).v2 ^^^ 0xee } := rfl
    rw [e] at hf
    rw [← hf]
    generalize hst2 : sipFinalRounds { st with v2 := st.v2 ^^^ 0xEE } = st2 at *
    have hf2 := sipFinalRounds_eq { st2.1 with v1 := st2.1.v1 ^^^ 0xdd }
    have e : sipV { st2.1 with v1 := st2.1.v1 ^^^ 0xdd }
      = { sipV st2.1 with v1 := (sipV st2.1).v1 ^^^ 0xdd } := rfl
    rw [e] at hf2
    rw [← hf2]
    have w1 : cWrite (List.replicate 16 0) 0 (toLE64 st2.2)
        = some (toLE64 st2.2 ++ List.replicate 8 0) := by
      rw [show (0 : Int) = ((0 : Nat) : Int) by rfl, cWrite_ok (by simp [toLE64])]
      simp [splice, toLE64]
    have w2 : ∀ y : W64, cWrite (toLE64 st2.2 ++ List.replicate 8 0) 8 (toLE64 y)
        = some (toLE64 st2.2 ++ toLE64 y) := by
      intro y
      rw [show (8 : Int) = ((8 : Nat) : Int) by rfl, cWrite_ok (by simp [toLE64])]
      simp [splice, toLE64]
    rw [w1]
    simp only
    rw [w2]
    refine ⟨{ c with buf := { c.buf with
      h := (sipFinalRounds { st2.1 with v1 := st2.1.v1 ^^^ 0xDD }).1 } }, ?_⟩
    simp only
    rw [toLE64_eq, toLE64_eq]
    subst hst2
    rfl

end Verif
