import Verif.Model.Aead
import Verif.Spec.Aead
import Verif.Proof.BlockRun
import Verif.Proof.Block
import Verif.Proof.Pclmul
import Verif.Proof.MD
/-
AES-GCM against SP 800-38D.
-/
namespace Verif

open Spec Spec.GCM

/-- `h` is the prepared form of the multiplier `H`. -/
def GhashFor (h : GhashKey) (H : Bytes) : Prop :=
  H.length = 16 ∧ ∀ x : Bytes, x.length = 16 → cGhashMult h x = some (ghashMul x H)

theorem ghashFor_init (pclmul : Bool) {H : Bytes} (hH : H.length = 16) :
    ∃ h, cGhashInit pclmul H = some h ∧ GhashFor h H := by
  have h1 : ¬ H.length < 16 := by omega
  cases pclmul
  · exact ⟨.sw (ghashInit H), by simp [cGhashInit, h1], hH, fun x hx => by
      simp [cGhashMult, hx, ghashMult_ok hH hx]⟩
  · exact ⟨.hw H, by simp [cGhashInit, h1], hH, fun x hx => by
      simp [cGhashMult, hx, pclmulMult_ok hH hx]⟩

@[simp] theorem ghashMul_length (x H : Bytes) : (ghashMul x H).length = 16 := by
  simp [ghashMul, unblock128]

/-- A block of at most 16 bytes completed with zeros. -/
def pad16 (b : Bytes) : Bytes := b ++ List.replicate (16 - b.length) 0

theorem pad16_length {b : Bytes} (h : b.length ≤ 16) : (pad16 b).length = 16 := by
  simp [pad16]; omega

theorem pad16_full {b : Bytes} (h : b.length = 16) : pad16 b = b := by simp [pad16, h]

theorem xorb_zeros {a : Bytes} {n : Nat} (h : a.length = n) : xorb a (List.replicate n 0) = a := by
  induction a generalizing n with
  | nil => simp
  | cons x xs ih =>
    cases n with
    | zero => simp at h
    | succ n =>
      simp only [List.replicate_succ, xorb, List.zipWith_cons_cons]
      rw [show List.zipWith (· ^^^ ·) xs (List.replicate n 0) = xs from ih (by simpa using h),
        show x ^^^ (0 : Byte) = x from BitVec.xor_zero]

/-- xoring `x` into the beginning of a 16-byte register -/
theorem splice_xor {r x : Bytes} (hr : r.length = 16) (hx : x.length ≤ 16) :
    splice r 0 (xorb (r.take x.length) x) = xorb r (pad16 x) := by
  have h1 : (r.take x.length).length = x.length := by simp; omega
  have h2 : r = r.take x.length ++ r.drop x.length := (List.take_append_drop _ _).symm
  have h3 : xorb r (pad16 x) = xorb (r.take x.length) x
      ++ xorb (r.drop x.length) (List.replicate (16 - x.length) 0) := by
    conv => lhs; rw [h2]
    exact xorb_append h1
  rw [h3, xorb_zeros (by simp; omega), splice]
  simp only [List.take_zero, List.nil_append, xorb_length, h1, Nat.min_self, Nat.zero_add]

theorem ghashBlock_ok {h : GhashKey} {H mac buf : Bytes} (hh : GhashFor h H) (hm : mac.length = 16)
    {ofs len : Nat} (hl : len ≤ 16) (ho : ofs + len ≤ buf.length) :
    ghashBlock h mac buf ofs len = some (ghashMul (xorb mac (pad16 (slice buf ofs len))) H) := by
  have hs : (slice buf ofs len).length = len := slice_length_of_le ho
  have hx := xorC_ok (src := .other buf) (so := ofs) (dofs := 0) (n := len) (dst := mac) ho
    (by omega) trivial
  rw [Int.natCast_zero, Src.read_other, slice_zero] at hx
  have := splice_xor (r := mac) (x := slice buf ofs len) hm (by omega)
  rw [hs] at this
  rw [this] at hx
  simp only [ghashBlock, hx, Option.bind_eq_bind, Option.bind_some]
  exact hh.2 _ (by rw [xorb_length, pad16_length (by omega)]; omega)

/-- GHASH over a list of blocks, the last of which may be short. -/
def absorb (H y : Bytes) (bs : List Bytes) : Bytes :=
  bs.foldl (fun y b => ghashMul (xorb y (pad16 b)) H) y

theorem absorb_length {H y : Bytes} (hy : y.length = 16) (bs : List Bytes) :
    (absorb H y bs).length = 16 := by
  induction bs generalizing y with
  | nil => exact hy
  | cons b bs ih => exact ih (ghashMul_length _ _)

theorem chunks_mem_length {n : Nat} (hn : 0 < n) (m : Bytes) : ∀ b ∈ chunks n m, b.length ≤ n := by
  induction h : m.length using Nat.strongRecOn generalizing m with
  | _ k ih =>
    by_cases hm : m = []
    · subst hm; simp [chunks_nil]
    · rw [chunks_cons hn hm]
      intro b hb
      rw [List.mem_cons] at hb
      rcases hb with rfl | hb
      · simp; omega
      · have hpos : 0 < m.length := List.length_pos_iff.2 hm
        exact ih (m.drop n).length (by simp; omega) (m.drop n) rfl b hb

theorem chunks_zeroPad16 (x : Bytes) : chunks 16 (zeroPad16 x) = (chunks 16 x).map pad16 := by
  induction h : x.length using Nat.strongRecOn generalizing x with
  | _ k ih =>
    by_cases hx : x = []
    · subst hx; simp [zeroPad16, chunks_nil]
    · have hpos : 0 < x.length := List.length_pos_iff.2 hx
      by_cases hlt : x.length < 16
      · have hz : zeroPad16 x = pad16 x := by
          rw [zeroPad16, pad16]; congr 2; omega
        rw [chunks_cons (by decide) hx, List.take_of_length_le (by omega),
          List.drop_of_length_le (by omega), chunks_nil, hz]
        have := chunks_append (n := 16) (by decide) (a := pad16 x) (l := [])
          (pad16_length (by omega))
        rw [List.append_nil, chunks_nil] at this
        rw [this]; rfl
      · have h1 : (x.take 16).length = 16 := by simp; omega
        have hz : zeroPad16 x = x.take 16 ++ zeroPad16 (x.drop 16) := by
          rw [zeroPad16, zeroPad16, ← List.append_assoc, List.take_append_drop, List.length_drop]
          congr 3; omega
        rw [hz, chunks_append (by decide) h1, ih (x.drop 16).length (by simp; omega) _ rfl,
          chunks_cons (by decide) hx, List.map_cons, pad16_full h1]

theorem zeroPad16_dvd (x : Bytes) : 16 ∣ (zeroPad16 x).length := by
  simp [zeroPad16]; omega

theorem ghash_zeroPad16 (H x : Bytes) :
    ghash H (zeroPad16 x) = absorb H (List.replicate 16 0) (chunks 16 x) := by
  rw [ghash, chunks_zeroPad16, List.foldl_map]; rfl

theorem ghashStringLoop_ok {h : GhashKey} {H : Bytes} (hh : GhashFor h H) (msg : Bytes) :
    ∀ (d i : Nat) (mac : Bytes), msg.length - i = d → i ≤ msg.length → mac.length = 16 →
    ghashStringLoop h msg i mac = some (absorb H mac (chunks 16 (msg.drop i))) := by
  intro d
  induction d using Nat.strongRecOn with
  | _ d ih =>
    intro i mac hd hi hm
    rw [ghashStringLoop]
    by_cases h1 : i + 16 ≤ msg.length
    · rw [if_pos h1]
      have hne : msg.drop i ≠ [] := by
        intro h0; have := congrArg List.length h0; simp at this; omega
      have hb := ghashBlock_ok hh hm (buf := msg) (ofs := i) (len := 16) (by omega) h1
      rw [show ((16 : Nat) : Int) = 16 from rfl] at hb
      rw [hb]
      simp only
      rw [ih (msg.length - (i + 16)) (by omega) (i + 16) _ rfl h1 (ghashMul_length _ _),
        chunks_cons (by decide) hne, List.drop_drop]
      rfl
    · rw [if_neg h1]
      by_cases h2 : i < msg.length
      · rw [if_pos h2]
        have hne : msg.drop i ≠ [] := by
          intro h0; have := congrArg List.length h0; simp at this; omega
        have hb := ghashBlock_ok hh hm (buf := msg) (ofs := i) (len := msg.length - i) (by omega)
          (by omega)
        rw [show ((msg.length - i : Nat) : Int) = (msg.length : Int) - i by omega] at hb
        have hl : (msg.drop i).length ≤ 16 := by simp; omega
        rw [hb, chunks_cons (by decide) hne, List.take_of_length_le hl,
          List.drop_of_length_le (l := msg.drop i) hl, chunks_nil, slice,
          List.take_of_length_le (by simp)]
        rfl
      · rw [if_neg h2, List.drop_of_length_le (by omega), chunks_nil]; rfl

theorem ghashString_ok {h : GhashKey} {H : Bytes} (hh : GhashFor h H) (msg : Bytes) :
    ghashString h msg = some (absorb H (List.replicate 16 0) (chunks 16 msg)) := by
  have := ghashStringLoop_ok hh msg _ 0 (List.replicate 16 0) rfl (by omega) (by simp)
  simpa [ghashString] using this

theorem natToBE8_mul8 (x : W64) (n : Nat) (h : x = BitVec.ofNat 64 n) :
    toBE64 (x * 8) = natToBE 8 (8 * n) := by
  rw [toBE64_eq, h, ← natToBE_mod 8 (8 * n)]
  congr 1
  rw [BitVec.toNat_mul, BitVec.toNat_ofNat, show (8 : W64).toNat = 8 from rfl]
  omega

theorem setInt64BE_two (b : Bytes) (hb : b.length = 16) (x y : W64) :
    ∃ b1, setInt64BE b 0 x = some b1 ∧ setInt64BE b1 8 y = some (toBE64 x ++ toBE64 y) := by
  have hx : (toBE64 x).length = 8 := by simp [toBE64]
  have hy : (toBE64 y).length = 8 := by simp [toBE64]
  have h1 := bytesBlit_ok (src := toBE64 x) (so := 0) (dst := b) (dofs := 0) (n := 8) (by omega)
    (by omega)
  have hl : (splice b 0 (slice (toBE64 x) 0 8)).length = 16 := by
    rw [splice_length (by rw [slice_full' hx]; omega), hb]
  have h2 := bytesBlit_ok (src := toBE64 y) (so := 0) (dst := splice b 0 (slice (toBE64 x) 0 8))
    (dofs := 8) (n := 8) (by omega) (by omega)
  refine ⟨_, h1, ?_⟩
  have := h2
  rw [slice_full' hx, slice_full' hy] at this
  rw [slice_full' hx]
  rw [setInt64BE]
  refine Eq.trans this ?_
  congr 1
  have hp := take_splice (b := b) (o := 0) (x := toBE64 x) (by omega)
  rw [hx] at hp
  simp only [Nat.zero_add, List.take_zero, List.nil_append] at hp
  rw [slice_full' hx] at hl
  have hs := take_splice (b := splice b 0 (toBE64 x)) (o := 8) (x := toBE64 y) (by omega)
  rw [List.take_of_length_le (by rw [splice_length (by omega)]; omega), hp] at hs
  exact hs

theorem ghashFinal_ok (env : Env) {h : GhashKey} {H mac e0 : Bytes} (hh : GhashFor h H)
    (hm : mac.length = 16) (he : e0.length = 16) (hl cl : W64) (s : σ) :
    ghashFinal env h mac hl cl e0 s
      = .ok (ghashMul (xorb mac (toBE64 (hl * 8) ++ toBE64 (cl * 8))) H,
          xorb (ghashMul (xorb mac (toBE64 (hl * 8) ++ toBE64 (cl * 8))) H) e0) s := by
  obtain ⟨b1, h1, h2⟩ := setInt64BE_two (env.create 16) (by simp) (hl * 8) (cl * 8)
  generalize hL : toBE64 (hl * 8) ++ toBE64 (cl * 8) = L at *
  have hLl : L.length = 16 := by rw [← hL]; simp [toBE64]
  have hb := ghashBlock_ok hh hm (buf := L) (ofs := 0) (len := 16) (by omega) (by omega)
  rw [slice_full' hLl, pad16_full hLl, Int.natCast_zero] at hb
  generalize hM : ghashMul (xorb mac L) H = Mc at *
  have hMl : Mc.length = 16 := by rw [← hM]; simp
  have h3 := bytesBlit_ok (src := Mc) (so := 0) (dst := L) (dofs := 0) (n := 16) (by omega) (by omega)
  rw [slice_full' hMl, splice_full (by omega), Int.natCast_zero] at h3
  have h4 := xorC_ok (src := .other e0) (so := 0) (dofs := 0) (n := 16) (dst := Mc)
    (by rw [Src.read_other]; omega) (by omega) trivial
  rw [Src.read_other, slice_full' hMl, slice_full' he, splice_full (by simp; omega),
    Int.natCast_zero] at h4
  rw [show ((16 : Nat) : Int) = 16 from rfl] at hb h3 h4
  simp only [ghashFinal, M.bind_def, h1, M.orRaise_some, h2, hb, M.orUB_some, h3, h4, M.pure_def]

theorem chunks_append_dvd {n : Nat} (hn : 0 < n) (a b : Bytes) (ha : n ∣ a.length) :
    chunks n (a ++ b) = chunks n a ++ chunks n b := by
  induction h : a.length using Nat.strongRecOn generalizing a with
  | _ k ih =>
    by_cases hx : a = []
    · subst hx; simp [chunks_nil]
    · have hpos : 0 < a.length := List.length_pos_iff.2 hx
      have hle : n ≤ a.length := Nat.le_of_dvd hpos ha
      have h1 : (a.take n).length = n := by simp; omega
      have he : a ++ b = a.take n ++ (a.drop n ++ b) := by
        rw [← List.append_assoc, List.take_append_drop]
      rw [he, chunks_append hn h1, ih (a.drop n).length (by simp; omega) (a.drop n)
        (by rw [List.length_drop]; exact Nat.dvd_sub ha (Nat.dvd_refl n)) rfl, chunks_cons hn hx]
      rfl

theorem chunks_one {n : Nat} (hn : 0 < n) {a : Bytes} (h : a.length = n) : chunks n a = [a] := by
  have := chunks_append hn (a := a) (l := []) h
  rwa [List.append_nil, chunks_nil] at this

theorem ghash_append (H a b : Bytes) (ha : 16 ∣ a.length) :
    ghash H (a ++ b) = (chunks 16 b).foldl (fun y x => ghashMul (xorb y x) H) (ghash H a) := by
  rw [ghash, chunks_append_dvd (by decide) _ _ ha, List.foldl_append]; rfl

/-- GHASH of two padded strings and a final block. -/
theorem ghash_three (H A C L : Bytes) (hL : L.length = 16) :
    ghash H (zeroPad16 A ++ zeroPad16 C ++ L)
      = ghashMul (xorb (absorb H (absorb H (List.replicate 16 0) (chunks 16 A)) (chunks 16 C)) L) H := by
  rw [ghash_append _ _ _ (by
      rw [List.length_append]; exact Nat.dvd_add (zeroPad16_dvd A) (zeroPad16_dvd C)),
    ghash_append _ _ _ (zeroPad16_dvd A), ghash_zeroPad16, chunks_zeroPad16, List.foldl_map,
    chunks_one (by decide) hL]
  rfl

theorem counter0_ok {h : GhashKey} {E : Bytes → Bytes} (hh : GhashFor h (subkey E)) (iv : Bytes)
    (s : σ) : counter0 h iv s = .ok (J0 E iv) s := by
  unfold counter0 J0
  by_cases hiv : iv.length = 12
  · rw [if_pos hiv, if_pos hiv]; rfl
  · rw [if_neg hiv, if_neg hiv]
    have hx : (toBE64 (BitVec.ofNat 64 iv.length * 8)).length = 8 := by simp [toBE64]
    have h1 := bytesBlit_ok (src := toBE64 (BitVec.ofNat 64 iv.length * 8)) (so := 0)
      (dst := List.replicate 16 0) (dofs := 8) (n := 8) (by omega) (by simp)
    rw [slice_full' hx] at h1
    have h2 : splice (List.replicate 16 (0 : Byte)) 8 (toBE64 (BitVec.ofNat 64 iv.length * 8))
        = List.replicate 8 0 ++ bitLength64 iv := by
      rw [splice_prefix (p := List.replicate 8 0) (by decide) (by rw [hx]; simp),
        natToBE8_mul8 _ _ rfl, bitLength64]
    rw [h2] at h1
    have hLl : (List.replicate 8 0 ++ bitLength64 iv).length = 16 := by
      simp [bitLength64]
    have hb := ghashBlock_ok hh (absorb_length (H := subkey E) (y := List.replicate 16 0) (by simp) (chunks 16 iv))
      (buf := List.replicate 8 0 ++ bitLength64 iv) (ofs := 0) (len := 16) (by omega) (by omega)
    rw [slice_full' hLl, pad16_full hLl, Int.natCast_zero] at hb
    have h1' : setInt64BE (List.replicate 16 0) 8 (BitVec.ofNat 64 iv.length * 8)
        = some (List.replicate 8 0 ++ bitLength64 iv) := h1
    rw [show ((16 : Nat) : Int) = 16 from rfl] at hb
    simp only [M.bind_def, ghashString_ok hh, M.orUB_some, h1', M.orRaise_some, hb]
    congr 1
    have := ghash_append (subkey E) (zeroPad16 iv) (List.replicate 8 0 ++ bitLength64 iv)
      (zeroPad16_dvd iv)
    rw [List.append_assoc, this, ghash_zeroPad16, chunks_one (by decide) hLl]
    rfl

end Verif

namespace Verif

open Spec Spec.GCM

variable {κ : Type} {aes : BlockCipher κ} {k : κ} {E : Bytes → Bytes}

theorem inc32_length {x : Bytes} (h : x.length = 16) : (inc32 x).length = 16 := by
  simp [inc32]; omega

theorem incrementCounter_inc32 {x : Bytes} (h : x.length = 16) :
    incrementCounter x 12 16 = some (inc32 x) := by
  have := incrementCounter_spec 12 4 x (by omega)
  rw [show 12 + 4 = 16 from rfl] at this
  have h4 : ((x.drop 12).take 4) = x.drop 12 :=
    List.take_of_length_le (by rw [List.length_drop]; omega)
  rw [this, inc32, List.drop_of_length_le (i := 16) (by omega), List.append_nil, slice, h4]

/-- The invariant of the variables of an AES-GCM transform. -/
structure GcmInv (k : κ) (H : Bytes) (s : GcmSt κ) : Prop where
  aes : s.aes = k
  h : GhashFor s.h H
  ctr : s.ctr.length = 16
  mac : s.mac.length = 16
  buf : s.buf.length = 16
  e0 : s.e0.length = 16

/-- One block through a stateless cipher, from offset 0 to offset 0. -/
theorem pure_run (h : PureCipher aes k E) (hb : aes.blocksize = 16) {x b : Bytes}
    (hx : x.length = 16) (hbl : b.length = 16) :
    aes.transform (.other x) 0 0 (k, b) = .ok () (k, E x) := by
  have := h.run (s := k) (src := .other x) (so := 0) (dofs := 0) (dst := b) rfl
    (by rw [Src.read_other]; omega) (by omega)
  rw [Src.read_other, hb, slice_full' hx, Int.natCast_zero] at this
  rw [this]
  simp only [BRes.toOut]
  have hE := h.out_len (s := k) (blk := x) rfl (by omega)
  simp only at hE
  rw [splice_full (by omega)]

theorem pure_len (h : PureCipher aes k E) (hb : aes.blocksize = 16) {x : Bytes}
    (hx : x.length = 16) : (E x).length = 16 := by
  have hE := h.out_len (s := k) (blk := x) rfl (by omega)
  simp only at hE
  omega

theorem ctrEncDec_ok (h : PureCipher aes k E) (hb : aes.blocksize = 16) {H : Bytes} {s : GcmSt κ}
    (hs : GcmInv k H s) {src : Src} {so dofs len : Nat} {dst : Bytes} (hl : len ≤ 16)
    (hso : so + len ≤ (src.read dst).length) (hd : dofs + len ≤ dst.length) :
    ctrEncDec aes src so dofs len (s, dst)
      = .ok () ({ s with
            ctr := inc32 s.ctr
            buf := xorb (E (inc32 s.ctr)) (pad16 (slice (src.read dst) so len)) },
          splice dst dofs (xorb (slice (src.read dst) so len) (E (inc32 s.ctr)))) := by
  have hc := inc32_length hs.ctr
  have hE := pure_len h hb hc
  have hrun := pure_run h hb hc hs.buf
  rw [← hs.aes] at hrun
  have hsl : (slice (src.read dst) so len).length = len := slice_length_of_le hso
  have hx := xorC_ok (src := .other (src.read dst)) (so := so) (dofs := 0) (n := len)
    (dst := E (inc32 s.ctr)) hso (by omega) trivial
  rw [Src.read_other, Int.natCast_zero, slice_zero] at hx
  have hsp := splice_xor (r := E (inc32 s.ctr)) (x := slice (src.read dst) so len) hE (by omega)
  rw [hsl] at hsp
  rw [hsp] at hx
  have hbl : (xorb (E (inc32 s.ctr)) (pad16 (slice (src.read dst) so len))).length = 16 := by
    rw [xorb_length, pad16_length (by omega)]; omega
  have hbt : bytesBlit (xorb (E (inc32 s.ctr)) (pad16 (slice (src.read dst) so len))) 0 dst dofs len
      = some (splice dst dofs (xorb (slice (src.read dst) so len) (E (inc32 s.ctr)))) := by
    have := bytesBlit_ok (src := xorb (E (inc32 s.ctr)) (pad16 (slice (src.read dst) so len)))
      (so := 0) (dst := dst) (dofs := dofs) (n := len) (by omega) hd
    rw [Int.natCast_zero] at this
    rw [this, slice_zero]
    congr 2
    rw [xorb, List.take_zipWith, pad16, List.take_append_of_le_length (by omega),
      List.take_of_length_le (l := slice _ _ _) (by omega)]
    have := xorb_comm ((E (inc32 s.ctr)).take len) (slice (src.read dst) so len)
    rw [xorb] at this
    rw [this, xorb]
    have h2 : (slice (src.read dst) so len).take len = slice (src.read dst) so len :=
      List.take_of_length_le (by omega)
    have := List.take_zipWith (f := (· ^^^ · : Byte → Byte → Byte)) (l := slice (src.read dst) so len)
      (l' := E (inc32 s.ctr)) (i := len)
    rw [h2] at this
    rw [← this, List.take_of_length_le (by simp; omega)]
  obtain ⟨aesk, hk, ctr, e0, mac, hlen, clen, buf⟩ := s
  simp only [ctrEncDec, M.bind_def, M.get_def, incrementCounter_inc32 hs.ctr, M.orRaise_some,
    M.modify_def, M.zoom] at hrun ⊢
  rw [hrun]
  simp only [hx, M.orUB_some, hbt, M.orRaise_some]

/-- Data-level effect of one block, encryption; the last block may be short. -/
def gcmEncF (E : Bytes → Bytes) (H : Bytes) (s : GcmSt κ) (b : Bytes) : BRes (GcmSt κ) :=
  ⟨xorb b (E (inc32 s.ctr)),
   { s with
     ctr := inc32 s.ctr
     buf := xorb (E (inc32 s.ctr)) (pad16 b)
     mac := ghashMul (xorb s.mac (pad16 (xorb b (E (inc32 s.ctr))))) H
     cipherlen := s.cipherlen + BitVec.ofNat 64 b.length },
   if (s.cipherlen + BitVec.ofNat 64 b.length).toInt > 0xfffffffe0 then
     some (.error .messageTooLong) else none⟩

/-- Data-level effect of one block, decryption. -/
def gcmDecF (E : Bytes → Bytes) (H : Bytes) (s : GcmSt κ) (b : Bytes) : BRes (GcmSt κ) :=
  ⟨xorb b (E (inc32 s.ctr)),
   { s with
     ctr := inc32 s.ctr
     buf := xorb (E (inc32 s.ctr)) (pad16 b)
     mac := ghashMul (xorb s.mac (pad16 b)) H
     cipherlen := s.cipherlen + BitVec.ofNat 64 b.length },
   none⟩

theorem gcmEncF_inv (h : PureCipher aes k E) (hb : aes.blocksize = 16) {H : Bytes} {s : GcmSt κ}
    (hs : GcmInv k H s) {b : Bytes} (hl : b.length ≤ 16) :
    GcmInv k H (gcmEncF E H s b).st ∧ (gcmEncF E H s b).out.length = b.length := by
  have hc := inc32_length hs.ctr
  have hE := pure_len h hb hc
  refine ⟨⟨hs.aes, hs.h, hc, ghashMul_length _ _, ?_, hs.e0⟩, ?_⟩
  · simp only [gcmEncF, xorb_length, pad16_length hl]; omega
  · simp only [gcmEncF, xorb_length]; omega

theorem gcmDecF_inv (h : PureCipher aes k E) (hb : aes.blocksize = 16) {H : Bytes} {s : GcmSt κ}
    (hs : GcmInv k H s) {b : Bytes} (hl : b.length ≤ 16) :
    GcmInv k H (gcmDecF E H s b).st ∧ (gcmDecF E H s b).out.length = b.length := by
  have hc := inc32_length hs.ctr
  have hE := pure_len h hb hc
  refine ⟨⟨hs.aes, hs.h, hc, ghashMul_length _ _, ?_, hs.e0⟩, ?_⟩
  · simp only [gcmDecF, xorb_length, pad16_length hl]; omega
  · simp only [gcmDecF, xorb_length]; omega

theorem gcmHash_ok {H : Bytes} {s : GcmSt κ} (hh : GhashFor s.h H) (hm : s.mac.length = 16)
    {b dst : Bytes} {ofs len : Nat} (hl : len ≤ 16) (ho : ofs + len ≤ b.length) :
    gcmHash b ofs len (s, dst)
      = .ok () ({ s with mac := ghashMul (xorb s.mac (pad16 (slice b ofs len))) H }, dst) := by
  simp only [gcmHash, M.bind_def, M.get_def, ghashBlock_ok hh hm hl ho, M.orUB_some, M.modify_def]

theorem gcmEnc_implements (h : PureCipher aes k E) (hb : aes.blocksize = 16) (H : Bytes) :
    Implements (gcmEncWrapped aes) (GcmInv k H) (gcmEncF E H) where
  pos := (by decide : 0 < 16)
  out_len := by
    intro s b hs hbl
    change b.length = 16 at hbl
    rw [(gcmEncF_inv h hb hs (by omega)).2]; exact hbl
  inv_step := by
    intro s b hs hbl
    change b.length = 16 at hbl
    exact (gcmEncF_inv h hb hs (by omega)).1
  run := by
    intro s src so dofs dst hs hso hd
    change so + 16 ≤ _ at hso
    change dofs + 16 ≤ _ at hd
    have hE := pure_len h hb (inc32_length hs.ctr)
    have hsl : (slice (src.read dst) so 16).length = 16 := slice_length_of_le hso
    have h1 := ctrEncDec_ok h hb hs (len := 16) (by omega) hso hd
    have hol : (xorb (slice (src.read dst) so 16) (E (inc32 s.ctr))).length = 16 := by
      rw [xorb_length]; omega
    have hdl : (splice dst dofs (xorb (slice (src.read dst) so 16) (E (inc32 s.ctr)))).length
        = dst.length := splice_length (by omega)
    have h2 := fun (s' : GcmSt κ) (e1 : s'.h = s.h) (e2 : s'.mac = s.mac) =>
      gcmHash_ok (H := H) (s := s') (by rw [e1]; exact hs.h) (by rw [e2]; exact hs.mac)
        (b := splice dst dofs (xorb (slice (src.read dst) so 16) (E (inc32 s.ctr))))
        (dst := splice dst dofs (xorb (slice (src.read dst) so 16) (E (inc32 s.ctr))))
        (ofs := dofs) (len := 16) (by omega) (by omega)
    rw [slice_splice_same' hol (by omega)] at h2
    rw [show ((16 : Nat) : Int) = 16 from rfl] at h1 h2
    simp only [gcmEncWrapped]
    rw [M.bind_ok h1, M.bind_ok (M.get_def _)]
    simp only
    have h3 := h2 { s with
        ctr := inc32 s.ctr
        buf := xorb (E (inc32 s.ctr)) (pad16 (slice (src.read dst) so 16)) } rfl rfl
    rw [M.bind_ok h3]
    simp only [M.bind_def, gcmCount, M.modify_def, gcmCheck, M.get_def, BRes.toOut, gcmEncF, hsl,
      show BitVec.ofNat 64 16 = (16 : W64) from rfl]
    by_cases hc : (s.cipherlen + (16 : W64)).toInt > 0xfffffffe0
    · rw [if_pos hc, if_pos hc]; rfl
    · rw [if_neg hc, if_neg hc]; rfl

theorem gcmDec_implements (h : PureCipher aes k E) (hb : aes.blocksize = 16) (H : Bytes) :
    Implements (gcmDecWrapped aes) (GcmInv k H) (gcmDecF E H) where
  pos := (by decide : 0 < 16)
  out_len := by
    intro s b hs hbl
    change b.length = 16 at hbl
    rw [(gcmDecF_inv h hb hs (by omega)).2]; exact hbl
  inv_step := by
    intro s b hs hbl
    change b.length = 16 at hbl
    exact (gcmDecF_inv h hb hs (by omega)).1
  run := by
    intro s src so dofs dst hs hso hd
    change so + 16 ≤ _ at hso
    change dofs + 16 ≤ _ at hd
    have hsl : (slice (src.read dst) so 16).length = 16 := slice_length_of_le hso
    have h2 := gcmHash_ok (H := H) (s := s) hs.h hs.mac (b := src.read dst) (dst := dst)
      (ofs := so) (len := 16) (by omega) (by omega)
    have h1 := fun m (hm : m.length = 16) => ctrEncDec_ok h hb (s := { s with mac := m })
      ⟨hs.aes, hs.h, hs.ctr, hm, hs.buf, hs.e0⟩ (len := 16) (by omega) hso hd
    rw [show ((16 : Nat) : Int) = 16 from rfl] at h1 h2
    simp only [gcmDecWrapped]
    rw [M.bind_ok (M.get_def _)]
    simp only
    rw [M.bind_ok h2, M.bind_ok (h1 _ (ghashMul_length _ _))]
    simp only [gcmCount, M.modify_def, BRes.toOut, gcmDecF, hsl]
    rfl

end Verif
