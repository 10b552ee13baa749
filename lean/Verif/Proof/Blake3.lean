import Verif.Proof.Blake3Segs
import Verif.Proof.Hash
/-
BLAKE3: the hasher computes the specified function.
-/
namespace Verif
open Spec

/-- The hasher `h`, in mode `(key, f)`, has the chaining values `cvs` on its stack. -/
structure HStack (key : List W32) (f : BitVec 8) (h : B3Hasher) (cvs : List Bytes) : Prop where
  hkey : h.key = key
  klen : key.length = 8
  flags : h.chunk.flags = f
  slen : h.stackLen = cvs.length
  size : h.stack.length = 1760
  fits : cvs.length ≤ 55
  cv32 : ∀ c ∈ cvs, c.length = 32
  mem : h.stack.take (32 * cvs.length) = cvs.flatten

variable {key : List W32} {f : BitVec 8} {h : B3Hasher} {cvs : List Bytes}

theorem flatten32 {l : List Bytes} (h : ∀ c ∈ l, c.length = 32) : l.flatten.length = 32 * l.length := by
  induction l with
  | nil => rfl
  | cons c l ih =>
    rw [List.flatten_cons, List.length_append, h c List.mem_cons_self,
      ih fun c hc => h c (List.mem_cons_of_mem _ hc), List.length_cons]; omega

theorem slice_of_take {b p x q : Bytes} {n : Nat} (h : b.take n = p ++ x ++ q)
    (hn : n ≤ b.length) : slice b p.length x.length = x := by
  have hl := congrArg List.length h
  rw [List.length_take, Nat.min_eq_left hn] at hl
  simp only [List.length_append] at hl
  unfold slice
  have : (b.drop p.length).take x.length = ((b.take n).drop p.length).take x.length := by
    rw [List.drop_take, List.take_take, Nat.min_eq_left (by omega)]
  rw [this, h, List.append_assoc, List.drop_left, List.take_left]

theorem HStack.read (hs : HStack key f h cvs) {pre x post : List Bytes} (hc : cvs = pre ++ x ++ post) :
    slice h.stack (32 * pre.length) (32 * x.length) = x.flatten := by
  have hm := hs.mem
  have h32 := hs.cv32
  subst hc
  rw [List.flatten_append, List.flatten_append] at hm
  have h1 := flatten32 (l := pre) fun c hc => h32 c (by simp [hc])
  have h2 := flatten32 (l := x) fun c hc => h32 c (by simp [hc])
  have := slice_of_take hm (by have := hs.size; have := hs.fits; omega)
  rwa [h1, h2] at this

theorem HStack.bound (hs : HStack key f h cvs) : 32 * cvs.length ≤ h.stack.length := by
  have := hs.size; have := hs.fits; omega

/-- Writing one chaining value over the stack from position `pre.length`. -/
theorem HStack.write (hs : HStack key f h cvs) {pre post : List Bytes} (hc : cvs = pre ++ post)
    {x : Bytes} (hx : x.length = 32) (hfit : pre.length < 55) {h' : B3Hasher} (hk : h'.key = h.key)
    (hf : h'.chunk.flags = h.chunk.flags) (hl : h'.stackLen = pre.length + 1)
    (hst : h'.stack = splice h.stack (32 * pre.length) x) : HStack key f h' (pre ++ [x]) where
  hkey := by rw [hk, hs.hkey]
  klen := hs.klen
  flags := by rw [hf, hs.flags]
  slen := by rw [hl]; simp
  size := by rw [hst, splice_length (by have := hs.size; omega), hs.size]
  fits := by simp; omega
  cv32 := by
    intro c hc'
    rcases List.mem_append.1 hc' with h1 | h1
    · exact hs.cv32 c (by rw [hc]; simp [h1])
    · rw [List.mem_singleton.1 h1, hx]
  mem := by
    have hsz := hs.size
    rw [hst, show 32 * (pre ++ [x]).length = 32 * pre.length + x.length by
      rw [List.length_append, hx]; simp; omega, take_splice (by omega), List.flatten_append]
    have := hs.read (pre := []) (x := pre) (post := post) (by rw [hc]; rfl)
    rw [List.length_nil, Nat.mul_zero, slice_zero] at this
    rw [this]; simp

theorem b3MergeLoop_rep {n : Nat} {m : Bytes} (hn : m.length = 1024 * n)
    (hs : HStack key f h cvs) (hg : Segs key (f.setWidth 32) 0 m cvs) :
    ∃ h' cvs', b3MergeLoop h (pc n) = some h' ∧ h'.chunk = h.chunk ∧ HStack key f h' cvs' ∧
      Segs key (f.setWidth 32) 0 m cvs' ∧ cvs'.length = pc n := by
  induction hk : cvs.length generalizing h cvs with
  | zero =>
    have := hg.pc_le hn
    refine ⟨h, cvs, ?_, rfl, hs, hg, by omega⟩
    rw [b3MergeLoop, dif_neg (by rw [hs.slen]; omega)]
  | succ k ih =>
    have hle := hg.pc_le hn
    by_cases hlt : pc n < cvs.length
    · obtain ⟨pre, x, y, hc, hg'⟩ := hg.merge hn hlt
      have hlen : cvs.length = pre.length + 2 := by rw [hc]; simp
      have hsl : h.stackLen = pre.length + 2 := by rw [hs.slen, hlen]
      have hoff : ((h.stackLen : Int) - 2) * 32 = ((32 * pre.length : Nat) : Int) := by
        rw [hsl]; omega
      have hb := hs.bound
      rw [b3MergeLoop, dif_pos (by rw [hs.slen]; exact hlt), hoff, cRead_ok (by omega)]
      have hr := hs.read (pre := pre) (x := [cvBytes x, cvBytes y]) (post := []) (by rw [hc]; simp)
      rw [show 32 * [cvBytes x, cvBytes y].length = 64 from rfl] at hr
      simp only [hr, List.flatten_cons, List.flatten_nil, List.append_nil]
      have hok := b3ParentOutput_ok (block := cvBytes x ++ cvBytes y) f
        (by rw [List.length_append, cvBytes_length, cvBytes_length]) hs.klen
      have hnode := b3ParentOutput_node (key := key) (l := x.cv) (r := y.cv) f
      have hcv : b3OutputCv (b3ParentOutput (cvBytes x ++ cvBytes y) key f)
          = cvBytes (B3.parentNode key (f.setWidth 32) x.cv y.cv) := by
        rw [b3OutputCv_eq hok]
        show B3.ofWords (b3ParentOutput (B3.ofWords x.cv ++ B3.ofWords y.cv) key f).node.cv = _
        rw [hnode]; rfl
      rw [hs.hkey, hs.flags, hcv, cWrite_ok (by rw [cvBytes_length]; omega)]
      simp only
      have hs' := hs.write (pre := pre) hc (cvBytes_length _) (by have := hs.fits; omega)
        (x := cvBytes (B3.parentNode key (f.setWidth 32) x.cv y.cv))
        (h' := ⟨key, h.chunk, h.stackLen - 1, splice h.stack (32 * pre.length)
            (cvBytes (B3.parentNode key (f.setWidth 32) x.cv y.cv))⟩)
        hs.hkey.symm rfl (by show h.stackLen - 1 = _; omega) rfl
      obtain ⟨h', cvs', e1, e2, e3⟩ := ih hs' hg' (by simp; omega)
      refine ⟨h', cvs', ?_, e2, e3⟩
      exact e1
    · refine ⟨h, cvs, ?_, rfl, hs, hg, by omega⟩
      rw [b3MergeLoop, dif_neg (by rw [hs.slen]; omega)]

theorem b3Merge_rep {n : Nat} {m : Bytes} (hn : m.length = 1024 * n) (hn64 : n < 2 ^ 64)
    (hs : HStack key f h cvs) (hg : Segs key (f.setWidth 32) 0 m cvs) :
    ∃ h' cvs', b3Merge h (BitVec.ofNat 64 n) = some h' ∧ h'.chunk = h.chunk ∧ HStack key f h' cvs' ∧
      Segs key (f.setWidth 32) 0 m cvs' ∧ cvs'.length = pc n := by
  unfold b3Merge
  rw [b3Popcnt_eq hn64]
  exact b3MergeLoop_rep hn hs hg

theorem b3Push_rep {n s : Nat} {m x : Bytes} (hn : m.length = 1024 * n) (hn54 : n < 2 ^ 54)
    (hs : HStack key f h cvs) (hg : Segs key (f.setWidth 32) 0 m cvs) (hd : 2 ^ s ∣ n)
    (hx : x.length = 1024 * 2 ^ s) :
    ∃ h' cvs', b3Push h (cvBytes (B3.tree key (f.setWidth 32) n x)) (BitVec.ofNat 64 n) = some h' ∧
      h'.chunk = h.chunk ∧ HStack key f h' cvs' ∧ Segs key (f.setWidth 32) 0 (m ++ x) cvs' ∧
      cvs'.length = pc n + 1 := by
  obtain ⟨h1, cvs1, e1, e2, e3, e4, e5⟩ := b3Merge_rep hn (by omega) hs hg
  have hp := pc_le hn54
  have hsz := e3.size
  unfold b3Push
  rw [e1]
  simp only
  rw [e3.slen, show ((cvs1.length : Nat) : Int) * 32 = ((32 * cvs1.length : Nat) : Int) by omega,
    cWrite_ok (by rw [cvBytes_length]; omega), Option.map_some]
  have hpush := e4.push hn e5 hd hx
  rw [Nat.zero_add] at hpush
  refine ⟨_, _, rfl, ?_, e3.write (pre := cvs1) (post := []) (by simp) (cvBytes_length _) (by omega)
    rfl rfl rfl rfl, hpush, by simp [e5]⟩
  exact e2

theorem b3Shrink_eq {c : W64} (hc : 1024 ∣ c.toNat) : ∀ {k : Nat}, 10 ≤ k →
    ∃ s, b3Shrink (2 ^ k) c = 1024 * 2 ^ s ∧ 1024 * 2 ^ s ≤ 2 ^ k ∧ 1024 * 2 ^ s ∣ c.toNat := by
  intro k hk
  obtain ⟨j, rfl⟩ := Nat.exists_eq_add_of_le hk
  clear hk
  induction j with
  | zero =>
    refine ⟨0, ?_, by decide, by simpa using hc⟩
    rw [b3Shrink, dif_neg]
    · rw [Nat.and_comm, Nat.and_two_pow_sub_one_eq_mod]
      exact not_not_intro (Nat.mod_eq_zero_of_dvd hc)
  | succ j ih =>
    rw [b3Shrink, Nat.and_comm, Nat.and_two_pow_sub_one_eq_mod]
    by_cases hz : c.toNat % 2 ^ (10 + (j + 1)) = 0
    · rw [dif_neg (not_not_intro hz)]
      have : 2 ^ (10 + (j + 1)) = 1024 * 2 ^ (j + 1) := by
        rw [Nat.pow_add]
      exact ⟨j + 1, this, Nat.le_of_eq this.symm, by rw [← this]; exact Nat.dvd_of_mod_eq_zero hz⟩
    · rw [dif_pos hz, ← Nat.add_assoc, Nat.pow_succ, Nat.mul_div_cancel _ (by decide)]
      obtain ⟨s, e1, e2, e3⟩ := ih
      exact ⟨s, e1, by omega, e3⟩

/-- A chunk state that has absorbed nothing. -/
def Fresh (key : List W32) (f : BitVec 8) (c : B3Chunk) (n : Nat) : Prop :=
  c = ⟨key, BitVec.ofNat 64 n, List.replicate 64 0, 0, 0, f⟩

theorem ChunkRep.fresh {n : Nat} {c : B3Chunk} (h : ChunkRep key (BitVec.ofNat 64 n) f c []) :
    Fresh key f c n := by
  obtain ⟨rest, hr, _⟩ := h
  have hl := hr.len
  rw [List.length_nil] at hl
  have h0 : c.blocks = 0 := by omega
  have h1 : rest = [] := List.length_eq_zero_iff.1 (by omega)
  subst h1
  have hn := hr.node [] (Or.inr h0)
  rw [List.nil_append, chunkFrom_short (by decide), chunkFrom_short (by decide)] at hn
  have hcv := congrArg B3.Node.h hn
  have h2 := hr.buf; have h3 := hr.bufLen; have h4 := hr.flags; have h5 := hr.counter
  obtain ⟨cv, ctr, buf, bl, blk, fl⟩ := c
  simp only at *
  subst h0 h2 h3 h4 h5 hcv
  rfl

theorem Fresh.rep {n : Nat} {c : B3Chunk} (hk : key.length = 8) (h : Fresh key f c n) :
    ChunkRep key (BitVec.ofNat 64 n) f c [] := chunkRep_init key hk _ f c h

/-- The chaining value of a chunk that was absorbed. -/
theorem ChunkRep.cvOut {n : Nat} {c : B3Chunk} {r : Bytes} (hr : r.length ≤ 1024)
    (h : ChunkRep key (BitVec.ofNat 64 n) f c r) :
    b3OutputCv (b3ChunkOutput c) = cvBytes (B3.tree key (f.setWidth 32) n r) := by
  obtain ⟨hok, hnode⟩ := h.out
  rw [b3OutputCv_eq hok, hnode, tree_small hr]; rfl

theorem b3PushSubtree_rep {e : B3Env} (he : 1 ≤ e.maxSimd) {n s : Nat} {m x : Bytes}
    (hn : m.length = 1024 * n) (hn54 : n + 2 ^ s ≤ 2 ^ 54)
    (hs : HStack key f h cvs) (hg : Segs key (f.setWidth 32) 0 m cvs)
    (hf : Fresh key f h.chunk n) (hd : 2 ^ s ∣ n) (hx : x.length = 1024 * 2 ^ s) :
    ∃ h' cvs', b3PushSubtree e h x (1024 * 2 ^ s) = some h' ∧ h'.chunk = h.chunk ∧
      HStack key f h' cvs' ∧ Segs key (f.setWidth 32) 0 (m ++ x) cvs' ∧
      (0 < s → 2 ≤ cvs'.length) := by
  have hp : 0 < 2 ^ s := Nat.pow_pos (by decide)
  have hctr : h.chunk.counter = BitVec.ofNat 64 n := by rw [hf]
  unfold b3PushSubtree
  simp only
  by_cases h1 : 1024 * 2 ^ s ≤ 1024
  · rw [if_pos h1]
    have hs0 : s = 0 := by
      rcases Nat.eq_zero_or_pos s with h0 | h0
      · exact h0
      · have : 2 ^ 1 ≤ 2 ^ s := Nat.pow_le_pow_right (by decide) h0
        omega
    have hc0 : ChunkRep key (BitVec.ofNat 64 n) f
        { b3ChunkInit h.key h.chunk.flags with counter := h.chunk.counter } [] :=
      chunkRep_init key hs.klen _ f _ (by rw [hs.hkey, hs.flags, hctr]; rfl)
    obtain ⟨c, e1, e2⟩ := b3ChunkUpdate_rep x hc0
    rw [e1]
    rw [List.nil_append] at e2
    simp only
    rw [e2.cvOut (by omega), e2.counter]
    obtain ⟨h', cvs', e3, e4, e5, e6, e7⟩ := b3Push_rep hn (by omega) hs hg hd hx
    exact ⟨h', cvs', e3, e4, e5, e6, fun h0 => by omega⟩
  · rw [if_neg h1]
    have hs1 : s ≠ 0 := by rintro rfl; exact h1 (by decide)
    obtain ⟨u, rfl⟩ := Nat.exists_eq_succ_of_ne_zero hs1
    have hpu : 0 < 2 ^ u := Nat.pow_pos (by decide)
    have h2u : 2 ^ (u + 1) = 2 ^ u + 2 ^ u := by rw [Nat.pow_succ]; omega
    rw [Nat.succ_eq_add_one] at *
    have hleft : B3.leftLen x.length = 1024 * 2 ^ u := by
      rw [hx, h2u, Nat.mul_add]
      exact leftLen_pow (by omega) (Nat.le_refl _)
    rw [hs.hkey, hs.flags, hctr, b3ToParentNode_eq he hs.klen n f (by omega), hleft]
    simp only
    rw [List.take_left' (cvBytes_length _), Nat.mul_div_cancel_left _ (by decide),
      Nat.mul_div_cancel_left _ (by decide)]
    have hdu : 2 ^ u ∣ n := Nat.dvd_trans (Nat.pow_dvd_pow 2 (Nat.le_succ u)) hd
    have hxt : (x.take (1024 * 2 ^ u)).length = 1024 * 2 ^ u := by rw [List.length_take]; omega
    have hxd : (x.drop (1024 * 2 ^ u)).length = 1024 * 2 ^ u := by rw [List.length_drop]; omega
    obtain ⟨ha, cva, a1, a2, a3, a4, a5⟩ := b3Push_rep hn (by omega) hs hg hdu hxt
    rw [a1]
    simp only
    have hsl : ∀ a b : B3.Node, slice (cvBytes a ++ cvBytes b) 32 32 = cvBytes b := by
      intro a b
      unfold slice
      rw [List.drop_left' (cvBytes_length _), List.take_of_length_le (Nat.le_of_eq (cvBytes_length _))]
    have hma : (m ++ x.take (1024 * 2 ^ u)).length = 1024 * (n + 2 ^ u) := by
      rw [List.length_append, hxt, hn]; omega
    obtain ⟨hb, cvb, b1, b2, b3, b4, b5⟩ := b3Push_rep hma (by omega) a3 a4
      (Nat.dvd_add hdu (Nat.dvd_refl _)) hxd
    rw [hsl, a2, hctr, show 2 ^ (u + 1) / 2 = 2 ^ u by omega, ← BitVec.ofNat_add, b1]
    refine ⟨hb, cvb, rfl, by rw [b2, a2], b3, ?_, fun _ => ?_⟩
    · rwa [List.append_assoc, List.take_append_drop] at b4
    · have := pc_pos (n := n + 2 ^ u) (by omega)
      omega

/-- The hasher is between two chunks, `m` having been absorbed. -/
structure Between (key : List W32) (f : BitVec 8) (h : B3Hasher) (n : Nat) (m : Bytes)
    (cvs : List Bytes) : Prop where
  len : m.length = 1024 * n
  st : HStack key f h cvs
  segs : Segs key (f.setWidth 32) 0 m cvs
  fresh : Fresh key f h.chunk n

theorem b3UpdateLoop_rep {e : B3Env} (he : 1 ≤ e.maxSimd) {n : Nat} {m input : Bytes}
    (hb : Between key f h n m cvs) (hlt : (m ++ input).length < 2 ^ 64)
    (hq : input = [] → n = 0 ∨ 2 ≤ cvs.length) :
    ∃ h' x y n' cvs', b3UpdateLoop e h input = some (h', y) ∧ input = x ++ y ∧ y.length ≤ 1024 ∧
      Between key f h' n' (m ++ x) cvs' ∧ (y = [] → n' = 0 ∨ 2 ≤ cvs'.length) := by
  induction hN : input.length using Nat.strongRecOn generalizing input h n m cvs with
  | _ N ih =>
    by_cases h1 : input.length > 1024
    · rw [List.length_append, hb.len] at hlt
      have hctr : h.chunk.counter = BitVec.ofNat 64 n := by rw [hb.fresh]
      have hcnt : (h.chunk.counter * 1024).toNat = n * 1024 := by
        rw [hctr, BitVec.toNat_mul, BitVec.toNat_ofNat, Nat.mod_eq_of_lt (a := n) (by omega)]
        show n * 1024 % 2 ^ 64 = _
        rw [Nat.mod_eq_of_lt (by omega)]
      have hk : 10 ≤ Nat.log2 input.length := (Nat.le_log2 (by omega)).2 (by omega)
      have hrd : b3RoundDown input.length = 2 ^ Nat.log2 input.length := by
        unfold b3RoundDown
        rw [Nat.one_shiftLeft, log2_or_one (by omega)]
      obtain ⟨s, s1, s2, s3⟩ := b3Shrink_eq (c := h.chunk.counter * 1024) (by rw [hcnt]; omega) hk
      have hle : 2 ^ Nat.log2 input.length ≤ input.length := Nat.log2_self_le (by omega)
      rw [← hrd] at s1
      have hp : 0 < 2 ^ s := Nat.pow_pos (by decide)
      have hd : 2 ^ s ∣ n := by
        rw [hcnt, Nat.mul_comm n] at s3
        exact Nat.dvd_of_mul_dvd_mul_left (by decide) s3
      have hx : (input.take (1024 * 2 ^ s)).length = 1024 * 2 ^ s := by
        rw [List.length_take]; omega
      obtain ⟨ha, cva, a1, a2, a3, a4, a5⟩ := b3PushSubtree_rep he hb.len (by omega) hb.st hb.segs
        hb.fresh hd hx
      rw [b3UpdateLoop, if_pos h1]
      simp only
      rw [s1, a1]
      simp only
      rw [Nat.mul_div_cancel_left _ (by decide), a2, hctr, ← BitVec.ofNat_add]
      have hba : Between key f { ha with chunk := { h.chunk with counter := BitVec.ofNat 64 (n + 2 ^ s) } }
          (n + 2 ^ s) (m ++ input.take (1024 * 2 ^ s)) cva := by
        refine ⟨by rw [List.length_append, hx, hb.len]; omega, ?_, a4, ?_⟩
        · exact ⟨a3.hkey, a3.klen, hb.st.flags, a3.slen, a3.size, a3.fits, a3.cv32, a3.mem⟩
        · have := hb.fresh
          unfold Fresh at this ⊢
          simp only [this]
      obtain ⟨h', x, y, n', cvs', e1, e2, e3, e4, e5⟩ := ih (input.drop (1024 * 2 ^ s)).length
        (by rw [List.length_drop]; omega) hba
        (by rw [List.append_assoc, List.take_append_drop, List.length_append, hb.len]; exact hlt)
        (by
          intro h0
          right
          refine a5 ?_
          have := congrArg List.length h0
          rw [List.length_drop, List.length_nil] at this
          rcases Nat.eq_zero_or_pos s with hs0 | hs0
          · subst hs0; omega
          · exact hs0) rfl
      refine ⟨h', input.take (1024 * 2 ^ s) ++ x, y, n', cvs', e1, ?_, e3, ?_, e5⟩
      · rw [List.append_assoc, ← e2, List.take_append_drop]
      · rw [← List.append_assoc]; exact e4
    · rw [b3UpdateLoop, if_neg h1]
      exact ⟨h, [], input, n, cvs, rfl, rfl, by omega, by rwa [List.append_nil], hq⟩

/-- The hasher has absorbed `m`. -/
def HRep (key : List W32) (f : BitVec 8) (m : Bytes) (h : B3Hasher) : Prop :=
  m.length < 2 ^ 64 ∧ ∃ n m1 r cvs, m = m1 ++ r ∧ m1.length = 1024 * n ∧ r.length ≤ 1024 ∧
    HStack key f h cvs ∧ Segs key (f.setWidth 32) 0 m1 cvs ∧
    ChunkRep key (BitVec.ofNat 64 n) f h.chunk r ∧ (r ≠ [] → cvs.length = pc n) ∧
    (r = [] → n = 0 ∨ 2 ≤ cvs.length)

theorem HStack.chunk (hs : HStack key f h cvs) {c : B3Chunk} (hc : c.flags = f) :
    HStack key f { h with chunk := c } cvs :=
  ⟨hs.hkey, hs.klen, hc, hs.slen, hs.size, hs.fits, hs.cv32, hs.mem⟩

theorem b3UpdateTail_rep {e : B3Env} (he : 1 ≤ e.maxSimd) {n : Nat} {m input : Bytes}
    (hb : Between key f h n m cvs) (hlt : (m ++ input).length < 2 ^ 64)
    (hq : input = [] → n = 0 ∨ 2 ≤ cvs.length) :
    ∃ h', b3UpdateTail e h input = some h' ∧ HRep key f (m ++ input) h' := by
  obtain ⟨h1, x, y, n1, cvs1, e1, e2, e3, e4, e5⟩ := b3UpdateLoop_rep he hb hlt hq
  unfold b3UpdateTail
  rw [e1]
  simp only
  have hn1 : n1 < 2 ^ 64 := by
    have := e4.len
    rw [e2] at hlt
    simp only [List.length_append] at this hlt
    omega
  by_cases h0 : y.length > 0
  · rw [if_pos h0]
    obtain ⟨c, c1, c2⟩ := b3ChunkUpdate_rep y (e4.fresh.rep e4.st.klen)
    rw [c1]
    simp only
    rw [c2.counter]
    obtain ⟨h', cvs', m1, m2, m3, m4, m5⟩ := b3Merge_rep e4.len hn1 (e4.st.chunk c2.flags) e4.segs
    refine ⟨h', m1, hlt, n1, m ++ x, y, cvs', by rw [e2, List.append_assoc], e4.len, e3, m3, m4, ?_,
      fun _ => m5, ?_⟩
    · rw [m2]
      rwa [List.nil_append] at c2
    · rintro rfl; exact absurd h0 (by simp)
  · rw [if_neg h0]
    have hy : y = [] := List.length_eq_zero_iff.1 (by omega)
    refine ⟨h1, rfl, hlt, n1, m ++ x, y, cvs1, by rw [e2, List.append_assoc], e4.len, e3, e4.st,
      e4.segs, ?_, fun h => absurd hy h, e5⟩
    rw [hy]
    exact e4.fresh.rep e4.st.klen

theorem b3Update_rep {e : B3Env} (he : 1 ≤ e.maxSimd) {m : Bytes} (input : Bytes)
    (hr : HRep key f m h) (hlt : (m ++ input).length < 2 ^ 64) :
    ∃ h', b3Update e h input = some h' ∧ HRep key f (m ++ input) h' := by
  obtain ⟨hm64, n, m1, r, cvs, hm, hn, hrl, hst, hsg, hch, hst1, hst2⟩ := id hr
  unfold b3Update
  by_cases hi : input.length = 0
  · rw [if_pos hi]
    have : input = [] := List.length_eq_zero_iff.1 hi
    subst this
    exact ⟨h, rfl, by rwa [List.append_nil]⟩
  rw [if_neg hi]
  by_cases hl : b3ChunkLen h.chunk > 0
  · rw [if_pos hl]
    have hlen := hch.len
    rw [hlen] at hl ⊢
    simp only
    have hne : r ≠ [] := by rintro rfl; exact absurd hl (by simp)
    generalize hk : (if 1024 - r.length > input.length then input.length else 1024 - r.length) = k
    have hk' : k = min (1024 - r.length) input.length := by rw [← hk]; split <;> omega
    obtain ⟨c, c1, c2⟩ := b3ChunkUpdate_rep (input.take k) hch
    rw [c1]
    simp only
    have hrt : (r ++ input.take k).length = r.length + k := by
      rw [List.length_append, List.length_take]; omega
    rw [hm, List.append_assoc, List.length_append] at hlt
    rw [List.length_append] at hlt
    by_cases h0 : (input.drop k).length > 0
    · rw [if_pos h0]
      rw [List.length_drop] at h0
      have hfull : (r ++ input.take k).length = 1024 * 2 ^ 0 := by omega
      rw [c2.cvOut (by omega), c2.counter]
      obtain ⟨h', cvs', p1, p2, p3, p4, p5⟩ := b3Push_rep hn (by omega) (hst.chunk c2.flags) hsg
        (Nat.one_dvd n) hfull
      rw [p1]
      simp only
      have hb : Between key f { h' with chunk := b3ChunkReset h'.chunk h'.key (h'.chunk.counter + 1) }
          (n + 1) (m1 ++ (r ++ input.take k)) cvs' := by
        refine ⟨by rw [List.length_append, hfull, hn]; omega, p3.chunk ?_, p4, ?_⟩
        · show h'.chunk.flags = f
          exact p3.flags
        · show b3ChunkReset h'.chunk h'.key (h'.chunk.counter + 1) = _
          rw [p2, p3.hkey]
          unfold b3ChunkReset
          rw [BitVec.ofNat_add]
          simp only [c2.flags, c2.counter]
          rfl
      have hmm : m ++ input = (m1 ++ (r ++ input.take k)) ++ input.drop k := by
        rw [hm]; simp [List.append_assoc]
      rw [hmm]
      refine b3UpdateTail_rep he hb ?_ ?_
      · rw [← hmm, hm]; simp only [List.length_append]; omega
      · intro h1
        have := congrArg List.length h1
        rw [List.length_drop, List.length_nil] at this
        omega
    · rw [if_neg h0]
      rw [List.length_drop] at h0
      have hki : input.take k = input := List.take_of_length_le (by omega)
      rw [hki] at c2 hrt
      refine ⟨_, rfl, ?_, n, m1, r ++ input, cvs, by rw [hm, List.append_assoc], hn, by omega,
        hst.chunk c2.flags, hsg, c2, fun _ => hst1 hne, ?_⟩
      · rw [hm]; simp only [List.length_append]; omega
      · intro h1; exact absurd (List.append_eq_nil_iff.1 h1).1 hne
  · rw [if_neg hl]
    have hlen := hch.len
    have hr0 : r = [] := List.length_eq_zero_iff.1 (by omega)
    subst hr0
    rw [List.append_nil] at hm
    subst hm
    exact b3UpdateTail_rep he ⟨hn, hst, hsg, hch.fresh⟩ hlt fun _ => hst2 rfl

theorem b3FinalLoop_rep {x : Bytes} {t : Nat} {m : Bytes} {top : List Bytes}
    (hg : SegsTop key (f.setWidth 32) x t m top) :
    ∀ {pre rest : List Bytes} {n : Nat} {o : B3Output}, HStack key f h (pre ++ top ++ rest) →
      m.length = 1024 * n → o.Ok → o.node = B3.tree key (f.setWidth 32) (t + n) x →
      ∃ o', b3FinalLoop h (pre.length + top.length) o = b3FinalLoop h pre.length o' ∧ o'.Ok ∧
        o'.node = B3.tree key (f.setWidth 32) t (m ++ x) := by
  induction hg with
  | nil t =>
    intro pre rest n o _ hn hok hnode
    have : n = 0 := by simp at hn; omega
    subst this
    exact ⟨o, rfl, hok, hnode⟩
  | cons t e m1 m2 cvs h1 h0 h2 hg ih =>
    intro pre rest n o hs hn hok hnode
    obtain ⟨hm2, hn2⟩ := segs_count h1 hn
    have hs' : HStack key f h (pre ++ [cvBytes (B3.tree key (f.setWidth 32) t m1)] ++ cvs ++ rest) := by
      simpa [List.append_assoc] using hs
    obtain ⟨o1, e1, e2, e3⟩ := ih hs' hm2 hok (by
      rw [hnode, show t + 2 ^ e + (n - 2 ^ e) = t + n by omega])
    rw [List.length_append, List.length_singleton] at e1
    refine ⟨b3ParentOutput (cvBytes (B3.tree key (f.setWidth 32) t m1) ++ b3OutputCv o1) key f,
      ?_, ?_, ?_⟩
    · rw [List.length_cons, show pre.length + (cvs.length + 1) = pre.length + 1 + cvs.length by omega,
        e1, b3FinalLoop, show ((pre.length : Nat) : Int) * 32 = ((32 * pre.length : Nat) : Int) by omega]
      have hb := hs.bound
      simp only [List.length_append, List.length_cons] at hb
      rw [cRead_ok (by omega)]
      have hr := hs'.read (pre := pre) (x := [cvBytes (B3.tree key (f.setWidth 32) t m1)])
        (post := cvs ++ rest) (by simp [List.append_assoc])
      rw [List.length_singleton, Nat.mul_one] at hr
      simp only [hr, hs.hkey, hs.flags, List.flatten_cons, List.flatten_nil, List.append_nil]
    · exact b3ParentOutput_ok f (by
        rw [List.length_append, cvBytes_length, b3OutputCv_length e2]) hs.klen
    · rw [b3OutputCv_eq e2]
      show (b3ParentOutput (B3.ofWords _ ++ B3.ofWords _) key f).node = _
      rw [b3ParentOutput_node, e3, List.append_assoc, tree_join h1 h0 h2]

theorem b3Finalize_rep {m : Bytes} (hr : HRep key f m h) (len : Nat) :
    b3Finalize h len = some ((B3.tree key (f.setWidth 32) 0 m).output len) := by
  obtain ⟨hm64, n, m1, r, cvs, hm, hn, hrl, hst, hsg, hch, hst1, hst2⟩ := hr
  unfold b3Finalize
  by_cases h0 : len = 0
  · rw [if_pos h0, h0]
    unfold B3.Node.output
    rw [List.take_zero]
  rw [if_neg h0]
  by_cases hs0 : h.stackLen = 0
  · rw [if_pos hs0]
    rw [hst.slen] at hs0
    have : cvs = [] := List.length_eq_zero_iff.1 hs0
    subst this
    have := hsg.nil_of
    subst this
    have : n = 0 := by simp at hn; omega
    subst this
    rw [List.nil_append] at hm
    subst hm
    obtain ⟨o1, o2⟩ := hch.out
    rw [b3RootBytes_eq o1, o2, tree_small hrl]
  rw [if_neg hs0]
  simp only
  by_cases hl : b3ChunkLen h.chunk > 0
  · rw [if_pos hl]
    simp only
    have hlen := hch.len
    have hne : r ≠ [] := by rintro rfl; rw [hlen] at hl; exact absurd hl (by simp)
    have htop := hsg.top hn (hst1 hne) (by omega) hrl
    obtain ⟨o1, o2⟩ := hch.out
    obtain ⟨o', e1, e2, e3⟩ := b3FinalLoop_rep (pre := []) (rest := []) htop (by simpa using hst) hn o1
      (by rw [o2, Nat.zero_add, tree_small hrl])
    rw [List.length_nil, Nat.zero_add] at e1
    rw [hst.slen, e1, b3FinalLoop, Option.map_some, b3RootBytes_eq e2, e3, hm]
  · rw [if_neg hl]
    have hlen := hch.len
    have hr0 : r = [] := List.length_eq_zero_iff.1 (by omega)
    subst hr0
    rw [List.append_nil] at hm
    subst hm
    have h2 : 2 ≤ cvs.length := by
      rcases hst2 rfl with h | h
      · subst h
        have : cvs ≠ [] := by rintro rfl; exact hs0 hst.slen
        have := hsg.nonempty this
        omega
      · exact h
    obtain ⟨pre, a, b, hc⟩ : ∃ pre a b, cvs = pre ++ [a, b] := by
      refine ⟨cvs.take (cvs.length - 2), cvs[cvs.length - 2], cvs[cvs.length - 1], ?_⟩
      refine (List.take_append_drop (cvs.length - 2) cvs).symm.trans ?_
      congr 1
      rw [List.drop_eq_getElem_cons (by omega), List.drop_eq_getElem_cons (by omega),
        List.drop_eq_nil_of_le (by omega)]
      congr 2
      congr 1
      omega
    obtain ⟨m0, x, na, nb, n0, t1, t2, t3, t4, t5, t6, t7⟩ := hsg.top2 hc
    have hsl : h.stackLen = pre.length + 2 := by rw [hst.slen, hc]; simp
    have hb := hst.bound
    have hcl : cvs.length = pre.length + 2 := by rw [hc]; simp
    have hrd := hst.read (pre := pre) (x := [a, b]) (post := []) (by rw [hc]; simp)
    rw [show 32 * [a, b].length = 64 from rfl] at hrd
    rw [hsl, show ((pre.length + 2 : Nat) : Int) - 2 = (pre.length : Int) by omega,
      show ((pre.length : Nat) : Int) * 32 = ((32 * pre.length : Nat) : Int) by omega,
      cRead_ok (by omega), hrd]
    simp only [Option.map_some, List.flatten_cons, List.flatten_nil, List.append_nil, hst.hkey,
      hst.flags, t4, t5]
    have hok := b3ParentOutput_ok (block := cvBytes na ++ cvBytes nb) f
        (by rw [List.length_append, cvBytes_length, cvBytes_length]) hst.klen
    have hnode := b3ParentOutput_node (key := key) (l := na.cv) (r := nb.cv) f
    obtain ⟨o', e1, e2, e3⟩ := b3FinalLoop_rep (pre := []) (rest := [a, b]) t3
      (by rw [hc] at hst; simpa using hst) t2 hok (by rw [t6]; exact hnode)
    rw [List.length_nil, Nat.zero_add] at e1
    rw [show pre.length + 2 - 2 = pre.length by omega, e1, b3FinalLoop, Option.map_some,
      b3RootBytes_eq e2, e3, t1]

theorem b3Init_rep (key stack0 : Bytes) (hk : key.length = 0 ∨ key.length = 32)
    (h0 : stack0.length = 1760) :
    ∃ f, f.setWidth 32 = B3.modeFlag key ∧ HRep (B3.keyWords key) f [] (b3Init key stack0) := by
  have gen : ∀ (kw : List W32) (f : BitVec 8), kw.length = 8 → HRep kw f [] (b3InitBase kw f stack0) := by
    intro kw f hkw
    refine ⟨by decide, 0, [], [], [], rfl, rfl, by decide, ?_, Segs.nil 0, ?_, fun h => absurd rfl h,
      fun _ => Or.inl rfl⟩
    · exact ⟨rfl, hkw, rfl, rfl, h0, by decide, by simp, by simp⟩
    · exact chunkRep_init kw hkw _ f _ rfl
  rcases hk with hk | hk
  · have : key = [] := List.length_eq_zero_iff.1 hk
    subst this
    refine ⟨0, by decide, ?_⟩
    have := gen b3Iv 0 (by decide)
    rwa [b3Iv_eq] at this
  · refine ⟨b3KeyedHash, ?_, ?_⟩
    · unfold B3.modeFlag
      rw [if_neg (by rintro rfl; exact absurd hk (by decide))]
      rfl
    · unfold b3Init B3.keyWords
      rw [if_pos hk, if_neg (by rintro rfl; exact absurd hk (by decide)), b3LoadKey_eq hk]
      refine gen _ _ ?_
      rw [← b3LoadKey_eq hk]
      simp [b3LoadKey]

end Verif
