import Verif.Proof.Sim
import Verif.Props.C97_Uninit
import Verif.Props.C86_InertMac
/-
C97, the MACs built from block ciphers.
-/
namespace Verif

open Spec Cipher

section
variable {σ σ' : Type}

/-- Two MAC objects: the blocks may differ after the part that is used. -/
structure MacLike (n : Nat) (k : σ) (k' : σ') (t : MacSt σ) (t' : MacSt σ') : Prop where
  key : t.c = k
  key' : t'.c = k'
  iv : t.iv = t'.iv
  ivlen : t.iv.length = n
  used : t.used = t'.used
  le : t.used ≤ n
  len : t.buffer.length = n
  len' : t'.buffer.length = n
  pre : t.buffer.take t.used = t'.buffer.take t.used

/-- Two MAC objects with the same whole block. -/
structure MacFull (n : Nat) (k : σ) (k' : σ') (t : MacSt σ) (t' : MacSt σ') : Prop where
  key : t.c = k
  key' : t'.c = k'
  iv : t.iv = t'.iv
  ivlen : t.iv.length = n
  used : t.used = t'.used
  len : t.buffer.length = n
  buf : t.buffer = t'.buffer

theorem MacFull.like {n : Nat} {k : σ} {k' : σ'} {t : MacSt σ} {t' : MacSt σ'} (h : MacFull n k k' t t')
    (hle : t.used ≤ n) : MacLike n k k' t t' :=
  { key := h.key, key' := h.key', iv := h.iv, ivlen := h.ivlen, used := h.used, le := hle, len := h.len
    len' := by rw [← h.buf]; exact h.len, pre := by rw [h.buf] }

theorem MacLike.full {n : Nat} {k : σ} {k' : σ'} {t : MacSt σ} {t' : MacSt σ'} (h : MacLike n k k' t t')
    (hu : t.used = n) : MacFull n k k' t t' :=
  { key := h.key, key' := h.key', iv := h.iv, ivlen := h.ivlen, used := h.used, len := h.len
    buf := take_all h.len h.len' (by omega) h.pre }

theorem blit_same {n used m : Nat} {src b b' : Bytes} {ofs : Int} (l : b.length = n) (l' : b'.length = n)
    (hp : b.take used = b'.take used) (hm : used + m ≤ n) :
    SameOpt (fun c c' => c.length = n ∧ c'.length = n ∧ c.take (used + m) = c'.take (used + m))
      (bytesBlit src ofs b used m) (bytesBlit src ofs b' used m) := by
  by_cases hr : InRange src ofs m
  · obtain ⟨h1, h2, h3⟩ := hr
    obtain ⟨ofs, rfl⟩ := Int.eq_ofNat_of_zero_le h2
    have hl : (b.take used).length = used := by rw [List.length_take]; omega
    obtain ⟨c, e1, e2, e3⟩ := blit_ibuf (src := src) (ofs := ofs) (m := m) l rfl hl.symm hm (by omega)
    obtain ⟨c', e1', e2', e3'⟩ := blit_ibuf (src := src) (ofs := ofs) (m := m) (pend := b.take used) l' hp.symm hl.symm hm
      (by omega)
    rw [e1, e1']
    exact ⟨e2, e2', by rw [e3, e3']⟩
  · rw [bytesBlit_bad_src hr, bytesBlit_bad_src hr]
    trivial

theorem macAdd_bad {c : BlockCipher σ} {src : Bytes} {ofs len : Int} {t : MacSt σ} (hlen : ¬ len ≤ 0)
    (hfit : ¬ (t.used : Int) + len ≤ c.blocksize)
    (h : bytesBlit src ofs t.buffer t.used ((c.blocksize : Int) - t.used) = none) :
    macAddSubstring c src ofs len t = .exn .invalidArg t := by
  rw [macAddSubstring, if_neg hlen, if_neg hfit]
  simp only
  split
  · rfl
  · rename_i b h0
    rw [h] at h0; cases h0

theorem macAdd_step {c : BlockCipher σ} {src : Bytes} {ofs len : Int} {t s : MacSt σ} {b : Bytes} (hlen : ¬ len ≤ 0)
    (hfit : ¬ (t.used : Int) + len ≤ c.blocksize) (hb : 0 < c.blocksize)
    (h : bytesBlit src ofs t.buffer t.used ((c.blocksize : Int) - t.used) = some b)
    (e : macBlock c { t with buffer := b } = .ok () s) :
    macAddSubstring c src ofs len t
      = macAddSubstring c src (ofs + ((c.blocksize : Int) - t.used)) (len - ((c.blocksize : Int) - t.used))
        { s with used := 0 } := by
  rw [macAddSubstring, if_neg hlen, if_neg hfit]
  simp only
  split
  · rename_i h0
    rw [h] at h0; cases h0
  · rename_i b' h0
    rw [h] at h0; cases h0
    rw [e]
    simp only
    rw [dif_neg (by omega)]

variable {c : BlockCipher σ} {c' : BlockCipher σ'} {k : σ} {k' : σ'} {E : Bytes → Bytes} (hc : PureCipher c k E)
  (hc' : PureCipher c' k' E) (hn : c'.blocksize = c.blocksize)
include hc hc' hn

theorem macBlock_full {t : MacSt σ} {t' : MacSt σ'} (h : MacFull c.blocksize k k' t t') :
    ∃ x, x.length = c.blocksize ∧ (E x).length = c.blocksize
      ∧ macBlock c t = .ok () { t with buffer := x, iv := E x }
      ∧ macBlock c' t' = .ok () { t' with buffer := x, iv := E x } := by
  have h1 := h.len
  have h2 := h.ivlen
  have hx : (xorb t.buffer t.iv).length = c.blocksize := by rw [xorb_length]; omega
  refine ⟨xorb t.buffer t.iv, hx, hc.out_len (s := k) rfl hx, macBlock_ok hc h.key h1 h2, ?_⟩
  have := macBlock_ok hc' (st := t') h.key' (by rw [← h.buf, hn]; exact h1) (by rw [← h.iv, hn]; exact h2)
  rw [this, ← h.buf, ← h.iv]

theorem macAdd_keep (src : Bytes) : ∀ (m : Nat) (ofs len : Int) (t : MacSt σ) (t' : MacSt σ'),
    len.toNat * 2 + (if t.used = 0 then 0 else 1) = m → MacLike c.blocksize k k' t t' →
    Sim (fun _ => MacLike c.blocksize k k') (MacLike c.blocksize k k') (macAddSubstring c src ofs len t)
      (macAddSubstring c' src ofs len t') := by
  intro m
  induction m using Nat.strongRecOn with
  | _ m ih =>
    intro ofs len t t' hm ht
    have hpos := hc.pos
    have hle := ht.le
    by_cases hlen : len ≤ 0
    · rw [macAddSubstring.eq_def c, macAddSubstring.eq_def c', if_pos hlen, if_pos hlen]; exact ⟨rfl, ht⟩
    by_cases hfit : (t.used : Int) + len ≤ c.blocksize
    · rw [macAddSubstring.eq_def c, macAddSubstring.eq_def c', if_neg hlen, if_neg hlen, ← ht.used, hn, if_pos hfit,
        if_pos hfit]
      obtain ⟨len, rfl⟩ := Int.eq_ofNat_of_zero_le (by omega : 0 ≤ len)
      have w := blit_same (src := src) (ofs := ofs) (m := len) ht.len ht.len' ht.pre (by omega)
      cases h1 : bytesBlit src ofs t.buffer t.used len <;> cases h2 : bytesBlit src ofs t'.buffer t.used len <;>
        rw [h1, h2] at w
      · exact ⟨rfl, ht⟩
      · exact w.elim
      · exact w.elim
      · obtain ⟨w1, w2, w3⟩ := w
        exact ⟨rfl, { key := ht.key, key' := ht.key', iv := ht.iv, ivlen := ht.ivlen, used := rfl
                      le := by simp only [Int.toNat_natCast]; omega
                      len := w1, len' := w2, pre := w3 }⟩
    · have hnn : (c.blocksize : Int) - t.used = ((c.blocksize - t.used : Nat) : Int) := by omega
      have w := blit_same (src := src) (ofs := ofs) (m := c.blocksize - t.used) ht.len ht.len' ht.pre (by omega)
      rw [← hnn] at w
      have hfit' : ¬ (t'.used : Int) + len ≤ c'.blocksize := by rw [← ht.used, hn]; exact hfit
      have hb' : bytesBlit src ofs t'.buffer t'.used ((c'.blocksize : Int) - t'.used)
          = bytesBlit src ofs t'.buffer t.used ((c.blocksize : Int) - t.used) := by rw [← ht.used, hn]
      cases h1 : bytesBlit src ofs t.buffer t.used ((c.blocksize : Int) - t.used) <;>
        cases h2 : bytesBlit src ofs t'.buffer t.used ((c.blocksize : Int) - t.used) <;> rw [h1, h2] at w
      · rw [macAdd_bad hlen hfit h1, macAdd_bad hlen hfit' (hb'.trans h2)]
        exact ⟨rfl, ht⟩
      · exact w.elim
      · exact w.elim
      · rename_i x x'
        obtain ⟨w1, w2, w3⟩ := w
        obtain rfl := take_all w1 w2 (by omega) w3
        have hf : MacFull c.blocksize k k' { t with buffer := x } { t' with buffer := x } :=
          { key := ht.key, key' := ht.key', iv := ht.iv, ivlen := ht.ivlen, used := ht.used, len := w1, buf := rfl }
        obtain ⟨y, y1, y2, e1, e2⟩ := macBlock_full hc hc' hn hf
        rw [macAdd_step hlen hfit hpos h1 e1, macAdd_step hlen hfit' (by omega) (hb'.trans h2) e2, ← ht.used, hn]
        refine ih ((len - ((c.blocksize : Int) - t.used)).toNat * 2) (by rw [← hm]; split <;> omega) _ _ _ _
          (by simp) ?_
        exact { key := ht.key, key' := ht.key', iv := rfl, ivlen := y2, used := rfl, le := Nat.zero_le _, len := y1
                len' := y1, pre := rfl }

theorem macAddChar_keep (ch : Byte) :
    Keep (MacLike c.blocksize k k') (macAddChar c ch) (macAddChar c' ch) := by
  intro t t' ht
  have hle := ht.le
  have hpos := hc.pos
  have hl := ht.len
  have hl' := ht.len'
  unfold macAddChar
  rw [← ht.used, hn]
  by_cases hlt : t.used < c.blocksize
  · have s1 := bytesSet_ok (b := t.buffer) (i := t.used) (c := ch) (by omega)
    have s2 := bytesSet_ok (b := t'.buffer) (i := t.used) (c := ch) (by omega)
    rw [if_pos hlt, if_pos hlt, s1, s2]
    exact ⟨rfl, { key := ht.key, key' := ht.key', iv := ht.iv, ivlen := ht.ivlen, used := rfl, le := hlt
                  len := by simp only [List.length_set]; exact hl
                  len' := by simp only [List.length_set]; exact hl'
                  pre := by
                    simp only
                    rw [List.take_add_one, List.take_add_one, List.take_set_of_le (by omega),
                      List.take_set_of_le (by omega), List.getElem?_set_self (by omega),
                      List.getElem?_set_self (by omega), ht.pre] }⟩
  · rw [if_neg hlt, if_neg hlt]
    obtain ⟨y, y1, y2, e1, e2⟩ := macBlock_full hc hc' hn (ht.full (by omega))
    rw [M.bind_ok e1, M.bind_ok e2]
    have hs := bytesSet_ok (b := y) (i := 0) (c := ch) (by omega)
    rw [Int.natCast_zero] at hs
    simp only [M.bind_def, M.get_def, hs, M.orRaise_some, M.modify_def]
    exact ⟨rfl, { key := ht.key, key' := ht.key', iv := rfl, ivlen := y2, used := rfl, le := hpos
                  len := by simp only [List.length_set]; exact y1
                  len' := by simp only [List.length_set]; exact y1, pre := rfl }⟩

theorem macFlush_keep :
    Keep (MacLike c.blocksize k k')
      (do let st ← M.get
          if st.used = c.blocksize then
            macBlock c
            M.modify fun st => { st with used := 0 } : M (MacSt σ) Unit)
      (do let st ← M.get
          if st.used = c'.blocksize then
            macBlock c'
            M.modify fun st => { st with used := 0 } : M (MacSt σ') Unit) := by
  intro t t' ht
  refine Sim.get ?_
  rw [← ht.used, hn]
  split
  · obtain ⟨y, y1, y2, e1, e2⟩ := macBlock_full hc hc' hn (ht.full (by assumption))
    rw [M.bind_ok e1, M.bind_ok e2]
    exact ⟨rfl, { key := ht.key, key' := ht.key', iv := rfl, ivlen := y2, used := rfl, le := Nat.zero_le _
                  len := y1, len' := y1, pre := rfl }⟩
  · exact ⟨rfl, ht⟩

theorem macResult_keep {pad : Option PadScheme}
    (hp : ∀ P, pad = some P → ∃ f, P.Computes c.blocksize f) :
    Keep (MacLike c.blocksize k k') (macResult c pad) (macResult c' pad) := by
  intro t t' ht
  rw [macResult_eq, macResult_eq]
  have hpos := hc.pos
  have hfl := macFlush_keep hc hc' hn t t' ht
  -- after the flush, the block is not full
  have hnot : Sim (fun _ s s' => MacLike c.blocksize k k' s s' ∧ s.used < c.blocksize) (MacLike c.blocksize k k')
      ((do let st ← M.get
           if st.used = c.blocksize then
             macBlock c
             M.modify fun st => { st with used := 0 } : M (MacSt σ) Unit) t)
      ((do let st ← M.get
           if st.used = c'.blocksize then
             macBlock c'
             M.modify fun st => { st with used := 0 } : M (MacSt σ') Unit) t') := by
    have hle := ht.le
    refine Sim.get ?_
    rw [← ht.used, hn]
    split
    · obtain ⟨y, y1, y2, e1, e2⟩ := macBlock_full hc hc' hn (ht.full (by assumption))
      rw [M.bind_ok e1, M.bind_ok e2]
      exact ⟨rfl, { key := ht.key, key' := ht.key', iv := rfl, ivlen := y2, used := rfl, le := Nat.zero_le _
                    len := y1, len' := y1, pre := rfl }, hpos⟩
    · exact ⟨rfl, ht, by omega⟩
  refine Sim.bind hnot fun _ s s' ⟨hs, hlt⟩ => Sim.get ?_
  cases pad with
  | none =>
    simp only
    rw [← hs.used]
    split
    · exact ⟨rfl, hs⟩
    · exact ⟨hs.iv, hs⟩
  | some P =>
    obtain ⟨f, hf⟩ := hp P rfl
    have p1 := hf.pad_ok (b := s.buffer) (used := s.used) hs.len hlt
    have p2 := hf.pad_ok (b := s'.buffer) (used := s.used) hs.len' hlt
    rw [← hs.pre] at p2
    have hl : (s.buffer.take s.used).length = s.used := by rw [List.length_take]; have := hs.len; omega
    have hpl := hf.pad_len (x := s.buffer.take s.used) (by omega)
    generalize f (s.buffer.take s.used) = x at p1 p2 hpl
    have hF : MacFull c.blocksize k k' { s with buffer := x } { s' with buffer := x } :=
      { key := hs.key, key' := hs.key', iv := hs.iv, ivlen := hs.ivlen, used := hs.used, len := hpl, buf := rfl }
    obtain ⟨y, y1, y2, e1, e2⟩ := macBlock_full hc hc' hn hF
    simp only [← hs.used, p1, p2, Verif.ofExcept, M.bind_def, M.pure, M.modify_def, M.get_def, M.pure_def]
    rw [hs.used, e2]
    rw [hs.used] at e1
    rw [e1]
    exact ⟨rfl, { key := hs.key, key' := hs.key', iv := rfl, ivlen := y2, used := rfl, le := Nat.zero_le _
                  len := y1, len' := y1, pre := rfl }⟩

theorem cmacEnd_sim {K : Bytes} (hK : K.length = c.blocksize) {t : MacSt σ} {t' : MacSt σ'}
    (h : MacFull c.blocksize k k' t t') :
    Sim (fun _ => MacLike c.blocksize k k') (MacLike c.blocksize k k')
      ((do let st ← M.get
           macXor c st.iv
           macXor c K
           macCall c
           M.modify fun st => { st with used := 0 }
           let st ← M.get
           pure st.iv : M (MacSt σ) Bytes) t)
      ((do let st ← M.get
           macXor c' st.iv
           macXor c' K
           macCall c'
           M.modify fun st => { st with used := 0 }
           let st ← M.get
           pure st.iv : M (MacSt σ') Bytes) t') := by
  have hb := h.len
  have hi := h.ivlen
  have hxl : (xorb (xorb t.buffer t.iv) K).length = c.blocksize := by simp only [xorb_length]; omega
  have run : ∀ {σ : Type} {c : BlockCipher σ} {k : σ} {t : MacSt σ}, PureCipher c k E → t.c = k →
      t.buffer.length = c.blocksize → t.iv.length = c.blocksize → K.length = c.blocksize →
      (do let st ← M.get
          macXor c st.iv
          macXor c K
          macCall c
          M.modify fun st => { st with used := 0 }
          let st ← M.get
          pure st.iv : M (MacSt σ) Bytes) t
        = .ok (E (xorb (xorb t.buffer t.iv) K))
            { t with iv := E (xorb (xorb t.buffer t.iv) K), buffer := xorb (xorb t.buffer t.iv) K, used := 0 } := by
    intro σ c k t hc hk hb hi hK
    have hxl : (xorb (xorb t.buffer t.iv) K).length = c.blocksize := by simp only [xorb_length]; omega
    rw [M.bind_ok (M.get_def t), M.bind_ok (macXor_ok hb hi),
      M.bind_ok (macXor_ok (by simp only [xorb_length]; omega) hK),
      M.bind_ok (macCall_ok (st := ⟨t.c, t.iv, xorb (xorb t.buffer t.iv) K, t.used⟩) hc hk hxl hi)]
    rfl
  rw [run hc h.key hb hi hK,
    run hc' h.key' (by rw [← h.buf, hn]; exact hb) (by rw [← h.iv, hn]; exact hi) (by rw [hn]; exact hK)]
  rw [← h.buf, ← h.iv]
  exact ⟨rfl, { key := h.key, key' := h.key', iv := rfl, ivlen := hc.out_len (s := k) rfl hxl, used := rfl
                le := Nat.zero_le _, len := hxl, len' := hxl, pre := rfl }⟩

theorem cmacResult_keep {K1 K2 : Bytes} (h1 : K1.length = c.blocksize) (h2 : K2.length = c.blocksize) :
    Keep (MacLike c.blocksize k k') (cmacResult c K1 K2) (cmacResult c' K1 K2) := by
  intro t t' ht
  have hle := ht.le
  have hcomp := _8000_computes (n := c.blocksize)
  unfold cmacResult
  refine Sim.get ?_
  rw [← ht.used, hn]
  by_cases hu : t.used = c.blocksize
  · rw [if_pos hu, if_pos hu, M.bind_ok (M.pure_def _ _), M.bind_ok (M.pure_def _ _)]
    exact cmacEnd_sim hc hc' hn h1 (ht.full hu)
  · rw [if_neg hu, if_neg hu]
    have p1 := hcomp.pad_ok (b := t.buffer) (used := t.used) ht.len (by omega)
    have p2 := hcomp.pad_ok (b := t'.buffer) (used := t.used) ht.len' (by omega)
    rw [← ht.pre] at p2
    have hpl := hcomp.pad_len (x := t.buffer.take t.used) (by rw [List.length_take]; omega)
    generalize Spec.pad8000 c.blocksize (t.buffer.take t.used) = x at p1 p2 hpl
    rw [p1, p2]
    have e1 : (Verif.ofExcept (.ok x) : M (MacSt σ) Bytes) t = .ok x t := rfl
    have e2 : (Verif.ofExcept (.ok x) : M (MacSt σ') Bytes) t' = .ok x t' := rfl
    rw [M.bind_ok e1, M.bind_ok e2, M.bind_ok (M.modify_def _ _), M.bind_ok (M.modify_def _ _),
      M.bind_ok (M.pure_def _ _), M.bind_ok (M.pure_def _ _)]
    exact cmacEnd_sim hc hc' hn h2
      { key := ht.key, key' := ht.key', iv := ht.iv, ivlen := ht.ivlen, used := ht.used, len := hpl, buf := rfl }

theorem mac_add_keep (pad : Option PadScheme) (op : HOp) :
    Keep (MacLike c.blocksize k k') ((mac c pad).call op) ((mac c' pad).call op) := by
  intro t t' ht
  cases op with
  | addSubstring b ofs len => exact macAdd_keep hc hc' hn b _ ofs len t t' rfl ht
  | addString b => exact macAdd_keep hc hc' hn b _ 0 b.length t t' rfl ht
  | addChar ch => exact macAddChar_keep hc hc' hn ch t t' ht
  | addByte b => exact macAddChar_keep hc hc' hn (BitVec.ofInt 8 b) t t' ht

theorem mac_keep {pad : Option PadScheme} (hp : ∀ P, pad = some P → ∃ f, P.Computes c.blocksize f) (x : HashCall) :
    Keep (MacLike c.blocksize k k') (performHash (mac c pad) x) (performHash (mac c' pad) x) := by
  cases x with
  | add op => exact (mac_add_keep hc hc' hn pad op).unit
  | result => exact macResult_keep hc hc' hn hp

end

section
variable {env env' : Env} {E : Bytes → Bytes}

theorem padLib_computes {pad : Option PadScheme} (hp : PadLib pad) {n : Nat} (h0 : 0 < n) (hn : n < 256) :
    ∀ P, pad = some P → ∃ f, P.Computes n f := by
  intro P hP
  rcases hp with h | h | h <;> rw [h] at hP <;> cases hP
  · exact ⟨_, length_computes h0 hn⟩
  · exact ⟨_, _8000_computes⟩

/-- The MAC objects start in related states. -/
theorem macInit_same (env env' : Env) {σ σ' : Type} (c : BlockCipher σ) (c' : BlockCipher σ') (k : σ) (k' : σ')
    (hn : c'.blocksize = c.blocksize) (iv : Option Bytes) :
    SameResult (MacLike c.blocksize k k') (some (macInit env c k iv)) (some (macInit env' c' k' iv)) := by
  unfold macInit
  rw [hn]
  cases h : makeInitialIV c.blocksize iv with
  | error e => rfl
  | ok v =>
    have hv : v.length = c.blocksize := by
      cases iv with
      | none => cases h; simp
      | some w =>
        simp only [makeInitialIV] at h
        split at h
        · cases h
        · cases h; omega
    exact { key := rfl, key' := rfl, iv := rfl, ivlen := hv, used := rfl, le := Nat.zero_le _
            len := by simp, len' := by simp, pre := rfl }

theorem ofBlock_same {mk mk' : Option (Except Exn AnyBlock)} {keyOk : Prop} {n : Nat} {iv : Option Bytes}
    {pad : Option PadScheme} (hn : n < 256) (hp : PadLib pad)
    (h1 : keyOk → ∃ b, mk = some (.ok b) ∧ b.c.blocksize = n ∧ PureCipher b.c b.s E)
    (h1' : keyOk → ∃ b, mk' = some (.ok b) ∧ b.c.blocksize = n ∧ PureCipher b.c b.s E)
    (h2 : ¬ keyOk → mk = some (.error (.error .wrongKeySize)))
    (h2' : ¬ keyOk → mk' = some (.error (.error .wrongKeySize))) :
    SameResult SameHash (MAC.ofBlock env iv pad mk) (MAC.ofBlock env' iv pad mk') := by
  by_cases hk : keyOk
  swap
  · rw [h2 hk, h2' hk]; rfl
  obtain ⟨b, rfl, hb, hc⟩ := h1 hk
  obtain ⟨b', rfl, hb', hc'⟩ := h1' hk
  have hbb : b'.c.blocksize = b.c.blocksize := by rw [hb, hb']
  have h := macInit_same env env' b.c b'.c b.s b'.s hbb iv
  simp only [MAC.ofBlock, Option.map_some, Except.bind]
  cases e1 : macInit env b.c b.s iv with
  | error e =>
    cases e2 : macInit env' b'.c b'.s iv with
    | error e' => rw [e1, e2] at h; exact h
    | ok s' => rw [e1, e2] at h; exact h.elim
  | ok s =>
    cases e2 : macInit env' b'.c b'.s iv with
    | error e' => rw [e1, e2] at h; exact h.elim
    | ok s' =>
      rw [e1, e2] at h
      intro cs
      exact traceBy_keep (mac_keep hc hc' hbb (padLib_computes hp hc.pos (by rw [hb]; exact hn))) cs h

variable {iv : Option Bytes} {pad : Option PadScheme} {key : Bytes}

/-- C97, `MAC.aes`, whether or not the hosts have AES-NI instructions. -/
theorem C97_mac_aes (env env' : Env) (host host' : AesHost) (hp : PadLib pad) :
    SameResult SameHash (MAC.aes env host iv pad key) (MAC.aes env' host' iv pad key) :=
  ofBlock_same (n := 16) (by decide) hp (aesBlock_enc host) (aesBlock_enc host') (aesBlock_key host .encrypt)
    (aesBlock_key host' .encrypt)

theorem desBlock_enc : key.length = 8 → ∃ b, desBlock .encrypt key = some (.ok b) ∧ b.c.blocksize = 8
    ∧ PureCipher b.c b.s (Spec.Des.encrypt key) := fun hk => by
  obtain ⟨ke, kd, h1, h2, h3, h4, h5⟩ := C43_des hk
  exact ⟨⟨Des.cipher, ke⟩, by simp [desBlock, h1, Except.map], rfl, h4⟩

/-- C97, `MAC.des`. -/
theorem C97_mac_des (env env' : Env) (hp : PadLib pad) :
    SameResult SameHash (MAC.des env iv pad key) (MAC.des env' iv pad key) :=
  ofBlock_same (n := 8) (by decide) hp desBlock_enc desBlock_enc (desBlock_key _) (desBlock_key _)

/-- C97, `MAC.triple_des`. -/
theorem C97_mac_triple_des (env env' : Env) (hp : PadLib pad) :
    SameResult SameHash (MAC.tripleDes env iv pad key) (MAC.tripleDes env' iv pad key) := by
  have h2 : ¬ (key.length = 16 ∨ key.length = 24) →
      tripleDesBlock .encrypt key = some (.error (.error .wrongKeySize)) := by
    intro hk
    obtain ⟨_, h1, h2⟩ := C14_des_key_size key true
    simp [tripleDesBlock, h1.2 hk, Except.map]
  have h1 : key.length = 16 ∨ key.length = 24 → ∃ b, tripleDesBlock .encrypt key = some (.ok b)
      ∧ b.c.blocksize = 8 ∧ PureCipher b.c b.s (Spec.Des.encrypt3 key) := fun hk => by
    obtain ⟨ke, kd, h1, h2, h3, h4, h5⟩ := C43_triple_des hk
    exact ⟨⟨Des.cipher3, ke⟩, by simp [tripleDesBlock, h1, Except.map], rfl, h4⟩
  exact ofBlock_same (n := 8) (by decide) hp h1 h1 h2 h2

/-- C97, `MAC.aes_cmac`. -/
theorem C97_aes_cmac (env env' : Env) (host host' : AesHost) :
    SameResult SameHash (MAC.aesCmac env host iv key) (MAC.aesCmac env' host' iv key) := by
  unfold MAC.aesCmac
  by_cases hk : key.length = 16 ∨ key.length = 24 ∨ key.length = 32
  swap
  · rw [aesBlock_key host .encrypt hk, aesBlock_key host' .encrypt hk]; rfl
  obtain ⟨b, e1, hb, hc⟩ := aesBlock_enc host hk
  obtain ⟨b', e1', hb', hc'⟩ := aesBlock_enc host' hk
  have hbb : b'.c.blocksize = b.c.blocksize := by rw [hb, hb']
  rw [e1, e1']
  have h := macInit_same env env' b.c b'.c b.s b'.s hbb iv
  simp only [Option.bind_some, aesCmacNew_eq hc env hb, aesCmacNew_eq hc' env' hb']
  cases i1 : macInit env b.c b.s iv with
  | error e =>
    cases i2 : macInit env' b'.c b'.s iv with
    | error e' => rw [i1, i2] at h; exact h
    | ok s' => rw [i1, i2] at h; exact h.elim
  | ok s =>
    cases i2 : macInit env' b'.c b'.s iv with
    | error e' => rw [i1, i2] at h; exact h.elim
    | ok s' =>
      rw [i1, i2] at h
      intro cs
      let L : CmacSt b.σ → CmacSt b'.σ → Prop := fun t t' => MacLike b.c.blocksize b.s b'.s t.m t'.m
        ∧ t.k1 = Spec.K1 (Spec.Aes.encrypt key) ∧ t.k2 = Spec.K2 (Spec.Aes.encrypt key)
        ∧ t'.k1 = Spec.K1 (Spec.Aes.encrypt key) ∧ t'.k2 = Spec.K2 (Spec.Aes.encrypt key)
      have zoom : ∀ {α : Type} {m : M (MacSt b.σ) α} {m' : M (MacSt b'.σ) α}, Keep (MacLike b.c.blocksize b.s b'.s) m m' →
          Keep L (CmacSt.onMac m) (CmacSt.onMac m') := fun hm t t' ht =>
        Sim.zoom (hm _ _ ht.1) (fun _ _ _ h => ⟨h, ht.2⟩) fun _ _ h => ⟨h, ht.2⟩
      refine traceBy_keep (L := L) (fun x => ?_) cs ⟨h, rfl, rfl, rfl, rfl⟩
      cases x with
      | add op =>
        refine Keep.unit ?_
        rw [cmac_call_eq, cmac_call_eq]
        exact zoom (mac_add_keep hc hc' hbb none op)
      | result =>
        intro t t' ht
        obtain ⟨h0, h1, h2, h3, h4⟩ := ht
        refine Sim.get ?_
        rw [h1, h2, h3, h4]
        exact zoom (cmacResult_keep hc hc' hbb (by rw [hb]; exact ofBits_length _) (by rw [hb]; exact ofBits_length _))
          _ _ ⟨h0, h1, h2, h3, h4⟩

/-- C97, `MAC.des_final_triple_des`. -/
theorem C97_des_final_triple_des (env env' : Env) (hp : PadLib pad) :
    SameResult SameHash (MAC.desFinalTripleDes env iv pad key) (MAC.desFinalTripleDes env' iv pad key) := by
  unfold MAC.desFinalTripleDes
  by_cases hk : key.length = 16 ∨ key.length = 24
  swap
  · rw [if_pos hk, if_pos hk]; rfl
  rw [if_neg (fun h => h hk), if_neg (fun h => h hk)]
  have dec : ∀ {key : Bytes}, key.length = 8 → ∃ b, desBlock .decrypt key = some (.ok b) ∧ b.c.blocksize = 8
      ∧ PureCipher b.c b.s (Spec.Des.decrypt key) := fun hk => by
    obtain ⟨ke, kd, h1, h2, h3, h4, h5⟩ := C43_des hk
    exact ⟨⟨Des.cipher, kd⟩, by simp [desBlock, h2, Except.map], rfl, h5⟩
  have l1 : (slice key 0 8).length = 8 := slice_length_of_le (by omega)
  have l2 : (slice key 8 8).length = 8 := slice_length_of_le (by omega)
  have l3 : (if key.length = 24 then slice key 16 8 else slice key 0 8).length = 8 := by
    split
    · exact slice_length_of_le (by omega)
    · exact l1
  obtain ⟨b1, e1, s1, p1⟩ := desBlock_enc l1
  obtain ⟨b2, e2, s2, p2⟩ := dec l2
  obtain ⟨b3, e3, s3, p3⟩ := desBlock_enc l3
  simp only [e1, e2, e3]
  have h := macInit_same env env' b1.c b1.c b1.s b1.s rfl iv
  show SameResult SameHash (some ((mac3Init env b1.c b2.c b3.c b1.s b2.s b3.s iv).map _))
    (some ((mac3Init env' b1.c b2.c b3.c b1.s b2.s b3.s iv).map _))
  unfold mac3Init
  rw [if_neg (by omega), if_neg (by omega)]
  cases i1 : macInit env b1.c b1.s iv with
  | error e =>
    cases i2 : macInit env' b1.c b1.s iv with
    | error e' => rw [i1, i2] at h; exact h
    | ok s' => rw [i1, i2] at h; exact h.elim
  | ok s =>
    cases i2 : macInit env' b1.c b1.s iv with
    | error e' => rw [i1, i2] at h; exact h.elim
    | ok s' =>
      rw [i1, i2] at h
      intro cs
      let L : Mac3St b1.σ b2.σ b3.σ → Mac3St b1.σ b2.σ b3.σ → Prop := fun t t' =>
        MacLike b1.c.blocksize b1.s b1.s t.m t'.m ∧ t.c2 = t'.c2 ∧ t.c3 = t'.c3
      have zoom : ∀ {α : Type} {m m' : M (MacSt b1.σ) α}, Keep (MacLike b1.c.blocksize b1.s b1.s) m m' →
          Keep L (Mac3St.onMac m) (Mac3St.onMac m') := fun hm t t' ht =>
        Sim.zoom (hm _ _ ht.1) (fun _ _ _ h => ⟨h, ht.2⟩) fun _ _ h => ⟨h, ht.2⟩
      refine traceBy_keep (L := L) (fun x => ?_) cs ⟨h, rfl, rfl⟩
      cases x with
      | add op =>
        refine Keep.unit ?_
        have : (macFinalTriple b1.c b2.c b3.c pad).call op = Mac3St.onMac ((mac b1.c pad).call op) := by cases op <;> rfl
        rw [this]
        exact zoom (mac_add_keep p1 p1 rfl pad op)
      | result =>
        intro t t' ht
        refine Sim.bind (zoom (macResult_keep p1 p1 rfl (padLib_computes hp p1.pos (by omega))) t t' ht)
          fun r u u' hu => ?_
        obtain ⟨h0, h1, h2⟩ := hu
        unfold mac3Finish
        rw [← h1, ← h2]
        cases b2.c.transform .self 0 0 (u.c2, r) with
        | ok a v =>
          simp only
          cases b3.c.transform .self 0 0 (u.c3, v.2) with
          | ok a w => exact ⟨rfl, h0, rfl, rfl⟩
          | exn e w => exact ⟨rfl, h0, rfl, rfl⟩
          | ub => trivial
          | loop => trivial
        | exn e v => exact ⟨rfl, h0, rfl, rfl⟩
        | ub => trivial
        | loop => trivial

end
open Example in
/-- The MACs of both machines are made, and the memory differs. -/
example (host host' : AesHost) : ∃ A B, MAC.aes env64 host none (some Padding.length) aesKey = some (.ok A)
    ∧ MAC.aes envA5 host' none (some Padding.length) aesKey = some (.ok B) ∧ SameHash A B
    ∧ env64.create 16 ≠ envA5.create 16 := by
  obtain ⟨A, h1, _⟩ := (C15_mac_aes (env := env64) (key := aesKey) (iv := none) host (.length (by decide))).success
    (.inl rfl) (by simp [IVOk])
  obtain ⟨B, h2, _⟩ := (C15_mac_aes (env := envA5) (key := aesKey) (iv := none) host' (.length (by decide))).success
    (.inl rfl) (by simp [IVOk])
  have h := C97_mac_aes (iv := none) (key := aesKey) env64 envA5 host host' (.inr (.inl rfl))
  rw [h1, h2] at h
  exact ⟨A, B, h1, h2, h, create_A5⟩

open Example in
example (iv : Option Bytes) (host host' : AesHost) :=
  And.intro (C97_mac_des (iv := iv) (key := desKey) env64 envA5 (.inl rfl))
    (And.intro (C97_mac_triple_des (iv := iv) (key := desKey3) env64 envA5 (.inr (.inr rfl)))
      (And.intro (C97_aes_cmac (iv := iv) (key := aesKey) env64 envA5 host host')
        (C97_des_final_triple_des (iv := iv) (key := desKey3) env64 envA5 (.inl rfl))))

end Verif
