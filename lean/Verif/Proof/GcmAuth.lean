import Verif.Proof.Gcm
import Verif.Proof.Auth
/-
AES-GCM: finish_and_get_tag and whole runs.
-/
namespace Verif

open Spec Spec.GCM

variable {κ : Type} {aes : BlockCipher κ} {k : κ} {E : Bytes → Bytes}

/-- The tag computed from the variables. -/
def tagOf (H : Bytes) (s : GcmSt κ) : Bytes :=
  xorb (ghashMul (xorb s.mac (toBE64 (s.headerlen * 8) ++ toBE64 (s.cipherlen * 8))) H) s.e0

/-- The last, possibly short block. -/
def lastBlock (f : σ → Bytes → BRes σ) (p : σ × Bytes) : SRes (σ × Bytes) :=
  if p.2.length = 0 then .ok [] p else oneBlock f p.1 p.2

theorem lazy_last {n : Nat} (hn : 0 < n) {f : σ → Bytes → BRes σ} (buf : Bytes) (s : σ) :
    (lazyBlocks n f s buf).andThen (lastBlock f) = runBlocks f s (chunks n buf) := by
  induction h : buf.length using Nat.strongRecOn generalizing buf s with
  | _ m ih =>
    by_cases hl : buf.length ≤ n
    · rw [lazyBlocks_le hl, SRes.andThen_ok_nil]
      unfold lastBlock
      by_cases h0 : buf.length = 0
      · have : buf = [] := List.length_eq_zero_iff.1 h0
        subst this
        simp [chunks_nil, runBlocks]
      · have hne : buf ≠ [] := by intro h; subst h; simp at h0
        rw [if_neg h0, chunks_cons hn hne,
          List.take_of_length_le (by omega), List.drop_of_length_le (by omega), chunks_nil]
        simp only [runBlocks]
        unfold oneBlock
        cases hexn : (f s buf).exn <;> simp [SRes.andThen, hexn]
    · have hne : buf ≠ [] := by intro h; subst h; simp at hl
      rw [lazyBlocks_gt hn (by omega), chunks_cons hn hne]
      simp only [runBlocks]
      have ih' := ih (buf.drop n).length (by simp; omega) (buf.drop n) (f s (buf.take n)).st rfl
      unfold oneBlock
      cases hexn : (f s (buf.take n)).exn with
      | some e => simp [SRes.andThen, hexn]
      | none =>
        simp only [hexn]
        rw [SRes.andThen_assoc]
        simp only [SRes.andThen] at ih' ⊢
        rw [ih']

/-- `finish_and_get_tag` at the level of data. -/
def gcmFin (f : GcmSt κ → Bytes → BRes (GcmSt κ)) (H : Bytes) (p : GcmSt κ × Bytes) : SRes Bytes :=
  (lastBlock f p).andThen (fun p' => .ok [] (tagOf H p'.1))

theorem gcmTag_ok (env : Env) {H : Bytes} {t : CipherSt (GcmSt κ)} (hs : GcmInv k H t.c) :
    gcmTag env t = .ok (tagOf H t.c) { t with c := { t.c with
      mac := ghashMul (xorb t.c.mac (toBE64 (t.c.headerlen * 8) ++ toBE64 (t.c.cipherlen * 8))) H } } := by
  simp only [gcmTag, M.bind_def, M.get_def, ghashFinal_ok env hs.h hs.mac hs.e0, M.modify_def,
    M.pure_def, tagOf]

theorem gcmOnOut_ok {m : M (GcmSt κ × Bytes) α} {a : α} {t : CipherSt (GcmSt κ)}
    {r : GcmSt κ × Bytes} (h : m (t.c, t.ob.obuf) = .ok a r) :
    gcmOnOut m t = .ok a { t with c := r.1, ob := { t.ob with obuf := r.2 } } := by
  simp only [gcmOnOut, M.zoom, h]

theorem gcmOnOut_exn {m : M (GcmSt κ × Bytes) α} {e : Exn} {t : CipherSt (GcmSt κ)}
    {r : GcmSt κ × Bytes} (h : m (t.c, t.ob.obuf) = .exn e r) :
    gcmOnOut m t = .exn e { t with c := r.1, ob := { t.ob with obuf := r.2 } } := by
  simp only [gcmOnOut, M.zoom, h]

/-- The last block of an encryption. -/
theorem gcmEncLast_ok {env : Env} (h : PureCipher aes k E) (hb : aes.blocksize = 16) {H : Bytes}
    {t : CipherSt (GcmSt κ)} {p : GcmSt κ × Bytes} {q : Bytes}
    (hR : BlockRep env (gcmEncWrapped aes) (GcmInv k H) t p q) (h0 : p.2.length ≠ 0)
    (hfit : q.length + p.2.length ≤ env.maxLen) :
    match (gcmEncF E H t.c p.2).exn with
    | none => ∃ t', gcmEncLast env aes t = .ok () t'
        ∧ t'.c = (gcmEncF E H t.c p.2).st ∧ t'.ibuf = t.ibuf ∧ t'.used = t.used
        ∧ OBuf.Rep env t'.ob (q ++ (gcmEncF E H t.c p.2).out)
    | some e => ∃ t', gcmEncLast env aes t = .exn e t'
        ∧ t'.c = (gcmEncF E H t.c p.2).st ∧ t'.ibuf = t.ibuf ∧ t'.used = t.used
        ∧ OBuf.Rep env t'.ob (q ++ (gcmEncF E H t.c p.2).out) := by
  have hinv := hR.inv
  have hused := hR.used
  have hil : t.ibuf.length = 16 := hR.ilen
  have hle : p.2.length ≤ 16 := hR.le
  have hpend := hR.pend
  rw [hused] at hpend
  obtain ⟨o', h1, h2, h3⟩ := OBuf.ensureCapacity_ok hR.ob t.used (by omega)
  rw [hused] at h1 h3
  have hfi := (gcmEncF_inv h hb hinv (b := p.2) hle).2
  have h4 := ctrEncDec_ok h hb hinv (src := .other t.ibuf) (so := 0) (dofs := o'.oend)
    (len := p.2.length) (dst := o'.obuf) hle (by rw [Src.read_other]; omega) h3
  rw [Src.read_other, slice_zero, hpend, Int.natCast_zero] at h4
  have hol : (xorb p.2 (E (inc32 t.c.ctr))).length = p.2.length := hfi
  have hdl : (splice o'.obuf o'.oend (xorb p.2 (E (inc32 t.c.ctr)))).length = o'.obuf.length :=
    splice_length (by omega)
  have h5 := gcmHash_ok (H := H) (s := { t.c with
      ctr := inc32 t.c.ctr, buf := xorb (E (inc32 t.c.ctr)) (pad16 p.2) }) hinv.h hinv.mac
    (b := splice o'.obuf o'.oend (xorb p.2 (E (inc32 t.c.ctr))))
    (dst := splice o'.obuf o'.oend (xorb p.2 (E (inc32 t.c.ctr))))
    (ofs := o'.oend) (len := p.2.length) hle (by omega)
  rw [slice_splice_same' hol (by omega)] at h5
  have hw := h2.write (x := xorb p.2 (E (inc32 t.c.ctr))) (by omega)
  rw [hol] at hw
  unfold gcmEncLast
  rw [M.bind_ok (M.get_def t), if_pos (by omega)]
  have e1 : CipherSt.onBuf (OBuf.ensureCapacity env t.used) t = .ok () { t with ob := o' } := by
    simp only [CipherSt.onBuf, M.zoom, hused, h1]
  rw [M.bind_ok e1, M.bind_ok (M.get_def _)]
  have e2 := gcmOnOut_ok (t := { t with ob := o' }) h4
  rw [← hused] at e2
  rw [M.bind_ok e2, M.bind_ok (M.get_def _)]
  have e3 := gcmOnOut_ok (t := { t with
    c := { t.c with ctr := inc32 t.c.ctr, buf := xorb (E (inc32 t.c.ctr)) (pad16 p.2) }
    ob := { o' with obuf := splice o'.obuf o'.oend (xorb p.2 (E (inc32 t.c.ctr))) } }) h5
  rw [← hused] at e3
  rw [M.bind_ok e3, M.bind_ok (M.modify_def _ _)]
  simp only [gcmOnOut, gcmCount, gcmCheck, M.bind_def, M.zoom, M.modify_def, M.get_def, gcmEncF]
  rw [← hused]
  by_cases hc : (t.c.cipherlen + BitVec.ofNat 64 t.used).toInt > 0xfffffffe0
  · simp only [if_pos hc]
    refine ⟨_, rfl, rfl, rfl, rfl, ?_⟩
    rw [← hused] at hw
    exact hw
  · simp only [if_neg hc]
    refine ⟨_, rfl, rfl, rfl, rfl, ?_⟩
    rw [← hused] at hw
    exact hw

theorem gcmEncFinish_ok {env : Env} (h : PureCipher aes k E) (hb : aes.blocksize = 16) {H : Bytes}
    {t : CipherSt (GcmSt κ)} {p : GcmSt κ × Bytes} {q : Bytes}
    (hR : BlockRep env (gcmEncWrapped aes) (GcmInv k H) t p q) :
    match gcmFin (gcmEncF E H) H p with
    | .ok out tag => q.length + out.length ≤ env.maxLen →
        ∃ t' p', gcmEncFinish env aes t = .ok tag t'
          ∧ BlockRep env (gcmEncWrapped aes) (GcmInv k H) t' p' (q ++ out)
    | .err out e => q.length + out.length ≤ env.maxLen →
        ∃ t', gcmEncFinish env aes t = .exn e t' := by
  have hinv := hR.inv
  have hused := hR.used
  have hle : p.2.length ≤ 16 := hR.le
  have hst := hR.st
  unfold gcmFin lastBlock gcmEncFinish
  by_cases h0 : p.2.length = 0
  · rw [if_pos h0, SRes.andThen_ok_nil]
    intro _
    have e0 : gcmEncLast env aes t = .ok () t := by
      unfold gcmEncLast
      rw [M.bind_ok (M.get_def t), if_neg (by omega)]; rfl
    rw [M.bind_ok e0, ← hst, gcmTag_ok env hinv]
    exact ⟨_, (_, p.2), rfl,
      { inv := ⟨hinv.aes, hinv.h, hinv.ctr, ghashMul_length _ _, hinv.buf, hinv.e0⟩,
        st := rfl, ilen := hR.ilen, used := hused, le := hR.le, pend := hR.pend,
        ob := by simpa using hR.ob }⟩
  · rw [if_neg h0]
    have hfi := gcmEncF_inv h hb hinv (b := p.2) hle
    have HH := gcmEncLast_ok h hb hR h0
    simp only [oneBlock]
    rw [← hst]
    cases hexn : (gcmEncF E H t.c p.2).exn with
    | none =>
      rw [hexn] at HH
      simp only [SRes.andThen, hexn, List.append_nil]
      intro hfit
      obtain ⟨t', e1, e2, e3, e4, e5⟩ := HH (by omega)
      have hinv' : GcmInv k H t'.c := by rw [e2]; exact hfi.1
      rw [M.bind_ok e1, ← e2, gcmTag_ok env hinv']
      exact ⟨_, (_, p.2), rfl,
        { inv := ⟨hinv'.aes, hinv'.h, hinv'.ctr, ghashMul_length _ _, hinv'.buf, hinv'.e0⟩,
          st := rfl, ilen := by rw [e3]; exact hR.ilen, used := by rw [e4, hused], le := hR.le,
          pend := by rw [e3, e4]; exact hR.pend, ob := e5 }⟩
    | some e =>
      rw [hexn] at HH
      simp only [SRes.andThen, hexn]
      intro hfit
      obtain ⟨t', e1, _⟩ := HH (by omega)
      exact ⟨t', M.bind_exn e1⟩

/-- The last block of a decryption. -/
theorem gcmDecLast_ok {env : Env} (h : PureCipher aes k E) (hb : aes.blocksize = 16) {H : Bytes}
    {t : CipherSt (GcmSt κ)} {p : GcmSt κ × Bytes} {q : Bytes}
    (hR : BlockRep env (gcmDecWrapped aes) (GcmInv k H) t p q) (h0 : p.2.length ≠ 0)
    (hfit : q.length + p.2.length ≤ env.maxLen) :
    ∃ t', gcmDecLast env aes t = .ok () t'
        ∧ t'.c = (gcmDecF E H t.c p.2).st ∧ t'.ibuf = t.ibuf ∧ t'.used = t.used
        ∧ OBuf.Rep env t'.ob (q ++ (gcmDecF E H t.c p.2).out) := by
  have hinv := hR.inv
  have hused := hR.used
  have hil : t.ibuf.length = 16 := hR.ilen
  have hle : p.2.length ≤ 16 := hR.le
  have hpend := hR.pend
  rw [hused] at hpend
  obtain ⟨o', h1, h2, h3⟩ := OBuf.ensureCapacity_ok hR.ob t.used (by omega)
  rw [hused] at h1 h3
  have hfi := (gcmDecF_inv h hb hinv (b := p.2) hle).2
  have h5 := gcmHash_ok (H := H) (s := t.c) hinv.h hinv.mac
    (b := t.ibuf) (dst := t.ob.obuf) (ofs := 0) (len := p.2.length) hle (by omega)
  rw [slice_zero, hpend, Int.natCast_zero] at h5
  have h4 := ctrEncDec_ok h hb (s := { t.c with mac := ghashMul (xorb t.c.mac (pad16 p.2)) H })
    ⟨hinv.aes, hinv.h, hinv.ctr, ghashMul_length _ _, hinv.buf, hinv.e0⟩
    (src := .other t.ibuf) (so := 0) (dofs := o'.oend)
    (len := p.2.length) (dst := o'.obuf) hle (by rw [Src.read_other]; omega) h3
  rw [Src.read_other, slice_zero, hpend, Int.natCast_zero] at h4
  have hol : (xorb p.2 (E (inc32 t.c.ctr))).length = p.2.length := hfi
  have hw := h2.write (x := xorb p.2 (E (inc32 t.c.ctr))) (by omega)
  rw [hol] at hw
  unfold gcmDecLast
  rw [M.bind_ok (M.get_def t), if_pos (by omega)]
  have e3 := gcmOnOut_ok (t := t) h5
  rw [← hused] at e3
  rw [M.bind_ok e3]
  have e1 : CipherSt.onBuf (OBuf.ensureCapacity env t.used)
        { t with c := { t.c with mac := ghashMul (xorb t.c.mac (pad16 p.2)) H } }
      = .ok () { t with c := { t.c with mac := ghashMul (xorb t.c.mac (pad16 p.2)) H }, ob := o' } := by
    simp only [CipherSt.onBuf, M.zoom, hused, h1]
  rw [M.bind_ok e1, M.bind_ok (M.get_def _)]
  have e2 := gcmOnOut_ok (t := { t with
    c := { t.c with mac := ghashMul (xorb t.c.mac (pad16 p.2)) H }, ob := o' }) h4
  rw [← hused] at e2
  rw [M.bind_ok e2, M.bind_ok (M.modify_def _ _)]
  simp only [gcmOnOut, gcmCount, M.zoom, M.modify_def, gcmDecF]
  rw [← hused] at hw ⊢
  exact ⟨_, rfl, rfl, rfl, rfl, hw⟩

theorem gcmDecFinish_ok {env : Env} (h : PureCipher aes k E) (hb : aes.blocksize = 16) {H : Bytes}
    {t : CipherSt (GcmSt κ)} {p : GcmSt κ × Bytes} {q : Bytes}
    (hR : BlockRep env (gcmDecWrapped aes) (GcmInv k H) t p q) :
    match gcmFin (gcmDecF E H) H p with
    | .ok out tag => q.length + out.length ≤ env.maxLen →
        ∃ t' p', gcmDecFinish env aes t = .ok tag t'
          ∧ BlockRep env (gcmDecWrapped aes) (GcmInv k H) t' p' (q ++ out)
    | .err out e => q.length + out.length ≤ env.maxLen →
        ∃ t', gcmDecFinish env aes t = .exn e t' := by
  have hinv := hR.inv
  have hused := hR.used
  have hle : p.2.length ≤ 16 := hR.le
  have hst := hR.st
  unfold gcmFin lastBlock gcmDecFinish
  by_cases h0 : p.2.length = 0
  · rw [if_pos h0, SRes.andThen_ok_nil]
    intro _
    have e0 : gcmDecLast env aes t = .ok () t := by
      unfold gcmDecLast
      rw [M.bind_ok (M.get_def t), if_neg (by omega)]; rfl
    rw [M.bind_ok e0, ← hst, gcmTag_ok env hinv]
    exact ⟨_, (_, p.2), rfl,
      { inv := ⟨hinv.aes, hinv.h, hinv.ctr, ghashMul_length _ _, hinv.buf, hinv.e0⟩,
        st := rfl, ilen := hR.ilen, used := hused, le := hR.le, pend := hR.pend,
        ob := by simpa using hR.ob }⟩
  · rw [if_neg h0]
    have hfi := gcmDecF_inv h hb hinv (b := p.2) hle
    have HH := gcmDecLast_ok h hb hR h0
    simp only [oneBlock]
    rw [← hst]
    have hexn : (gcmDecF E H t.c p.2).exn = none := rfl
    rw [hexn]
    simp only [SRes.andThen, List.append_nil]
    intro hfit
    obtain ⟨t', e1, e2, e3, e4, e5⟩ := HH (by omega)
    have hinv' : GcmInv k H t'.c := by rw [e2]; exact hfi.1
    rw [M.bind_ok e1, ← e2, gcmTag_ok env hinv']
    exact ⟨_, (_, p.2), rfl,
      { inv := ⟨hinv'.aes, hinv'.h, hinv'.ctr, ghashMul_length _ _, hinv'.buf, hinv'.e0⟩,
        st := rfl, ilen := by rw [e3]; exact hR.ilen, used := by rw [e4, hused], le := hR.le,
        pend := by rw [e3, e4]; exact hR.pend, ob := e5 }⟩

/-- The output blocks. -/
def gctrBlocks (E : Bytes → Bytes) : Bytes → List Bytes → List Bytes
  | _, [] => []
  | cb, x :: xs => xorb x (E cb) :: gctrBlocks E (inc32 cb) xs

theorem gctr_eq (E : Bytes → Bytes) (cb : Bytes) (bs : List Bytes) :
    gctr E cb bs = (gctrBlocks E cb bs).flatten := by
  induction bs generalizing cb with
  | nil => rfl
  | cons b bs ih => simp only [gctr, gctrBlocks, List.flatten_cons, ih]

theorem gctr_length {E : Bytes → Bytes} (hE : ∀ x : Bytes, x.length = 16 → (E x).length = 16)
    (bs : List Bytes) (hbs : ∀ b ∈ bs, b.length ≤ 16) (cb : Bytes) (hc : cb.length = 16) :
    (gctr E cb bs).length = bs.flatten.length := by
  induction bs generalizing cb with
  | nil => rfl
  | cons b bs ih =>
    have h1 := hbs b (by simp)
    have h2 := hE cb hc
    simp only [gctr, List.length_append, List.flatten_cons, xorb_length]
    rw [ih (fun b' hb' => hbs b' (by simp [hb'])) _ (inc32_length hc)]
    omega

theorem chunks_gctr {E : Bytes → Bytes} (hE : ∀ x : Bytes, x.length = 16 → (E x).length = 16)
    (m cb : Bytes) (hc : cb.length = 16) :
    chunks 16 (gctr E cb (chunks 16 m)) = gctrBlocks E cb (chunks 16 m) := by
  induction h : m.length using Nat.strongRecOn generalizing m cb with
  | _ n ih =>
    by_cases h0 : m = []
    · subst h0; simp [chunks_nil, gctr, gctrBlocks]
    · have hpos : 0 < m.length := List.length_pos_iff.2 h0
      rw [chunks_cons (by decide) h0]
      simp only [gctr, gctrBlocks]
      have hc' := inc32_length hc
      have ih' := ih (m.drop 16).length (by simp; omega) (m.drop 16) (inc32 cb) hc' rfl
      have hEl := hE cb hc
      by_cases hl : m.length ≤ 16
      · rw [List.drop_of_length_le hl, chunks_nil]
        simp only [gctr, gctrBlocks, List.append_nil]
        have hxl : (xorb (m.take 16) (E cb)).length = m.length := by
          rw [xorb_length, List.length_take]
          omega
        have hne : xorb (m.take 16) (E cb) ≠ [] := List.ne_nil_of_length_pos (by omega)
        rw [chunks_cons (by decide) hne, List.take_of_length_le (by omega),
          List.drop_of_length_le (by omega), chunks_nil]
      · have hxl : (xorb (m.take 16) (E cb)).length = 16 := by
          rw [xorb_length, List.length_take]; omega
        rw [chunks_append_dvd (by decide) _ _ (by rw [hxl]; exact Nat.dvd_refl _), chunks_one (by decide) hxl, ih']
        rfl

/-- A whole encryption. -/
theorem runBlocks_enc (h : PureCipher aes k E) (hb : aes.blocksize = 16) {H : Bytes}
    (bs : List Bytes) (hbs : ∀ b ∈ bs, b.length ≤ 16) (s : GcmSt κ) (n : Nat)
    (hs : GcmInv k H s) (hn : s.cipherlen = BitVec.ofNat 64 n) (hm : n ≤ maxPlaintext) :
    if n + bs.flatten.length ≤ maxPlaintext then
      ∃ s', runBlocks (gcmEncF E H) s bs = .ok (gctr E (inc32 s.ctr) bs) (s', [])
        ∧ s'.mac = absorb H s.mac (gctrBlocks E (inc32 s.ctr) bs)
        ∧ s'.cipherlen = BitVec.ofNat 64 (n + bs.flatten.length)
        ∧ s'.headerlen = s.headerlen ∧ s'.e0 = s.e0
    else ∃ o, runBlocks (gcmEncF E H) s bs = .err o (.error .messageTooLong)
      ∧ o.length ≤ bs.flatten.length := by
  induction bs generalizing s n with
  | nil =>
    rw [if_pos (by simpa using hm)]
    exact ⟨s, rfl, rfl, by simpa using hn, rfl, rfl⟩
  | cons b bs ih =>
    have hbl := hbs b (by simp)
    obtain ⟨hi, ho⟩ := gcmEncF_inv h hb hs hbl
    have hmx : maxPlaintext = 0xfffffffe0 := by decide
    have hcl : s.cipherlen + BitVec.ofNat 64 b.length = BitVec.ofNat 64 (n + b.length) := by
      rw [hn, BitVec.ofNat_add]
    have hti : (BitVec.ofNat 64 (n + b.length)).toInt = ((n + b.length : Nat) : Int) := by
      rw [BitVec.toInt_eq_toNat_of_lt, BitVec.toNat_ofNat, Nat.mod_eq_of_lt (by omega)]
      rw [BitVec.toNat_ofNat, Nat.mod_eq_of_lt (by omega)]; omega
    have hex : (gcmEncF E H s b).exn
        = if n + b.length > maxPlaintext then some (.error .messageTooLong) else none := by
      simp only [gcmEncF, hcl, hti]
      by_cases hgt : n + b.length > maxPlaintext
      · rw [if_pos hgt, if_pos (by omega)]
      · rw [if_neg hgt, if_neg (by omega)]
    simp only [List.flatten_cons, List.length_append]
    by_cases hgt : n + b.length > maxPlaintext
    · rw [if_neg (by omega)]
      rw [if_pos hgt] at hex
      refine ⟨(gcmEncF E H s b).out, ?_, by omega⟩
      simp only [runBlocks, oneBlock, hex, SRes.andThen]
    · rw [if_neg hgt] at hex
      have ih' := ih (fun b' hb' => hbs b' (by simp [hb'])) (gcmEncF E H s b).st (n + b.length) hi
        hcl (by omega)
      rw [show n + (b.length + bs.flatten.length) = n + b.length + bs.flatten.length by omega]
      by_cases hfit : n + b.length + bs.flatten.length ≤ maxPlaintext
      · rw [if_pos hfit] at ih' ⊢
        obtain ⟨s', e1, e2, e3, e4, e5⟩ := ih'
        refine ⟨s', ?_, e2, e3, e4, e5⟩
        simp only [runBlocks, oneBlock, hex, SRes.andThen, e1]
        rfl
      · rw [if_neg hfit] at ih' ⊢
        obtain ⟨o, e1, e2⟩ := ih'
        refine ⟨(gcmEncF E H s b).out ++ o, ?_, by rw [List.length_append]; omega⟩
        simp only [runBlocks, oneBlock, hex, SRes.andThen, e1]

/-- A whole decryption. -/
theorem runBlocks_dec (H : Bytes) (bs : List Bytes) (s : GcmSt κ) (n : Nat)
    (hn : s.cipherlen = BitVec.ofNat 64 n) :
    ∃ s', runBlocks (gcmDecF E H) s bs = .ok (gctr E (inc32 s.ctr) bs) (s', [])
        ∧ s'.mac = absorb H s.mac bs
        ∧ s'.cipherlen = BitVec.ofNat 64 (n + bs.flatten.length)
        ∧ s'.headerlen = s.headerlen ∧ s'.e0 = s.e0 := by
  induction bs generalizing s n with
  | nil => exact ⟨s, rfl, rfl, by simpa using hn, rfl, rfl⟩
  | cons b bs ih =>
    have hcl : s.cipherlen + BitVec.ofNat 64 b.length = BitVec.ofNat 64 (n + b.length) := by
      rw [hn, BitVec.ofNat_add]
    obtain ⟨s', e1, e2, e3, e4, e5⟩ := ih (gcmDecF E H s b).st (n + b.length) hcl
    refine ⟨s', ?_, e2, ?_, e4, e5⟩
    · have hex : (gcmDecF E H s b).exn = none := rfl
      simp only [runBlocks, oneBlock, hex, SRes.andThen, e1]
      rfl
    · rw [e3, List.flatten_cons, List.length_append]; congr 1; omega

theorem wipe_ok (env : Env) (c : BlockCipher σ) (t : CipherSt σ) :
    ∃ t', (blockTransform env c).wipe t = .ok () t' := ⟨_, rfl⟩

theorem gcmEnc_refines (env : Env) (h : PureCipher aes k E) (hb : aes.blocksize = 16) (H : Bytes) :
    AuthRefines (aesGcm env aes .encrypt) (blockSpec 16 (gcmEncF E H)) (gcmFin (gcmEncF E H) H)
      env.maxLen (BlockRep env (gcmEncWrapped aes) (GcmInv k H)) where
  base := blockTransform_refines env (gcmEnc_implements h hb H)
  tag := fun hR => finish_then_get (blockTransform_refines env (gcmEnc_implements h hb H)) (gcmEncFinish_ok h hb hR)
  wipe := fun _ => wipe_ok _ _ _

theorem gcmDec_refines (env : Env) (h : PureCipher aes k E) (hb : aes.blocksize = 16) (H : Bytes) :
    AuthRefines (aesGcm env aes .decrypt) (blockSpec 16 (gcmDecF E H)) (gcmFin (gcmDecF E H) H)
      env.maxLen (BlockRep env (gcmDecWrapped aes) (GcmInv k H)) where
  base := blockTransform_refines env (gcmDec_implements h hb H)
  tag := fun hR => finish_then_get (blockTransform_refines env (gcmDec_implements h hb H)) (gcmDecFinish_ok h hb hR)
  wipe := fun _ => wipe_ok _ _ _

theorem J0_length (E : Bytes → Bytes) (iv : Bytes) : (J0 E iv).length = 16 := by
  unfold J0
  by_cases h : iv.length = 12
  · rw [if_pos h]; simp [h]
  · rw [if_neg h]
    have : ∀ (bs : List Bytes) (y : Bytes), y.length = 16 →
        (bs.foldl (fun y x => ghashMul (xorb y x) (subkey E)) y).length = 16 := by
      intro bs
      induction bs with
      | nil => exact fun y hy => hy
      | cons b bs ih => exact fun y _ => ih _ (ghashMul_length _ _)
    exact this _ _ (by simp)

/-- The state of a new AES-GCM object. -/
theorem gcmInit_ok (env : Env) (pclmul : Bool) (h : PureCipher aes k E) (hb : aes.blocksize = 16)
    (header iv : Bytes) :
    ∃ s, gcmInit env pclmul aes header iv k = .ok s k ∧ GcmInv k (subkey E) s
      ∧ s.ctr = J0 E iv ∧ s.e0 = E (J0 E iv)
      ∧ s.mac = absorb (subkey E) (List.replicate 16 0) (chunks 16 header)
      ∧ s.headerlen = BitVec.ofNat 64 header.length ∧ s.cipherlen = 0 := by
  have hz : (List.replicate 16 (0 : Byte)).length = 16 := by simp
  have h1 : blockLocal aes .self (List.replicate 16 0) k = .ok (subkey E) k := by
    have := h.run (s := k) (src := .self) (so := 0) (dofs := 0) (dst := List.replicate 16 0) rfl
      (by rw [Src.read_self]; omega) (by omega)
    rw [Src.read_self, hb, slice_full' hz, Int.natCast_zero] at this
    unfold blockLocal
    rw [this]
    simp only [BRes.toOut]
    rw [splice_full (by rw [hz]; exact (pure_len h hb hz).symm)]
    rfl
  have hH : (subkey E).length = 16 := pure_len h hb hz
  obtain ⟨g, h2, h3⟩ := ghashFor_init pclmul hH
  have h4 : blockLocal aes (.other (J0 E iv)) (env.create 16) k = .ok (E (J0 E iv)) k := by
    unfold blockLocal
    rw [pure_run h hb (J0_length E iv) (by simp)]
  refine ⟨⟨k, g, J0 E iv, E (J0 E iv), absorb (subkey E) (List.replicate 16 0) (chunks 16 header),
    BitVec.ofNat 64 header.length, 0, env.create 16⟩, ?_, ⟨rfl, h3, J0_length _ _, absorb_length hz _,
      by simp, pure_len h hb (J0_length _ _)⟩, rfl, rfl, rfl, rfl, rfl⟩
  unfold gcmInit
  rw [M.bind_ok h1, h2, M.bind_ok (M.orUB_some _ _), M.bind_ok (counter0_ok h3 iv k), M.bind_ok h4,
    ghashString_ok h3, M.bind_ok (M.orUB_some _ _), M.bind_ok (M.get_def _)]
  rfl

/-- The tag computed at the end of the run. -/
theorem tagOf_eq {iv header C : Bytes} {s : GcmSt κ} (he : s.e0 = E (J0 E iv))
    (hh : s.headerlen = BitVec.ofNat 64 header.length) (hc : s.cipherlen = BitVec.ofNat 64 C.length)
    (hm : s.mac = absorb (subkey E) (absorb (subkey E) (List.replicate 16 0) (chunks 16 header))
      (chunks 16 C)) :
    tagOf (subkey E) s = tag E iv header C := by
  have h3 := ghash_three (subkey E) header C (bitLength64 header ++ bitLength64 C)
    (by simp [bitLength64])
  rw [← List.append_assoc] at h3
  unfold tagOf tag
  rw [h3, he, hm, natToBE8_mul8 _ _ hh, natToBE8_mul8 _ _ hc]
  simp only [gctr, List.append_nil, bitLength64]

theorem chunks_flat (m : Bytes) : (chunks 16 m).flatten = m := chunks_flatten (by decide) m

theorem put_fin {f : GcmSt κ → Bytes → BRes (GcmSt κ)} {H : Bytes} (s : GcmSt κ) (m : Bytes) :
    ((blockSpec 16 f).put (s, []) m).andThen (gcmFin f H)
      = (runBlocks f s (chunks 16 m)).andThen (fun p => .ok [] (tagOf H p.1)) := by
  have hp : (blockSpec 16 f).put (s, []) m = lazyBlocks 16 f s m := by
    simp only [blockSpec]
    by_cases h0 : m = []
    · rw [if_pos h0, h0, lazyBlocks_le (by simp : ([] : Bytes).length ≤ 16)]
    · rw [if_neg h0, List.nil_append]
  rw [hp]
  unfold gcmFin
  rw [← SRes.andThen_assoc, lazy_last (by decide)]

/-- Data-level result of a whole encryption. -/
theorem gcmEnc_data (h : PureCipher aes k E) (hb : aes.blocksize = 16) {header iv : Bytes}
    {s : GcmSt κ} (hs : GcmInv k (subkey E) s) (h1 : s.ctr = J0 E iv) (h2 : s.e0 = E (J0 E iv))
    (h3 : s.mac = absorb (subkey E) (List.replicate 16 0) (chunks 16 header))
    (h4 : s.headerlen = BitVec.ofNat 64 header.length) (h5 : s.cipherlen = 0) (m : Bytes) :
    if m.length ≤ maxPlaintext then
      ((blockSpec 16 (gcmEncF E (subkey E))).put (s, []) m).andThen (gcmFin (gcmEncF E (subkey E)) (subkey E))
        = .ok (crypt E iv m) (tag E iv header (crypt E iv m))
    else ∃ o, ((blockSpec 16 (gcmEncF E (subkey E))).put (s, []) m).andThen
        (gcmFin (gcmEncF E (subkey E)) (subkey E)) = .err o (.error .messageTooLong)
      ∧ o.length ≤ m.length := by
  rw [put_fin]
  have hr := runBlocks_enc h hb (chunks 16 m) (chunks_mem_length (by decide) m) s 0 hs h5 (by decide)
  rw [chunks_flat, Nat.zero_add] at hr
  by_cases hm : m.length ≤ maxPlaintext
  · rw [if_pos hm] at hr ⊢
    obtain ⟨s', e1, e2, e3, e4, e5⟩ := hr
    have hE : ∀ x : Bytes, x.length = 16 → (E x).length = 16 := fun x hx => pure_len h hb hx
    have hJ := inc32_length (J0_length E iv)
    have hcl : (crypt E iv m).length = m.length := by
      unfold crypt
      rw [gctr_length hE _ (chunks_mem_length (by decide) m) _ hJ, chunks_flat]
    have ht : tagOf (subkey E) s' = tag E iv header (crypt E iv m) := by
      apply tagOf_eq
      · rw [e5, h2]
      · rw [e4, h4]
      · rw [e3, hcl]
      · rw [e2, h1, h3, crypt, chunks_gctr hE _ _ hJ]
    rw [e1]
    simp only [SRes.andThen, List.append_nil, ht, h1]
    rfl
  · rw [if_neg hm] at hr ⊢
    obtain ⟨o, e1, e2⟩ := hr
    exact ⟨o, by rw [e1]; rfl, e2⟩

/-- Data-level result of a whole decryption. -/
theorem gcmDec_data {header iv : Bytes}
    {s : GcmSt κ} (h1 : s.ctr = J0 E iv) (h2 : s.e0 = E (J0 E iv))
    (h3 : s.mac = absorb (subkey E) (List.replicate 16 0) (chunks 16 header))
    (h4 : s.headerlen = BitVec.ofNat 64 header.length) (h5 : s.cipherlen = 0) (c : Bytes) :
    ((blockSpec 16 (gcmDecF E (subkey E))).put (s, []) c).andThen (gcmFin (gcmDecF E (subkey E)) (subkey E))
      = .ok (crypt E iv c) (tag E iv header c) := by
  rw [put_fin]
  obtain ⟨s', e1, e2, e3, e4, e5⟩ := runBlocks_dec (E := E) (subkey E) (chunks 16 c) s 0 h5
  rw [chunks_flat, Nat.zero_add] at e3
  have ht : tagOf (subkey E) s' = tag E iv header c := by
    apply tagOf_eq
    · rw [e5, h2]
    · rw [e4, h4]
    · exact e3
    · rw [e2, h3]
  rw [e1]
  simp only [SRes.andThen, List.append_nil, ht, h1]
  rfl

theorem crypt_length (h : PureCipher aes k E) (hb : aes.blocksize = 16) (iv m : Bytes) :
    (crypt E iv m).length = m.length := by
  unfold crypt
  rw [gctr_length (fun x hx => pure_len h hb hx) _ (chunks_mem_length (by decide) m) _
    (inc32_length (J0_length E iv)), chunks_flat]

end Verif
