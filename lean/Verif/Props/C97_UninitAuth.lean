import Verif.Props.C97_Uninit
import Verif.Props.C86_InertAuth
/-
C97, AES-GCM.
-/
namespace Verif

open Spec Cipher

/-- GCM: the variables that matter to the caller. -/
def gcmView {κ : Type} (s : GcmSt κ) (v : GcmSt Unit) : Prop :=
  s.ctr = v.ctr ∧ s.e0 = v.e0 ∧ s.mac = v.mac ∧ s.headerlen = v.headerlen ∧ s.cipherlen = v.cipherlen

section
variable {κ : Type} {aes : BlockCipher κ} {k : κ} {E : Bytes → Bytes} {H : Bytes} {env : Env} {N : Nat}

theorem gcmEncF_view {s : GcmSt κ} {v : GcmSt Unit} (h : gcmView s v) (b : Bytes) :
    (gcmEncF E H s b).out = (gcmEncF E H v b).out ∧ (gcmEncF E H s b).exn = (gcmEncF E H v b).exn
    ∧ gcmView (gcmEncF E H s b).st (gcmEncF E H v b).st := by
  obtain ⟨h1, h2, h3, h4, h5⟩ := h
  simp only [gcmEncF, gcmView, h1, h2, h3, h4, h5, and_self]

theorem gcmDecF_view {s : GcmSt κ} {v : GcmSt Unit} (h : gcmView s v) (b : Bytes) :
    (gcmDecF E H s b).out = (gcmDecF E H v b).out ∧ (gcmDecF E H s b).exn = (gcmDecF E H v b).exn
    ∧ gcmView (gcmDecF E H s b).st (gcmDecF E H v b).st := by
  obtain ⟨h1, h2, h3, h4, h5⟩ := h
  simp only [gcmDecF, gcmView, h1, h2, h3, h4, h5, and_self]

theorem tagOf_view {s : GcmSt κ} {v : GcmSt Unit} (h : gcmView s v) : tagOf H s = tagOf H v := by
  obtain ⟨h1, h2, h3, h4, h5⟩ := h
  simp only [tagOf, h2, h3, h4, h5]

theorem gcmEnd_view {s : GcmSt κ} {v : GcmSt Unit} (h : gcmView s v) : gcmView (gcmEnd H s) (gcmEnd H v) := by
  obtain ⟨h1, h2, h3, h4, h5⟩ := h
  simp only [gcmEnd, gcmView, h1, h2, h3, h4, h5, and_self]

/-- GCM encryption on some machine. -/
def gcmEncImpl (h : PureCipher aes k E) (hb : aes.blocksize = 16) (H : Bytes) (hN : env.maxLen = N) :
    BlockImpl (gcmEncF E H (κ := Unit)) 16 N :=
  { env := env, c := gcmEncWrapped aes, inv := GcmInv k H, f := gcmEncF E H, V := gcmView
    impl := gcmEnc_implements h hb H, size := rfl, mem := hN
    out := fun _ hv _ => (gcmEncF_view hv _).1
    exn := fun _ hv _ => (gcmEncF_view hv _).2.1
    st := fun _ hv _ => (gcmEncF_view hv _).2.2 }

/-- GCM decryption on some machine. -/
def gcmDecImpl (h : PureCipher aes k E) (hb : aes.blocksize = 16) (H : Bytes) (hN : env.maxLen = N) :
    BlockImpl (gcmDecF E H (κ := Unit)) 16 N :=
  { env := env, c := gcmDecWrapped aes, inv := GcmInv k H, f := gcmDecF E H, V := gcmView
    impl := gcmDec_implements h hb H, size := rfl, mem := hN
    out := fun _ hv _ => (gcmDecF_view hv _).1
    exn := fun _ hv _ => (gcmDecF_view hv _).2.1
    st := fun _ hv _ => (gcmDecF_view hv _).2.2 }

theorem BlockImpl.Rep.of_block {υ : Type} {g : υ → Bytes → BRes υ} {n : Nat} {I : BlockImpl g n N} {t : CipherSt I.σ}
    {s : I.σ} {v : υ} {pend q : Bytes} (h : BlockRep I.env I.c I.inv t (s, pend) q) (hv : I.V s v) :
    I.Rep t (v, pend, q) :=
  { inv := h.inv, view := by have := h.st; simp only at this; rw [this]; exact hv
    ilen := h.ilen.trans I.size, used := h.used
    le := by have := h.le; rw [I.size] at this; exact this
    pend := h.pend, ob := h.ob }

end

/-- The object's state, as the variables, the incomplete block and the pending output. -/
def GcmLike {κ : Type} (env : Env) (c : BlockCipher (GcmSt κ)) (k : κ) (H : Bytes) (t : CipherSt (GcmSt κ))
    (p : GcmSt Unit × Bytes × Bytes) : Prop :=
  BlockRep env c (GcmInv k H) t (t.c, p.2.1) p.2.2 ∧ gcmView t.c p.1

theorem GcmLike.of_rep {κ : Type} {env : Env} {c : BlockCipher (GcmSt κ)} {k : κ} {H : Bytes} {t : CipherSt (GcmSt κ)}
    {s : GcmSt κ} {v : GcmSt Unit} {pend q : Bytes} (h : BlockRep env c (GcmInv k H) t (s, pend) q)
    (hv : gcmView s v) : GcmLike env c k H t (v, pend, q) := by
  have e := h.st
  simp only at e
  subst e
  exact ⟨h, hv⟩

theorem Follows.conv {τ ρ α : Type} {R R' : τ → ρ → Prop} {m : M τ α} {p : ρ} {o : Option (Except Exn α × ρ)}
    (hR : ∀ t p, R t p ↔ R' t p) (h : Follows R m p o) : Follows R' m p o := by
  intro t ht
  have a := h t ((hR t p).2 ht)
  match o with
  | none => exact a
  | some (.ok u, p') => exact let ⟨t', e, r⟩ := a; ⟨t', e, (hR t' p').1 r⟩
  | some (.error e, p') => exact let ⟨t', e, r⟩ := a; ⟨t', e, (hR t' p').1 r⟩

theorem BlockImpl.rep_iff {υ : Type} {g : υ → Bytes → BRes υ} {n N : Nat} (I : BlockImpl g n N) (t : CipherSt I.σ)
    (p : υ × Bytes × Bytes) : BlockRep I.env I.c I.inv t (t.c, p.2.1) p.2.2 ∧ I.V t.c p.1 ↔ I.Rep t p :=
  ⟨fun h => BlockImpl.Rep.of_block h.1 h.2, fun h => ⟨h.block, h.view⟩⟩

theorem gcmEncFinish_follows {E : Bytes → Bytes} {H : Bytes} {N : Nat} (p : GcmSt Unit × Bytes × Bytes) :
    ∃ o, ∀ {κ : Type} {aes : BlockCipher κ} {k : κ} {env : Env} (_ : PureCipher aes k E) (_ : aes.blocksize = 16)
      (_ : env.maxLen = N), Follows (GcmLike env (gcmEncWrapped aes) k H) (gcmEncFinish env aes) p o := by
  obtain ⟨v, pend, q⟩ := p
  by_cases h0 : pend.length = 0
  · refine ⟨some (.ok (tagOf H v), gcmEnd H v, pend, q), fun {κ aes k env} h hb hN t ⟨ht, hv⟩ => ?_⟩
    have hu := ht.used
    simp only at hu hv ht
    obtain ⟨t', e1, r1⟩ := gcmTag_settled ht
    have e0 : gcmEncLast env aes t = .ok () t := by
      unfold gcmEncLast
      rw [M.bind_ok (M.get_def t), if_neg (by omega)]; rfl
    refine ⟨t', ?_, GcmLike.of_rep r1 (gcmEnd_view hv)⟩
    rw [gcmEncFinish, M.bind_ok e0, e1, tagOf_view hv]
  by_cases hfit : q.length + pend.length ≤ N
  · have hrun : ∀ {κ : Type} {aes : BlockCipher κ} {k : κ} {env : Env} (_ : PureCipher aes k E)
        (_ : aes.blocksize = 16) (_ : env.maxLen = N) (t : CipherSt (GcmSt κ)),
        GcmLike env (gcmEncWrapped aes) k H t (v, pend, q) →
        ∃ t1, GcmLike env (gcmEncWrapped aes) k H t1 ((gcmEncF E H v pend).st, pend, q ++ (gcmEncF E H v pend).out)
          ∧ gcmEncLast env aes t = match (gcmEncF E H v pend).exn with
            | none => .ok () t1
            | some e => .exn e t1 := by
      intro κ aes k env h hb hN t ⟨ht, hv⟩
      simp only at hv ht
      obtain ⟨w1, w2, w3⟩ := gcmEncF_view (E := E) (H := H) hv pend
      have HH := gcmEncLast_ok h hb ht h0 (by rw [hN]; exact hfit)
      simp only at HH
      rw [w2, w1] at HH
      have hR : ∀ t1 : CipherSt (GcmSt κ), t1.c = (gcmEncF E H t.c pend).st → t1.ibuf = t.ibuf → t1.used = t.used →
          OBuf.Rep env t1.ob (q ++ (gcmEncF E H v pend).out) →
          GcmLike env (gcmEncWrapped aes) k H t1 ((gcmEncF E H v pend).st, pend, q ++ (gcmEncF E H v pend).out) :=
        fun t1 e2 e3 e4 e5 => GcmLike.of_rep
          { inv := by rw [e2]; exact (gcmEncF_inv h hb ht.inv (b := pend) ht.le).1
            st := e2, ilen := by rw [e3]; exact ht.ilen, used := by rw [e4]; exact ht.used, le := ht.le
            pend := by rw [e3, e4]; exact ht.pend, ob := e5 } w3
      cases hexn : (gcmEncF E H v pend).exn with
      | none =>
        rw [hexn] at HH
        obtain ⟨t1, e1, e2, e3, e4, e5⟩ := HH
        exact ⟨t1, hR t1 e2 e3 e4 e5, e1⟩
      | some e =>
        rw [hexn] at HH
        obtain ⟨t1, e1, e2, e3, e4, e5⟩ := HH
        exact ⟨t1, hR t1 e2 e3 e4 e5, e1⟩
    cases hexn : (gcmEncF E H v pend).exn with
    | none =>
      refine ⟨some (.ok (tagOf H (gcmEncF E H v pend).st), gcmEnd H (gcmEncF E H v pend).st, pend,
        q ++ (gcmEncF E H v pend).out), fun {κ aes k env} h hb hN t ht => ?_⟩
      obtain ⟨t1, ⟨r1, v1⟩, e1⟩ := hrun h hb hN t ht
      rw [hexn] at e1
      obtain ⟨t', a1, r2⟩ := gcmTag_settled r1
      refine ⟨t', ?_, GcmLike.of_rep r2 (gcmEnd_view v1)⟩
      rw [gcmEncFinish, M.bind_ok e1, a1, tagOf_view v1]
    | some e =>
      refine ⟨some (.error e, (gcmEncF E H v pend).st, pend,
        q ++ (gcmEncF E H v pend).out), fun {κ aes k env} h hb hN t ht => ?_⟩
      obtain ⟨t1, r1, e1⟩ := hrun h hb hN t ht
      rw [hexn] at e1
      exact ⟨t1, by rw [gcmEncFinish, M.bind_exn e1], r1⟩
  · refine ⟨some (.error (.error .outputBufferOverflow), v, pend, q), fun {κ aes k env} h hb hN t ht => ⟨t, ?_, ht⟩⟩
    have hu := ht.1.used
    simp only at hu
    have h1 := OBuf.ensureCapacity_overflow ht.1.ob t.used (by simp only; omega)
    have e1 : CipherSt.onBuf (OBuf.ensureCapacity env t.used) t = .exn (.error .outputBufferOverflow) t := by
      simp only [CipherSt.onBuf, M.zoom, h1]
    have e0 : gcmEncLast env aes t = .exn (.error .outputBufferOverflow) t := by
      unfold gcmEncLast
      rw [M.bind_ok (M.get_def t), if_pos (by omega), M.bind_exn e1]
    rw [gcmEncFinish, M.bind_exn e0]

theorem gcmDecFinish_follows {E : Bytes → Bytes} {H : Bytes} {N : Nat} (p : GcmSt Unit × Bytes × Bytes) :
    ∃ o, ∀ {κ : Type} {aes : BlockCipher κ} {k : κ} {env : Env} (_ : PureCipher aes k E) (_ : aes.blocksize = 16)
      (_ : env.maxLen = N), Follows (GcmLike env (gcmDecWrapped aes) k H) (gcmDecFinish env aes) p o := by
  obtain ⟨v, pend, q⟩ := p
  by_cases h0 : pend.length = 0
  · refine ⟨some (.ok (tagOf H v), gcmEnd H v, pend, q), fun {κ aes k env} h hb hN t ⟨ht, hv⟩ => ?_⟩
    have hu := ht.used
    simp only at hu hv ht
    obtain ⟨t', e1, r1⟩ := gcmTag_settled ht
    have e0 : gcmDecLast env aes t = .ok () t := by
      unfold gcmDecLast
      rw [M.bind_ok (M.get_def t), if_neg (by omega)]; rfl
    refine ⟨t', ?_, GcmLike.of_rep r1 (gcmEnd_view hv)⟩
    rw [gcmDecFinish, M.bind_ok e0, e1, tagOf_view hv]
  by_cases hfit : q.length + pend.length ≤ N
  · refine ⟨some (.ok (tagOf H (gcmDecF E H v pend).st), gcmEnd H (gcmDecF E H v pend).st, pend,
        q ++ (gcmDecF E H v pend).out), fun {κ aes k env} h hb hN t ⟨ht, hv⟩ => ?_⟩
    simp only at hv ht
    obtain ⟨w1, w2, w3⟩ := gcmDecF_view (E := E) (H := H) hv pend
    obtain ⟨t', e1, r1⟩ := gcmDecFinish_fit (H := H) (s := (t.c, pend)) h hb h0 (by rw [hN]; exact hfit) t ht
    simp only at r1 e1
    rw [w1] at r1
    refine ⟨t', ?_, GcmLike.of_rep r1 (gcmEnd_view w3)⟩
    rw [e1, tagOf_view w3]
  · refine ⟨some (.error (.error .outputBufferOverflow),
      { v with mac := ghashMul (xorb v.mac (pad16 pend)) H }, pend, q), fun {κ aes k env} h hb hN t ⟨ht, hv⟩ => ?_⟩
    simp only at hv ht
    obtain ⟨t', e1, r1⟩ := gcmDecFinish_over (H := H) (aes := aes) (s := (t.c, pend)) h0
      (by rw [hN]; exact Nat.lt_of_not_le hfit) t ht
    refine ⟨t', e1, GcmLike.of_rep r1 ?_⟩
    obtain ⟨h1, h2, h3, h4, h5⟩ := hv
    exact ⟨h1, h2, by simp only; rw [h3], h4, h5⟩

/-- C97, `AEAD.aes_gcm`, whether or not the hosts have the AES-NI and PCLMULQDQ instructions. -/
theorem C97_aes_gcm {env env' : Env} (host host' : AesHost) (pclmul pclmul' : Bool) (he : SameMachine env env')
    (hm : 256 ≤ env.maxLen) (header : Option Bytes) (iv key : Bytes) (dir : Dir) :
    SameResult SameAuth (AEAD.aesGcm env host pclmul header iv key dir)
      (AEAD.aesGcm env' host' pclmul' header iv key dir) := by
  unfold AEAD.aesGcm
  by_cases hk : key.length = 16 ∨ key.length = 24 ∨ key.length = 32
  swap
  · rw [aesBlock_key host .encrypt hk, aesBlock_key host' .encrypt hk]; rfl
  obtain ⟨b, e1, hb, hc⟩ := aesBlock_enc host hk
  obtain ⟨b', e1', hb', hc'⟩ := aesBlock_enc host' hk
  rw [e1, e1']
  obtain ⟨s, i1, i2, i3, i4, i5, i6, i7⟩ := gcmInit_ok env pclmul hc hb (header.getD []) iv
  obtain ⟨s', j1, j2, j3, j4, j5, j6, j7⟩ := gcmInit_ok env' pclmul' hc' hb' (header.getD []) iv
  simp only [Option.bind_some, aesGcmInit, i1, j1, SameResult]
  intro cs
  have hv : gcmView s ⟨(), .hw [], s.ctr, s.e0, s.mac, s.headerlen, s.cipherlen, []⟩ := ⟨rfl, rfl, rfl, rfl, rfl⟩
  have hv' : gcmView s' ⟨(), .hw [], s.ctr, s.e0, s.mac, s.headerlen, s.cipherlen, []⟩ :=
    ⟨by rw [i3, j3], by rw [i4, j4], by rw [i5, j5], by rw [i6, j6], by rw [i7, j7]⟩
  cases dir with
  | encrypt =>
    refine traceBy_agree (R := (gcmEncImpl hc hb (GCM.subkey (Spec.Aes.encrypt key)) rfl).Rep)
      (R' := (gcmEncImpl hc' hb' (GCM.subkey (Spec.Aes.encrypt key)) he.symm).Rep) (fun x => ?_) cs
      (BlockImpl.rep_init (gcmEncImpl hc hb _ rfl) i2 hv (by omega))
      (BlockImpl.rep_init (gcmEncImpl hc' hb' _ he.symm) j2 hv' (by omega))
    cases x with
    | call c => exact block_follows (by decide) (gcmEncImpl hc hb _ rfl) (gcmEncImpl hc' hb' _ he.symm) c
    | finishAndGetTag =>
      intro p _
      obtain ⟨o, ho⟩ := gcmEncFinish_follows (E := Spec.Aes.encrypt key) (H := GCM.subkey (Spec.Aes.encrypt key))
        (N := env.maxLen) p
      exact ⟨o, (ho hc hb rfl).conv (BlockImpl.rep_iff (gcmEncImpl hc hb _ rfl)),
        (ho hc' hb' he.symm).conv (BlockImpl.rep_iff (gcmEncImpl hc' hb' _ he.symm))⟩
  | decrypt =>
    refine traceBy_agree (R := (gcmDecImpl hc hb (GCM.subkey (Spec.Aes.encrypt key)) rfl).Rep)
      (R' := (gcmDecImpl hc' hb' (GCM.subkey (Spec.Aes.encrypt key)) he.symm).Rep) (fun x => ?_) cs
      (BlockImpl.rep_init (gcmDecImpl hc hb _ rfl) i2 hv (by omega))
      (BlockImpl.rep_init (gcmDecImpl hc' hb' _ he.symm) j2 hv' (by omega))
    cases x with
    | call c => exact block_follows (by decide) (gcmDecImpl hc hb _ rfl) (gcmDecImpl hc' hb' _ he.symm) c
    | finishAndGetTag =>
      intro p _
      obtain ⟨o, ho⟩ := gcmDecFinish_follows (E := Spec.Aes.encrypt key) (H := GCM.subkey (Spec.Aes.encrypt key))
        (N := env.maxLen) p
      exact ⟨o, (ho hc hb rfl).conv (BlockImpl.rep_iff (gcmDecImpl hc hb _ rfl)),
        (ho hc' hb' he.symm).conv (BlockImpl.rep_iff (gcmDecImpl hc' hb' _ he.symm))⟩

open Example in
/-- The objects are made on both machines. -/
example (host host' : AesHost) : ∃ A B, AEAD.aesGcm env64 host true (some [1, 2]) (List.replicate 12 9) aesKey .decrypt = some (.ok A)
    ∧ AEAD.aesGcm envA5 host' false (some [1, 2]) (List.replicate 12 9) aesKey .decrypt = some (.ok B) ∧ SameAuth A B := by
  have h := C97_aes_gcm host host' true false same_A5 (by decide) (some [1, 2]) (List.replicate 12 9) aesKey .decrypt
  have mk : ∀ env host pclmul, ∃ A, AEAD.aesGcm env host pclmul (some [1, 2]) (List.replicate 12 9) aesKey .decrypt
      = some (.ok A) := by
    intro env host pclmul
    obtain ⟨b, e1, hb, hc⟩ := aesBlock_enc host (key := aesKey) (.inl rfl)
    obtain ⟨s, i1, _⟩ := gcmInit_ok env pclmul hc hb [1, 2] (List.replicate 12 9)
    exact ⟨⟨aesGcm env b.c .decrypt, cipherInit env (gcmEncWrapped b.c) s⟩, by
      simp only [AEAD.aesGcm, e1, Option.bind_some, aesGcmInit, Option.getD_some, i1]⟩
  obtain ⟨A, hA⟩ := mk env64 host true
  obtain ⟨B, hB⟩ := mk envA5 host' false
  rw [hA, hB] at h
  exact ⟨A, B, hA, hB, h⟩

end Verif
