import Verif.Proof.MachineInt
import Verif.Proof.SafeAead
/-
Padded ciphers, MACs derived from `Block.mac` and authenticated ciphers, with the machine's integers.
-/
namespace Verif

open Spec CipherSt

/-- Two outcomes that are the same, and satisfy postconditions. -/
def Alike (x y : Out σ α) (Q : α → σ → Prop) (E : Exn → σ → Prop) : Prop := x = y ∧ y.Post Q E

theorem Alike.refl {y : Out σ α} {Q : α → σ → Prop} {E : Exn → σ → Prop} (h : y.Post Q E) : Alike y y Q E :=
  ⟨rfl, h⟩

theorem Alike.bind {m m' : M σ α} {f g : α → M σ β} {t : σ} {Q : α → σ → Prop} {R : β → σ → Prop}
    {E : Exn → σ → Prop} (h : Alike (m t) (m' t) Q E) (hf : ∀ a s, Q a s → Alike (f a s) (g a s) R E) :
    Alike ((m >>= f) t) ((m' >>= g) t) R E := by
  obtain ⟨h1, h2⟩ := h
  rw [M.bind_def, M.bind_def, h1]
  cases hc : m' t with
  | ok a s => rw [hc] at h2; exact hf a s h2
  | exn e s => rw [hc] at h2; exact ⟨rfl, h2⟩
  | ub => rw [hc] at h2; exact h2.elim
  | loop => rw [hc] at h2; exact h2.elim

theorem Alike.bind_get {f g : σ → M σ β} {t : σ} {R : β → σ → Prop} {E : Exn → σ → Prop}
    (h : Alike (f t t) (g t t) R E) : Alike ((M.get >>= f) t) ((M.get >>= g) t) R E := h

theorem Alike.bind_modify {f : σ → σ} {k k' : M σ β} {t : σ} {R : β → σ → Prop} {E : Exn → σ → Prop}
    (h : Alike (k (f t)) (k' (f t)) R E) :
    Alike ((M.modify f >>= fun _ => k) t) ((M.modify f >>= fun _ => k') t) R E := h

theorem Alike.bind_ofExcept {e : Except Exn α} {f g : α → M σ β} {t : σ} {R : β → σ → Prop}
    {E : Exn → σ → Prop} (he : ∀ x, e = .error x → E x t)
    (h : ∀ a, e = .ok a → Alike (f a t) (g a t) R E) :
    Alike ((ofExcept e >>= f) t) ((ofExcept e >>= g) t) R E := by
  cases e with
  | error x => exact ⟨rfl, he x rfl⟩
  | ok a => exact h a rfl

section block
variable {σ : Type} {c : BlockCipher σ} {I : σ → Prop}

theorem pushBlock_alike (h : SafeBlock c I) {w : Nat} (hw : 3 ≤ w) {env : Env}
    (hm : (env.maxLen : Int) ≤ 2 ^ (w - 3)) (hb : c.blocksize ≤ env.maxLen) {t : CipherSt σ}
    (ht : CipherFits env c I t) :
    Alike (pushBlockW w env c t) (pushBlock env c t) (fun _ => CipherFits env c I)
      (fun _ => CipherFits env c I) := ⟨pushBlockW_eq hw hm hb t ht, pushBlock_fits h t ht⟩

theorem ensure_alike {w : Nat} (hw : 3 ≤ w) {env : Env}
    (hm : (env.maxLen : Int) ≤ 2 ^ (w - 3)) {n : Nat} (hn : n ≤ env.maxLen) {t : CipherSt σ}
    (ht : CipherFits env c I t) :
    Alike (onBuf (OBuf.ensureCapacityW w env n) t) (onBuf (OBuf.ensureCapacity env n) t)
      (fun _ t' => CipherFits env c I t' ∧ t'.used = t.used ∧ t'.ibuf = t.ibuf
        ∧ t'.ob.oend + n ≤ t'.ob.obuf.length)
      (fun _ => CipherFits env c I) := by
  refine ⟨M.zoom_congr (ensureCapacityW_eq hw hm (moderate_len hm hn) ht.1.ob ht.2), ?_⟩
  exact Post.zoom (ensureCapacity_fits (n := n) ht.1.ob ht.2)
    (fun _ o x => ⟨⟨⟨ht.1.cst, ht.1.ibuf, ht.1.used, x.1.1⟩, x.2⟩, rfl, rfl, by have := x.1.2; simp only; omega⟩)
    fun e o x => ⟨⟨ht.1.cst, ht.1.ibuf, ht.1.used, x.2 ▸ ht.1.ob⟩, x.2 ▸ ht.2⟩

theorem paddedEncryptFinishW_alike (h : SafeBlock c I) {w : Nat} (hw : 3 ≤ w) {env : Env}
    (hm : (env.maxLen : Int) ≤ 2 ^ (w - 3)) (hb : c.blocksize ≤ env.maxLen) {p : PadScheme} (hp : PadKeeps p)
    (t : CipherSt σ) (ht : CipherFits env c I t) :
    Alike (paddedEncryptFinishW w env p c t) (paddedEncryptFinish env p c t)
      (fun _ => CipherFits env c I) (fun _ => CipherFits env c I) := by
  have key : ∀ t, CipherFits env c I t →
      Alike ((do
        let st ← M.get
        let ib ← ofExcept (p.pad st.ibuf st.used)
        M.modify fun st => { st with ibuf := ib }
        pushBlockW w env c : M (CipherSt σ) Unit) t)
      ((do
        let st ← M.get
        let ib ← ofExcept (p.pad st.ibuf st.used)
        M.modify fun st => { st with ibuf := ib }
        pushBlock env c : M (CipherSt σ) Unit) t) (fun _ => CipherFits env c I) (fun _ => CipherFits env c I) := by
    intro t ht
    refine Alike.bind_get ?_
    refine Alike.bind_ofExcept (fun _ _ => ht) ?_
    intro ib hb'
    refine Alike.bind_modify ?_
    exact pushBlock_alike h hw hm hb
      ⟨⟨ht.1.cst, (hp _ _ _ hb').trans ht.1.ibuf, ht.1.used, ht.1.ob⟩, ht.2⟩
  unfold paddedEncryptFinishW paddedEncryptFinish
  refine Alike.bind_get ?_
  by_cases hu : t.used ≥ c.blocksize
  · simp only [hu, if_true, bind_assoc]
    refine Alike.bind (pushBlock_alike h hw hm hb ht) ?_
    rintro - t1 h1
    exact key _ ⟨⟨h1.1.cst, h1.1.ibuf, Nat.zero_le _, h1.1.ob⟩, h1.2⟩
  · simp only [hu, if_false]
    exact key t ht

theorem paddedDecryptFinishW_alike (h : SafeBlock c I) {w : Nat} (hw : 3 ≤ w) {env : Env}
    (hm : (env.maxLen : Int) ≤ 2 ^ (w - 3)) (hb : c.blocksize ≤ env.maxLen) {p : PadScheme} (hp : PadStrips p)
    (t : CipherSt σ) (ht : CipherFits env c I t) :
    Alike (paddedDecryptFinishW w env p c t) (paddedDecryptFinish env p c t)
      (fun _ => CipherFits env c I) (fun _ => CipherFits env c I) := by
  unfold paddedDecryptFinishW paddedDecryptFinish
  refine Alike.bind_get ?_
  by_cases hu : t.used ≠ c.blocksize
  · rw [if_pos hu, if_pos hu]
    exact ⟨rfl, ht⟩
  · rw [if_neg hu, if_neg hu]
    refine Alike.bind (Q := fun _ => CipherFits env c I) (Alike.refl ?_) ?_
    · exact Post.zoom (h.run (src := .self) (so := 0) (dofs := 0) (dst := t.ibuf) ht.1.cst
        (by simp only [Src.read]; have := ht.1.ibuf; omega) (by have := ht.1.ibuf; omega))
        (fun _ _ x => ⟨⟨x.1, x.2.trans ht.1.ibuf, ht.1.used, ht.1.ob⟩, ht.2⟩)
        fun _ _ x => ⟨⟨x.2.1, x.2.2.trans ht.1.ibuf, ht.1.used, ht.1.ob⟩, ht.2⟩
    · rintro - t1 h1
      refine Alike.bind_get ?_
      refine Alike.bind_ofExcept (fun _ _ => h1) ?_
      intro v hv
      have hv' := hp _ _ hv
      have hi := h1.1.ibuf
      refine Alike.bind (ensure_alike hw hm (by omega) h1) ?_
      rintro - t2 ⟨h2, -, -, hcap⟩
      refine Alike.refl ?_
      refine Post.bind_get ?_
      refine Post.bind_orRaise h2 ?_
      intro b hb
      refine ⟨⟨h2.1.cst, h2.1.ibuf, h2.1.used, h2.1.ob.set (bytesBlit_length hb) (Nat.le_add_right _ _) hcap⟩, ?_⟩
      exact (bytesBlit_length hb).trans_le h2.2

theorem paddedEncrypt_agree (h : SafeBlock c I) {allowed : TCall → Prop}
    (hwp : allowed (.buf .wipe) → BWipeSafe c I) {w : Nat} (hw : 3 ≤ w) {env : Env}
    (ha : ∀ c, allowed c → machineT w env c) (hm : (env.maxLen : Int) ≤ 2 ^ (w - 3))
    (h0 : max 256 (2 * c.blocksize) ≤ env.maxLen) {p : PadScheme} (hp : PadKeeps p) {s : σ} (hs : I s) :
    AgreeOrReject (invoke (paddedEncryptW w env p c)) (invoke (paddedEncrypt env p c)) isPutSubstring
      allowed (cipherInit env c s) :=
  block_agree' h hwp hw ha hm h0 hs fun t ht => paddedEncryptFinishW_alike h hw hm (by omega) hp t ht

theorem paddedDecrypt_agree (h : SafeBlock c I) {allowed : TCall → Prop}
    (hwp : allowed (.buf .wipe) → BWipeSafe c I) {w : Nat} (hw : 3 ≤ w) {env : Env}
    (ha : ∀ c, allowed c → machineT w env c) (hm : (env.maxLen : Int) ≤ 2 ^ (w - 3))
    (h0 : max 256 (2 * c.blocksize) ≤ env.maxLen) {p : PadScheme} (hp : PadStrips p) {s : σ} (hs : I s) :
    AgreeOrReject (invoke (paddedDecryptW w env p c)) (invoke (paddedDecrypt env p c)) isPutSubstring
      allowed (cipherInit env c s) :=
  block_agree' h hwp hw ha hm h0 hs fun t ht => paddedDecryptFinishW_alike h hw hm (by omega) hp t ht

end block

/-! ### AES-GCM -/

section gcm
variable {κ : Type} {aes : BlockCipher κ} {I : κ → Prop}

theorem gcmOnOut_fits {c : BlockCipher (GcmSt κ)} {env : Env} {m : M (GcmSt κ × Bytes) Unit}
    {t : CipherSt (GcmSt κ)} (ht : CipherFits env c (GcmSafe I) t)
    (hm : (m (t.c, t.ob.obuf)).Post (fun _ p => GcmSafe I p.1 ∧ p.2.length = t.ob.obuf.length)
      (GcmE I t.ob.obuf.length)) :
    (gcmOnOut m t).Post
      (fun _ t' => CipherFits env c (GcmSafe I) t' ∧ t'.used = t.used ∧ t'.ibuf = t.ibuf ∧ t'.ob.oend = t.ob.oend
        ∧ t'.ob.obuf.length = t.ob.obuf.length)
      (fun _ => CipherFits env c (GcmSafe I)) :=
  Post.zoom hm
    (fun _ _ x => ⟨⟨⟨x.1, ht.1.ibuf, ht.1.used, ht.1.ob.set x.2 (Nat.le_refl _) ht.1.ob.le⟩,
      x.2.trans_le ht.2⟩, rfl, rfl, rfl, x.2⟩)
    fun _ _ x => ⟨⟨x.2.1, ht.1.ibuf, ht.1.used, ht.1.ob.set x.2.2 (Nat.le_refl _) ht.1.ob.le⟩,
      x.2.2.trans_le ht.2⟩

theorem gcmTag_fits {c : BlockCipher (GcmSt κ)} {env : Env} {t : CipherSt (GcmSt κ)}
    (ht : CipherFits env c (GcmSafe I) t) :
    (gcmTag env t).Post (fun _ => CipherFits env c (GcmSafe I)) (fun _ => CipherFits env c (GcmSafe I)) := by
  have hb : ∀ x : W64, (toBE64 x).length = 8 := fun _ => rfl
  unfold gcmTag
  refine Post.bind_get ?_
  refine Post.bind (Q := fun r t' => r.1.length = 16 ∧ t' = t) ?_ ?_
  · unfold ghashFinal
    refine Post.bind_orRaise ht ?_
    intro b1 h1
    have l1 := (bytesBlit_length h1).trans (Env.create_length env 16)
    refine Post.bind_orRaise ht ?_
    intro b2 h2
    have l2 := (bytesBlit_length h2).trans l1
    obtain ⟨r, h3, h4⟩ := ghashBlock_some t.c.h ht.1.cst.mac (b := b2) (ofs := 0) (len := 16) (by omega)
      (Nat.le_refl _)
    refine Post.bind_orUB h3 ?_
    refine Post.bind_orRaise ht ?_
    intro b4 h4'
    have l4 := (bytesBlit_length h4').trans l2
    obtain ⟨x, h5, h6⟩ := xorC_at_some (x := t.c.e0) (dst := b4) (so := 0) (dofs := 0) (n := 16)
      (by have := ht.1.cst.e0; omega) (by omega)
    refine Post.bind_orUB h5 ?_
    exact ⟨h4, rfl⟩
  · rintro ⟨mac, tag⟩ t' ⟨h1, rfl⟩
    exact ⟨⟨⟨ht.1.cst.aes, ht.1.cst.ctr, ht.1.cst.e0, h1, ht.1.cst.buf⟩, ht.1.ibuf, ht.1.used, ht.1.ob⟩, ht.2⟩

theorem gcmEncFinishW_alike (h : SafeBlock aes I) (hn : aes.blocksize = 16) {w : Nat} (hw : 3 ≤ w) {env : Env}
    (hm : (env.maxLen : Int) ≤ 2 ^ (w - 3)) (hl : 16 ≤ env.maxLen)
    (t : CipherSt (GcmSt κ)) (ht : CipherFits env (gcmEncWrapped aes) (GcmSafe I) t) :
    Alike (gcmEncFinishW w env aes t) (gcmEncFinish env aes t)
      (fun _ => CipherFits env (gcmEncWrapped aes) (GcmSafe I))
      (fun _ => CipherFits env (gcmEncWrapped aes) (GcmSafe I)) := by
  unfold gcmEncFinishW gcmEncFinish
  refine Alike.bind ?_ (fun _ t1 (h1 : CipherFits env (gcmEncWrapped aes) (GcmSafe I) t1) =>
    Alike.refl (gcmTag_fits h1))
  unfold gcmEncLastW gcmEncLast
  refine Alike.bind_get ?_
  by_cases hpos : t.used > 0
  · rw [if_pos hpos, if_pos hpos]
    have hu := ht.1.used
    change t.used ≤ 16 at hu
    have hib : t.ibuf.length = 16 := ht.1.ibuf
    refine Alike.bind (ensure_alike hw hm (by omega) ht) ?_
    rintro - t1 ⟨h1, u1, i1, cap1⟩
    refine Alike.refl ?_
    refine Post.bind_get ?_
    refine Post.bind (gcmOnOut_fits h1 (ctrEncDec_safe h hn (src := .other t1.ibuf) (so := 0)
      (dofs := t1.ob.oend) (len := t1.used) h1.1.cst (by simp only [Src.read, i1]; omega) (by omega)
      (by omega))) ?_
    rintro - t2 ⟨h2, u2, i2, e2, l2⟩
    refine Post.bind_get ?_
    refine Post.bind (gcmOnOut_fits h2 (Post.mono (gcmHash_safe (I := I) (p := (t2.c, t2.ob.obuf))
      (b := t2.ob.obuf) (ofs := t2.ob.oend) (len := t2.used) h2.1.cst (by omega) (by omega))
      (fun _ _ x => ⟨x.1, by rw [x.2]⟩) fun _ _ x => x)) ?_
    rintro - t3 ⟨h3, u3, i3, e3, l3⟩
    refine Post.bind_modify ?_
    have h3' : CipherFits env (gcmEncWrapped aes) (GcmSafe I)
        { t3 with ob := { t3.ob with oend := t3.ob.oend + t3.used } } :=
      ⟨⟨h3.1.cst, h3.1.ibuf, h3.1.used, h3.1.ob.set rfl (Nat.le_add_right _ _) (by omega)⟩, h3.2⟩
    refine Post.bind (Q := fun _ => CipherFits env (gcmEncWrapped aes) (GcmSafe I))
      (Post.mono (gcmOnOut_fits h3' (m := gcmCount (BitVec.ofNat 64 t2.used))
        ⟨⟨h3.1.cst.aes, h3.1.cst.ctr, h3.1.cst.e0, h3.1.cst.mac, h3.1.cst.buf⟩, rfl⟩) (fun _ _ x => x.1)
        fun _ _ x => x) ?_
    rintro - t4 h4
    exact Post.mono (gcmOnOut_fits h4 (m := gcmCheck) (Post.mono (gcmCheck_safe (I := I)
      (p := (t4.c, t4.ob.obuf)) h4.1.cst) (fun _ _ x => x ▸ ⟨h4.1.cst, rfl⟩)
      fun _ _ x => ⟨x.1, x.2 ▸ ⟨h4.1.cst, rfl⟩⟩)) (fun _ _ x => x.1) fun _ _ x => x
  · rw [if_neg hpos, if_neg hpos]
    exact ⟨rfl, ht⟩

theorem gcmDecFinishW_alike (h : SafeBlock aes I) (hn : aes.blocksize = 16) {w : Nat} (hw : 3 ≤ w) {env : Env}
    (hm : (env.maxLen : Int) ≤ 2 ^ (w - 3)) (hl : 16 ≤ env.maxLen)
    (t : CipherSt (GcmSt κ)) (ht : CipherFits env (gcmDecWrapped aes) (GcmSafe I) t) :
    Alike (gcmDecFinishW w env aes t) (gcmDecFinish env aes t)
      (fun _ => CipherFits env (gcmDecWrapped aes) (GcmSafe I))
      (fun _ => CipherFits env (gcmDecWrapped aes) (GcmSafe I)) := by
  unfold gcmDecFinishW gcmDecFinish
  refine Alike.bind ?_ (fun _ t1 (h1 : CipherFits env (gcmDecWrapped aes) (GcmSafe I) t1) =>
    Alike.refl (gcmTag_fits h1))
  unfold gcmDecLastW gcmDecLast
  refine Alike.bind_get ?_
  by_cases hpos : t.used > 0
  · rw [if_pos hpos, if_pos hpos]
    have hu := ht.1.used
    change t.used ≤ 16 at hu
    have hib : t.ibuf.length = 16 := ht.1.ibuf
    refine Alike.bind (Alike.refl (gcmOnOut_fits ht (Post.mono (gcmHash_safe (I := I) (p := (t.c, t.ob.obuf))
      (b := t.ibuf) (ofs := 0) (len := t.used) ht.1.cst (by omega) (by omega))
      (fun _ _ x => ⟨x.1, by rw [x.2]⟩) fun _ _ x => x))) ?_
    rintro - t0 ⟨h0, u0, i0, e0, l0⟩
    refine Alike.bind (ensure_alike hw hm (n := t.used) (by omega) h0) ?_
    rintro - t1 ⟨h1, u1, i1, cap1⟩
    refine Alike.refl ?_
    refine Post.bind_get ?_
    refine Post.bind (gcmOnOut_fits h1 (ctrEncDec_safe h hn (src := .other t1.ibuf) (so := 0)
      (dofs := t1.ob.oend) (len := t1.used) h1.1.cst (by simp only [Src.read, i1, i0]; omega) (by omega)
      (by omega))) ?_
    rintro - t2 ⟨h2, u2, i2, e2, l2⟩
    refine Post.bind_modify ?_
    have h3' : CipherFits env (gcmDecWrapped aes) (GcmSafe I)
        { t2 with ob := { t2.ob with oend := t2.ob.oend + t2.used } } :=
      ⟨⟨h2.1.cst, h2.1.ibuf, h2.1.used, h2.1.ob.set rfl (Nat.le_add_right _ _) (by omega)⟩, h2.2⟩
    exact Post.mono (gcmOnOut_fits h3' (m := gcmCount (BitVec.ofNat 64 t1.used))
        ⟨⟨h2.1.cst.aes, h2.1.cst.ctr, h2.1.cst.e0, h2.1.cst.mac, h2.1.cst.buf⟩, rfl⟩) (fun _ _ x => x.1)
        fun _ _ x => x
  · rw [if_neg hpos, if_neg hpos]
    exact ⟨rfl, ht⟩

/-- An authenticated transform made from `Block.cipher`. -/
theorem auth_block_agree {σ : Type} {c : BlockCipher σ} {I : σ → Prop} (h : SafeBlock c I)
    {allowed : ACall → Prop} (hwp : allowed (.buf .wipe) → BWipeSafe c I) {w : Nat} (hw : 3 ≤ w) {env : Env}
    (ha : ∀ c, allowed c → machineA w env c) (hm : (env.maxLen : Int) ≤ 2 ^ (w - 3))
    (h0 : max 256 (2 * c.blocksize) ≤ env.maxLen) {s : σ} (hs : I s) {n : Nat}
    {fin finW : M (CipherSt σ) Bytes}
    (hf : ∀ t, CipherFits env c I t →
      Alike (finW t) (fin t) (fun _ => CipherFits env c I) (fun _ => CipherFits env c I)) :
    AgreeOrReject (invokeA ⟨blockTransformW w env c, n, finW⟩) (invokeA ⟨blockTransform env c, n, fin⟩)
      isPutSubstringA allowed (cipherInit env c s)
    ∧ ∀ t, Reachable (invokeA ⟨blockTransformW w env c, n, finW⟩) allowed (cipherInit env c s) t →
      finW t = fin t := by
  have hb : c.blocksize ≤ env.maxLen := by omega
  have step : ∀ cl, allowed cl → ∀ t, CipherFits env c I t →
      (invokeA ⟨blockTransformW w env c, n, finW⟩ cl t = invokeA ⟨blockTransform env c, n, fin⟩ cl t
        ∧ (invokeA ⟨blockTransform env c, n, fin⟩ cl t).Post (fun _ => CipherFits env c I)
          (fun _ => CipherFits env c I))
      ∨ ((∃ b ofs len, isPutSubstringA cl b ofs len ∧ ¬ InRange b ofs len)
        ∧ invokeA ⟨blockTransformW w env c, n, finW⟩ cl t = .exn .invalidArg t) := by
    intro cl hc t ht
    match cl, hc with
    | .finishAndGetTag, _ =>
      refine .inl (?_ : Alike _ _ _ _)
      exact Alike.bind (hf t ht) (fun _ t1 h1 => Alike.refl h1)
    | .buf cl, hc =>
      rcases block_buf_agree h hw hm hb cl (fun e => hwp (e ▸ hc)) (ha _ hc) t ht with g | ⟨⟨b, o, l, e, g⟩, g'⟩
      · exact .inl g
      · exact .inr ⟨⟨b, o, l, by rw [e]; rfl, g⟩, g'⟩
  have hi := cipherInit_fits h h0 hs
  refine ⟨agreeOrReject_of hi step, fun t hr => (hf t ?_).1⟩
  refine Preserves.reachable (fun c hc t ht => ?_) hi hr
  rcases step c hc t ht with g | g
  · rw [g.1]; exact g.2
  · rw [g.2]; exact ht

theorem aesGcm_agree (h : SafeBlock aes I) (hn : aes.blocksize = 16) {allowed : ACall → Prop}
    (hwp : ¬ allowed (.buf .wipe)) {w : Nat} (hw : 3 ≤ w) {env : Env}
    (ha : ∀ c, allowed c → machineA w env c) (hm : (env.maxLen : Int) ≤ 2 ^ (w - 3)) (h0 : 256 ≤ env.maxLen)
    {k k' : κ} (hk : I k) {header iv : Bytes} {pclmul : Bool} {t0 : CipherSt (GcmSt κ)} (dir : Dir)
    (hi : aesGcmInit env pclmul aes k header iv = .ok t0 k') :
    AgreeOrReject (invokeA (aesGcmW w env aes dir)) (invokeA (aesGcm env aes dir)) isPutSubstringA allowed t0
    ∧ ∀ t, Reachable (invokeA (aesGcmW w env aes dir)) allowed t0 t →
      (aesGcmW w env aes dir).finishAndGetTag t = (aesGcm env aes dir).finishAndGetTag t := by
  have hr := gcmInit_safe h hn env pclmul header iv hk
  unfold aesGcmInit at hi
  cases hc : gcmInit env pclmul aes header iv k with
  | ok st s =>
    rw [hc] at hi hr
    cases hi
    cases dir with
    | encrypt =>
      exact auth_block_agree (gcmEncWrapped_safe h hn) (fun x => absurd x hwp) hw ha hm
        (by show max 256 (2 * 16) ≤ _; omega) hr
        (fun t ht => gcmEncFinishW_alike h hn hw hm (by omega) t ht)
    | decrypt =>
      exact auth_block_agree (c := gcmDecWrapped aes) (gcmDecWrapped_safe h hn) (fun x => absurd x hwp) hw ha hm
        (by show max 256 (2 * 16) ≤ _; omega) hr
        (fun t ht => gcmDecFinishW_alike h hn hw hm (by omega) t ht)
  | exn e s => rw [hc] at hi; cases hi
  | ub => rw [hc] at hi; cases hi
  | loop => rw [hc] at hi; cases hi

end gcm

/-! ### ChaCha20-Poly1305 -/

theorem chapolyFinish_fits {env : Env} (t : StreamSt ChaPolySt) (ht : StreamFits env ChaPolySafe t) :
    (chapolyFinish env t).Post (fun _ => StreamFits env ChaPolySafe) (fun _ => StreamFits env ChaPolySafe) := by
  have h := chapolyFinish_safe env t ht.1
  unfold chapolyFinish M.zoom at h ⊢
  cases hc : polyFinishAndGetTag env t.c with
  | ok a s => rw [hc] at h; exact ⟨h, ht.2⟩
  | exn e s => rw [hc] at h; exact ⟨h, ht.2⟩
  | ub => rw [hc] at h; exact h.elim
  | loop => rw [hc] at h; exact h.elim

theorem chapoly_agree {w : Nat} (hw : 3 ≤ w) {env : Env} (hm : (env.maxLen : Int) ≤ 2 ^ (w - 3))
    (h0 : 256 ≤ env.maxLen) {header iv key : Bytes} {t0 : StreamSt ChaPolySt} {u : Unit} {dir : Dir}
    (hi : chacha20Poly1305Init env header iv key = .ok t0 u) (ivLength : Nat)
    {allowed : ACall → Prop} (ha : ∀ c, allowed c → moderateA w env c)
    (hd : dir = .decrypt → ∀ c, allowed c → inRangeA c) :
    Agree (invokeA (chacha20Poly1305W w env ivLength dir)) (invokeA (chacha20Poly1305 env ivLength dir))
      allowed t0 := by
  have hs := chapolyInit_safe hi
  have hf : StreamFits env ChaPolySafe t0 := by
    refine ⟨hs, ?_⟩
    unfold chacha20Poly1305Init at hi
    split at hi
    · cases hi
      show (env.create 256).length ≤ _
      rw [Env.create_length]; exact h0
    all_goals cases hi
  refine agree_of hf ?_
  intro cl hc t ht
  cases dir with
  | encrypt =>
    match cl, hc with
    | .finishAndGetTag, _ => exact ⟨rfl, Post.discard (chapolyFinish_fits t ht)⟩
    | .buf cl, hc =>
      exact stream_buf_agree (chapolyEnc_safe ivLength) (fun _ _ _ _ _ _ => trivial) chapolyWipe_safe hw hm cl
        (ha _ hc) (fun _ _ _ _ _ _ => trivial) t ht
  | decrypt =>
    match cl, hc with
    | .finishAndGetTag, _ => exact ⟨rfl, Post.discard (chapolyFinish_fits t ht)⟩
    | .buf cl, hc =>
      refine stream_buf_agree chapolyDec_safe (fun _ _ _ h _ _ => h) chapolyWipe_safe hw hm cl
        (ha _ hc) ?_ t ht
      rintro b ofs len rfl d o
      exact hd rfl _ hc

/-! ### The MACs derived from `Block.mac` -/

theorem zoom_agree {σ τ : Type} {get : τ → σ} {set : σ → τ → τ} (hg : ∀ t, set (get t) t = t) {m m' : M σ α} {t : τ}
    {P : Prop} (h : m (get t) = m' (get t) ∨ (P ∧ m (get t) = .exn .invalidArg (get t))) :
    M.zoom get set m t = M.zoom get set m' t ∨ (P ∧ M.zoom get set m t = .exn .invalidArg t) := by
  unfold M.zoom
  rcases h with h | ⟨hp, h⟩
  · exact .inl (by rw [h])
  · exact .inr ⟨hp, by rw [h]; simp only [hg]⟩

theorem macAdd_agree {σ : Type} {c : BlockCipher σ} {I : σ → Prop} (h : SafeBlock c I) {w : Nat} (hw : 3 ≤ w)
    {env : Env} (hm : (env.maxLen : Int) ≤ 2 ^ (w - 3)) (hb : c.blocksize ≤ env.maxLen) (b : Bytes) (ofs len : Int)
    (hl : b.length ≤ env.maxLen) (hi : IsInt w len) (t : MacSt σ) (ht : MacSafe c I t) :
    macAddSubstringW w c b ofs len t = macAddSubstring c b ofs len t
      ∨ (¬ InRange b ofs len ∧ macAddSubstringW w c b ofs len t = .exn .invalidArg t) := by
  by_cases hl' : (t.used : Int) + len < 2 ^ (w - 1)
  · exact .inl (macAddSubstringW_eq h hw b ofs len t ht hl')
  · exact .inr (macAddSubstringW_long hw hm hb b ofs len hl hi t ht.used (by omega))

/-- An object whose `add_substring` and `add_string` are those of `mac`, on a part of its state. -/
theorem derived_agree {σ τ : Type} {c : BlockCipher σ} {I : σ → Prop} (h : SafeBlock c I) {w : Nat} (hw : 3 ≤ w)
    {env : Env} (hm : (env.maxLen : Int) ≤ 2 ^ (w - 3)) (hb : c.blocksize ≤ env.maxLen)
    {get : τ → MacSt σ} {set : MacSt σ → τ → τ} (hg : ∀ t, set (get t) t = t) {H : HashObj τ}
    (h1 : ∀ b ofs len, H.addSubstring b ofs len = M.zoom get set (macAddSubstring c b ofs len))
    (h2 : ∀ b, H.addString b = M.zoom get set (macAddSubstring c b 0 b.length))
    {J : τ → Prop} {Q : Bytes → Prop} (hs : HSafe H J Q) (hJ : ∀ t, J t → MacSafe c I (get t))
    {allowed : HCall → Prop} (hwp : allowed .wipe → HWipeSafe H J)
    (ha : ∀ c, allowed c → machineH w env c) {t0 : τ} (h0 : J t0) :
    AgreeOrReject (invokeH { H with
        addSubstring := fun b ofs len => M.zoom get set (macAddSubstringW w c b ofs len)
        addString := fun b => M.zoom get set (macAddSubstringW w c b 0 b.length) })
      (invokeH H) isAddSubstring allowed t0 := by
  refine agreeOrReject_of (I := J) h0 ?_
  intro cl hc t ht
  have hpost : (invokeH H cl t).Post (fun _ => J) (fun _ => J) := by
    by_cases hcl : cl = .wipe
    · subst hcl
      exact hwp hc t ht
    · exact hs.notWipe cl hcl t ht
  replace hc := ha _ hc
  match cl, hc with
  | .addSubstring b ofs len, hc =>
    have := zoom_agree (get := get) (set := set) hg
      (macAdd_agree h hw hm hb b ofs len hc.1 hc.2.2 (get t) (hJ t ht))
    rcases this with g | g
    · refine .inl ⟨?_, hpost⟩
      show _ = H.addSubstring b ofs len t
      rw [h1]; exact g
    · exact .inr ⟨⟨b, ofs, len, rfl, g.1⟩, g.2⟩
  | .addString b, hc =>
    have e1 : (2 : Int) ^ (w - 1) = 2 * 2 ^ (w - 2) := pow_half (w := w - 1) (by omega)
    have e2 : (2 : Int) ^ (w - 2) = 2 * 2 ^ (w - 3) := pow_half (w := w - 2) (by omega)
    have hc' : b.length ≤ env.maxLen := hc
    have hp := pow_pos' (w - 3)
    have := zoom_agree (get := get) (set := set) hg
      (macAdd_agree h hw hm hb b 0 b.length hc' ⟨by omega, by omega⟩ (get t) (hJ t ht))
    rcases this with g | g
    · refine .inl ⟨?_, hpost⟩
      show _ = H.addString b t
      rw [h2]; exact g
    · exact absurd ⟨by omega, by omega, by omega⟩ g.1
  | .addChar ch, _ => exact .inl ⟨rfl, hpost⟩
  | .addByte b, _ => exact .inl ⟨rfl, hpost⟩
  | .result, _ => exact .inl ⟨rfl, hpost⟩
  | .wipe, _ => exact .inl ⟨rfl, hpost⟩

theorem padStrips_length : PadStrips Padding.length := by
  intro b n h
  change Padding.lengthStrip b = .ok n at h
  unfold Padding.lengthStrip at h
  simp only [] at h
  split at h
  · cases h
  · split at h
    · cases h
    · split at h
      · cases h
      · cases h; omega

theorem strip8000Loop_le (b : Bytes) : ∀ (k n : Nat), Padding.strip8000Loop b k = .ok n → n ≤ k
  | 0, n, h => by cases h
  | k + 1, n, h => by
    rw [Padding.strip8000Loop] at h
    split at h
    · cases h
    · split at h
      · cases h; omega
      · split at h
        · have := strip8000Loop_le b k n h; omega
        · cases h

theorem padStrips_8000 : PadStrips Padding._8000 := fun b n h => strip8000Loop_le b b.length n h

end Verif
