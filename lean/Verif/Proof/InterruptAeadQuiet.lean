import Verif.Proof.InterruptQuiet
import Verif.Proof.InterruptAead
/-
Where nothing happens at the interruption points, the interruptible authenticated ciphers of
Model/InterruptAead are those of Model/Aead.
-/
namespace Verif.Quiet

open Spec Cipher CipherSt

attribute [local instance low] quiet
variable {κ : Type}

theorem bcongr {m m' : M σ α} {k k' : α → M σ β} {s : σ} (h1 : m s = m' s) (h : ∀ a s', k a s' = k' a s') :
    (m >>= k) s = (m' >>= k') s := by
  rw [M.bind_def, M.bind_def, h1]
  cases m' s with
  | ok a s' => exact h a s'
  | _ => rfl

theorem gget {k k' : σ → M σ β} {s : σ} (h : k s s = k' s s) :
    ((M.get : M σ σ) >>= k) s = ((M.get : M σ σ) >>= k') s := h

theorem qget {k : σ → M σ β} {s : σ} : ((M.get : M σ σ) >>= k) s = k s s := rfl
theorem qmodify {f : σ → σ} {k : Unit → M σ β} {s : σ} : (M.modify f >>= k) s = k () (f s) := rfl
theorem qpoll [Ticking σ] (h : ∀ s : σ, Ticking.tick s = (none, s)) {k : Unit → M σ β} {s : σ} :
    ((poll : M σ Unit) >>= k) s = k () s := by
  rw [M.bind_def]; unfold poll; rw [h]
theorem qend [Ticking σ] (h : ∀ s : σ, Ticking.tick s = (none, s)) {s : σ} :
    (poll : M σ Unit) s = .ok () s := by
  unfold poll; rw [h]
theorem qub {o : Option α} {k : α → M σ β} {s : σ} :
    (M.orUB o >>= k) s = (match o with | some a => k a s | none => .ub) := by
  cases o <;> rfl
theorem qraise {e : Exn} {o : Option α} {k : α → M σ β} {s : σ} :
    (M.orRaise e o >>= k) s = (match o with | some a => k a s | none => .exn e s) := by
  cases o <;> rfl
theorem qunit {m : M σ Unit} {s : σ} : (m >>= fun _ => pure ()) s = m s := by
  rw [M.bind_def]; cases m s <;> rfl

theorem ctrEncDec_eq (aes : BlockCipher κ) (src : Src) (so dofs len : Int) :
    @ctrEncDecI κ (quiet κ) aes src so dofs len = ctrEncDec aes src so dofs len := by
  funext p
  change (gcmIncrementI >>= _ : M (GcmSt κ × Bytes) Unit) p
    = (M.orRaise .invalidArg (incrementCounter p.1.ctr 12 16) >>= _ : M (GcmSt κ × Bytes) Unit) p
  rw [M.bind_def]
  unfold gcmIncrementI M.zoom
  rw [increment_eq]
  simp only []
  cases hc : incrementCounter p.1.ctr 12 16 with
  | none => rfl
  | some ctr =>
    refine mcongr (m := M.zoom (fun p : GcmSt κ × Bytes => (p.1.aes, p.1.buf))
      (fun r p => ({ p.1 with aes := r.1, buf := r.2 }, p.2)) (aes.transform (.other ctr) 0 0))
      (s := ({ p.1 with ctr := ctr }, p.2)) fun _ q => ?_
    refine ucongr (s := q) fun b => ?_
    refine rcongr (s := ({ q.1 with buf := b }, q.2)) fun d => ?_
    rfl

theorem gcmHash_eq (b : Bytes) (ofs len : Int) :
    @gcmHashI κ (quiet κ) b ofs len = gcmHash b ofs len := by
  funext p
  change (M.orUB (xorC (.other b) ofs p.1.mac 0 len) >>= _ : M (GcmSt κ × Bytes) Unit) p
    = (M.orUB (ghashBlock p.1.h p.1.mac b ofs len) >>= _ : M (GcmSt κ × Bytes) Unit) p
  unfold ghashBlock
  cases h1 : xorC (.other b) ofs p.1.mac 0 len with
  | none => rfl
  | some m =>
    change (M.orUB (cGhashMult p.1.h m) >>= _ : M (GcmSt κ × Bytes) Unit) ({ p.1 with mac := m }, p.2)
      = (M.orUB (cGhashMult p.1.h m) >>= _ : M (GcmSt κ × Bytes) Unit) p
    cases cGhashMult p.1.h m <;> rfl

theorem gcmEncWrapped_eq (aes : BlockCipher κ) : @gcmEncWrappedI κ (quiet κ) aes = gcmEncWrapped aes := by
  refine congrArg₂ (BlockCipher.mk _) ?_ rfl
  funext src so dofs p
  refine bcongr (congrFun (ctrEncDec_eq aes src so dofs 16) p) fun _ q => ?_
  refine gget ?_
  refine bcongr (s := q) (congrFun (gcmHash_eq q.2 dofs 16) q) fun _ q => ?_
  rfl

theorem gcmDecWrapped_eq (aes : BlockCipher κ) : @gcmDecWrappedI κ (quiet κ) aes = gcmDecWrapped aes := by
  refine congrArg₂ (BlockCipher.mk _) ?_ rfl
  funext src so dofs p
  refine gget ?_
  refine bcongr (s := p) (congrFun (gcmHash_eq (src.read p.2) so 16) p) fun _ q => ?_
  refine bcongr (congrFun (ctrEncDec_eq aes src so dofs 16) q) fun _ q => ?_
  rfl

theorem ghashBlock_length {h : GhashKey} {mac b m : Bytes} {ofs len : Int}
    (hm : ghashBlock h mac b ofs len = some m) : m.length = 16 := by
  unfold ghashBlock at hm
  cases hx : xorC (.other b) ofs mac 0 len with
  | none => rw [hx] at hm; cases hm
  | some x =>
    rw [hx] at hm
    change cGhashMult h x = some m at hm
    unfold cGhashMult at hm
    split at hm
    · cases hm
    · cases h with
      | hw key => cases hm; exact pclmulMult_length _ _
      | sw ctx => cases hm; exact ghashMult_length _ _

theorem gcmTag_eq (env : Env) : @gcmTagI κ (quiet κ) env = gcmTag env := by
  funext t
  unfold gcmTagI gcmTag ghashFinal
  rw [qpoll (fun _ => rfl), qget, qget, massoc]
  simp only [qraise]
  cases hb1 : setInt64BE (env.create 16) 0 (t.c.headerlen * 8) with
  | none => rfl
  | some b1 =>
  simp only [massoc, qraise]
  cases hb2 : setInt64BE b1 8 (t.c.cipherlen * 8) with
  | none => rfl
  | some b2 =>
  have l2 := (bytesBlit_length hb2).trans ((bytesBlit_length hb1).trans (Env.create_length env 16))
  simp only [massoc, qub, gcmHash_eq]
  rw [M.bind_def]
  unfold gcmOnOut M.zoom gcmHash
  simp only [qget, qub]
  cases hg : ghashBlock t.c.h t.c.mac b2 0 16 with
  | none => rfl
  | some m =>
    obtain ⟨b3, h3, -⟩ := blit_some (src := m) (so := 0) (dst := b2) (dofs := 0) (n := 16)
      (by have := ghashBlock_length hg; omega) (by omega)
    change bytesBlit m 0 b2 0 16 = some b3 at h3
    change (M.orRaise .invalidArg (bytesBlit m 0 b2 0 16) >>= _ : M (CipherSt (GcmSt κ)) Bytes) _ = _
    simp only [massoc, qraise, qub, h3]
    cases hx : xorC (.other t.c.e0) 0 b3 0 16 with
    | none => simp only [hx]; rfl
    | some x => simp only [hx]; rfl

theorem gcmOnOut_congr {m m' : M (GcmSt κ × Bytes) α} (h : m = m') : gcmOnOut m = gcmOnOut m' := by rw [h]

theorem onBufEnsure_eq (env : Env) (n : Int) :
    onBufI (σ := GcmSt κ) (OBuf.ensureCapacityI env n) = onBuf (OBuf.ensureCapacity env n) :=
  (congrArg onBufI (ensure_eq (σ := GcmSt κ) env n)).trans (onBufI_zoom _)

theorem gcmEncLast_eq (env : Env) (aes : BlockCipher κ) : @gcmEncLastI κ (quiet κ) env aes = gcmEncLast env aes := by
  funext t
  unfold gcmEncLastI gcmEncLast
  rw [qpoll (fun _ => rfl), qget, qget]
  by_cases hu : t.used > 0
  · rw [if_pos hu, if_pos hu]
    refine bcongr (congrFun (onBufEnsure_eq env _) t) fun _ q => ?_
    rw [qget, qget]
    refine bcongr (congrFun (gcmOnOut_congr (ctrEncDec_eq aes (.other q.ibuf) 0 q.ob.oend q.used)) q) fun _ q => ?_
    rw [qget, qget]
    refine bcongr (congrFun (gcmOnOut_congr (gcmHash_eq q.ob.obuf q.ob.oend q.used)) q) fun _ q => ?_
    rw [qmodify, qmodify, qpoll (fun _ => rfl)]
    refine mcongr fun _ q => ?_
    rw [qpoll (fun _ => rfl)]
  · rw [if_neg hu, if_neg hu]

theorem gcmDecLast_eq (env : Env) (aes : BlockCipher κ) : @gcmDecLastI κ (quiet κ) env aes = gcmDecLast env aes := by
  funext t
  unfold gcmDecLastI gcmDecLast
  rw [qpoll (fun _ => rfl), qget, qget]
  by_cases hu : t.used > 0
  · rw [if_pos hu, if_pos hu]
    refine bcongr (congrFun (gcmOnOut_congr (gcmHash_eq t.ibuf 0 t.used)) t) fun _ q => ?_
    refine bcongr (congrFun (onBufEnsure_eq env _) q) fun _ q => ?_
    rw [qget, qget]
    refine bcongr (congrFun (gcmOnOut_congr (ctrEncDec_eq aes (.other q.ibuf) 0 q.ob.oend q.used)) q) fun _ q => ?_
    rw [qmodify, qmodify, qpoll (fun _ => rfl)]
    rfl
  · rw [if_neg hu, if_neg hu]

theorem aesGcm_eq (env : Env) (aes : BlockCipher κ) (dir : Dir) :
    @Verif.aesGcmI κ (quiet κ) env aes dir = Verif.aesGcm env aes dir := by
  cases dir with
  | encrypt =>
    have h1 := (congrArg (@blockTransformI (GcmSt κ) (quiet _) env) (gcmEncWrapped_eq aes)).trans
      (blockTransform_eq env _)
    have h2 : gcmEncFinishI env aes = gcmEncFinish env aes := by
      funext t
      refine bcongr (congrFun (gcmEncLast_eq env aes) t) fun _ q => congrFun (gcmTag_eq env) q
    exact congrArg₂ (fun a b => AuthTransform.mk a 16 b) h1 h2
  | decrypt =>
    have h1 := (congrArg (@blockTransformI (GcmSt κ) (quiet _) env) (gcmDecWrapped_eq aes)).trans
      (blockTransform_eq env _)
    have h2 : gcmDecFinishI env aes = gcmDecFinish env aes := by
      funext t
      refine bcongr (congrFun (gcmDecLast_eq env aes) t) fun _ q => congrFun (gcmTag_eq env) q
    exact congrArg₂ (fun a b => AuthTransform.mk a 16 b) h1 h2

/-! ### ChaCha20-Poly1305 -/

theorem onCha_id (m : M (ChaPolySt × Bytes) α) : onCha id (fun x _ => x) m = m := by
  funext p
  unfold onCha M.zoom
  simp only [id]
  cases m p <;> rfl

theorem chapolyEnc_eq (ivLength : Nat) :
    @chapolyEncI ChaPolySt (quiet _) id (fun x _ => x) ivLength = chapolyEnc ivLength := by
  refine congrArg₂ StreamCipher.mk ?_ rfl
  funext src so dofs len p
  simp only [onCha_id]
  rw [qpoll (fun _ => rfl)]
  refine mcongr fun _ q => ?_
  rw [qpoll (fun _ => rfl), qget, qget]
  refine mcongr fun _ q => ?_
  rw [qpoll (fun _ => rfl)]
  refine mcongr fun _ q => ?_
  rw [qpoll (fun _ => rfl)]
  rfl

theorem chapolyDec_eq : @chapolyDecI ChaPolySt (quiet _) id (fun x _ => x) = chapolyDec := by
  refine congrArg₂ StreamCipher.mk ?_ rfl
  funext src so dofs len p
  simp only [onCha_id]
  rw [qpoll (fun _ => rfl), qget, qget]
  refine mcongr fun _ q => ?_
  rw [qpoll (fun _ => rfl)]
  refine mcongr fun _ q => ?_
  rw [qpoll (fun _ => rfl)]
  rfl

theorem setInt64LE_some {b : Bytes} {ofs : Nat} (x : W64) (h : ofs + 8 ≤ b.length) :
    ∃ r, setInt64LE b ofs x = some r ∧ r.length = b.length := by
  obtain ⟨r, h1, h2⟩ := blit_some (src := toLE64 x) (so := 0) (dst := b) (dofs := ofs) (n := 8)
    (Nat.le_refl 8) h
  exact ⟨r, by unfold setInt64LE; simpa using h1, h2⟩

theorem chapolyFinish_eq (env : Env) :
    @chapolyFinishI ChaPolySt (quiet _) id (fun x _ => x) env = chapolyFinish env := by
  funext t
  obtain ⟨b1, e1, l1⟩ := setInt64LE_some (b := env.create 16) (ofs := 0) t.c.headerlen
    (by simp [Env.create_length])
  obtain ⟨b2, e2, l2⟩ := setInt64LE_some (b := b1) (ofs := 8) t.c.cipherlen
    (by simp [l1, Env.create_length])
  unfold chapolyFinishI chapolyFinish M.zoom polyFinishAndGetTag
  rw [qpoll (fun _ => rfl), qget, qget]
  simp only [qub, id]
  cases polyUpdatePad t.c.h (t.c.cipherlen.toNat % 16) with
  | none => rfl
  | some h1 =>
    simp only [qmodify]
    rw [qpoll (fun _ => rfl), qget]
    simp only [qraise, e1, e2, qub]
    cases polyUpdate h1 b2 0 16 with
    | none => rfl
    | some h2 =>
      simp only [qmodify]
      rw [qpoll (fun _ => rfl), qget]
      simp only [qub]
      cases poly64Final h2 with
      | none => rfl
      | some r => rfl

theorem chacha20Poly1305_eq (env : Env) (ivLength : Nat) (dir : Dir) :
    @Verif.chacha20Poly1305I ChaPolySt (quiet _) id (fun x _ => x) env ivLength dir
      = chacha20Poly1305 env ivLength dir := by
  cases dir with
  | encrypt =>
    exact congrArg₂ (fun a b => AuthTransform.mk a 16 b)
      ((congrArg (streamTransformI env) (chapolyEnc_eq ivLength)).trans (streamTransform_eq env _))
      (chapolyFinish_eq env)
  | decrypt =>
    exact congrArg₂ (fun a b => AuthTransform.mk a 16 b)
      ((congrArg (streamTransformI env) chapolyDec_eq).trans (streamTransform_eq env _))
      (chapolyFinish_eq env)

end Verif.Quiet
