import Verif.Proof.Interrupt
import Verif.Spec.Interrupt
/-
Where nothing happens at the interruption points, the interruptible transforms of Model/Interrupt are
the transforms of Model/Transform.
-/
namespace Verif.Quiet

open Spec Cipher

attribute [local instance low] quiet
variable {σ : Type}

theorem mcongr {m : M σ α} {k k' : α → M σ β} {s : σ} (h : ∀ a s', k a s' = k' a s') :
    (m >>= k) s = (m >>= k') s := by
  rw [M.bind_def, M.bind_def]
  cases m s with
  | ok a s' => exact h a s'
  | _ => rfl

theorem rcongr {e : Exn} {o : Option α} {k k' : α → M σ β} {s : σ} (h : ∀ a, k a s = k' a s) :
    (M.orRaise e o >>= k) s = (M.orRaise e o >>= k') s := by
  cases o with
  | none => rfl
  | some a => exact h a

theorem ucongr {o : Option α} {k k' : α → M σ β} {s : σ} (h : ∀ a, k a s = k' a s) :
    (M.orUB o >>= k) s = (M.orUB o >>= k') s := by
  cases o with
  | none => rfl
  | some a => exact h a

theorem zcongr {get : τ → σ} {set : σ → τ → τ} {m m' : M σ α} {t : τ} (h : m (get t) = m' (get t)) :
    M.zoom get set m t = M.zoom get set m' t := by
  unfold M.zoom; rw [h]

theorem cbcEncrypt_eq (c : BlockCipher σ) : @cbcEncryptI σ (quiet σ) c = cbcEncrypt c := rfl
theorem cbcDecrypt_eq (c : BlockCipher σ) : @cbcDecryptI σ (quiet σ) c = cbcDecrypt c := by
  refine congrArg₂ (BlockCipher.mk _) ?_ rfl
  funext src so dofs p
  refine rcongr (s := p) fun _ => ?_
  refine mcongr (m := ModeSt.callDst c src so dofs) fun _ q => ?_
  refine ucongr (s := q) fun _ => ?_
  refine rcongr (s := (q.1, _)) fun _ => ?_
  rfl
theorem cfbEncrypt_eq (n) (c : BlockCipher σ) : @cfbEncryptI σ (quiet σ) n c = cfbEncrypt n c := by
  refine congrArg₂ (BlockCipher.mk _) ?_ rfl
  funext src so dofs p
  refine mcongr (m := ModeSt.callAux c (.other p.1.iv) 0 0) (s := p) fun _ q => ?_
  refine rcongr (s := q) fun d1 => ?_
  refine ucongr (s := (q.1, d1)) fun d2 => ?_
  refine rcongr (s := (q.1, d2)) fun iv => ?_
  refine rcongr (s := ({ q.1 with iv := iv }, d2)) fun _ => ?_
  rfl
theorem cfbDecrypt_eq (n) (c : BlockCipher σ) : @cfbDecryptI σ (quiet σ) n c = cfbDecrypt n c := by
  refine congrArg₂ (BlockCipher.mk _) ?_ rfl
  funext src so dofs p
  refine mcongr (m := ModeSt.callAux c (.other p.1.iv) 0 0) (s := p) fun _ q => ?_
  refine rcongr (s := q) fun i1 => ?_
  refine rcongr (s := ({ q.1 with iv := i1 }, q.2)) fun i2 => ?_
  refine rcongr (s := ({ q.1 with iv := i2 }, q.2)) fun d1 => ?_
  refine ucongr (s := ({ q.1 with iv := i2 }, d1)) fun d2 => ?_
  rfl
theorem ofb_eq (n) (c : BlockCipher σ) : @ofbI σ (quiet σ) n c = ofb n c := by
  refine congrArg₂ (BlockCipher.mk _) ?_ rfl
  funext src so dofs p
  refine mcongr (m := ModeSt.callIv c .self 0 0) (s := p) fun _ q => ?_
  refine rcongr (s := q) fun d1 => ?_
  refine ucongr (s := (q.1, d1)) fun d2 => ?_
  rfl
theorem increment_eq (lim : Nat) : ∀ (pos : Nat) (st : ModeSt σ) (dst : Bytes),
    @incrementCounterI σ (quiet σ) lim pos (st, dst)
      = match incrementCounter st.iv lim pos with
        | some iv => .ok () ({ st with iv := iv }, dst)
        | none => .exn .invalidArg (st, dst)
  | 0, _, _ => rfl
  | pos + 1, st, dst => by
    unfold incrementCounterI incrementCounter
    by_cases h1 : pos ≥ lim
    · rw [if_pos h1, if_pos h1]
      cases hb : st.iv[pos]? with
      | none =>
        change (M.orRaise .invalidArg st.iv[pos]? >>= _ : M (ModeSt σ × Bytes) Unit) (st, dst) = _
        rw [hb]; rfl
      | some b =>
        change (M.orRaise .invalidArg st.iv[pos]? >>= _ : M (ModeSt σ × Bytes) Unit) (st, dst) = _
        rw [hb]
        by_cases h2 : 1 + b.toNat = 0x100
        · have hlen : pos < st.iv.length := (List.getElem?_eq_some_iff.1 hb).1
          have ih := increment_eq lim pos { st with iv := st.iv.set pos (BitVec.ofNat 8 (1 + b.toNat)) } dst
          obtain ⟨r, hr, -⟩ := incrementCounter_some lim pos
            (st.iv.set pos (BitVec.ofNat 8 (1 + b.toNat))) (by simp; omega)
          simp only at ih
          rw [hr] at ih
          simp only [if_pos h2, hr]
          refine Eq.trans ?_ ih
          change (if 1 + b.toNat = 0x100 then _ else pure () : M (ModeSt σ × Bytes) Unit) _ = _
          rw [if_pos h2]; rfl
        · simp only [if_neg h2]
          change (if 1 + b.toNat = 0x100 then _ else pure () : M (ModeSt σ × Bytes) Unit) _ = _
          rw [if_neg h2]; rfl
    · rw [if_neg h1, if_neg h1]; rfl

theorem ctr_eq (n) (c : BlockCipher σ) : @ctrI σ (quiet σ) n c = ctr n c := by
  refine congrArg₂ (BlockCipher.mk _) ?_ rfl
  funext src so dofs p
  have h : ∀ (m m' : M (CtrSt σ × Bytes) Unit) (k k' : Unit → M (CtrSt σ × Bytes) Unit),
      m p = m' p → (∀ a s', k a s' = k' a s') → (m >>= k) p = (m' >>= k') p := by
    intro m m' k k' h1 h2
    rw [M.bind_def, M.bind_def, h1]
    cases m' p with
    | ok a s' => exact h2 a s'
    | _ => rfl
  refine h _ _ _ _ ?_ ?_
  · refine zcongr ?_
    refine mcongr (m := ModeSt.callAux c (.other p.1.m.iv) 0 0) (s := (p.1.m, p.2)) fun _ q => ?_
    refine rcongr (s := q) fun d1 => ?_
    refine ucongr (s := (q.1, d1)) fun d2 => ?_
    change (incrementCounterI (c.blocksize - n) c.blocksize >>= fun _ => pure () : M (ModeSt σ × Bytes) Unit)
      (q.1, d2) = _
    rw [M.bind_def, increment_eq]
    change _ = (M.orRaise .invalidArg (incrementCounter q.1.iv (c.blocksize - n) c.blocksize) >>= _ :
      M (ModeSt σ × Bytes) Unit) (q.1, d2)
    cases incrementCounter q.1.iv (c.blocksize - n) c.blocksize <;> rfl
  · intro _ q
    rfl

theorem ensure_eq (env : Env) (n : Int) : @OBuf.ensureCapacityI σ (quiet σ) env n
    = M.zoom (·.2) (fun o p => (p.1, o)) (OBuf.ensureCapacity env n) := by
  funext p
  obtain ⟨s, o⟩ := p
  simp only [M.zoom, OBuf.ensureCapacity]
  change (if (o.oend : Int) + n > o.obuf.length then
      if (o.oend : Int) - o.obeg + n < o.obuf.length then _ else _ else _ : M (σ × OBuf) Unit) (s, o) = _
  by_cases h1 : (o.oend : Int) + n > o.obuf.length
  · rw [if_pos h1, if_pos h1]
    by_cases h2 : (o.oend : Int) - o.obeg + n < o.obuf.length
    · rw [if_pos h2, if_pos h2]
      change (M.orRaise _ (bytesBlit o.obuf o.obeg o.obuf 0 ((o.oend : Int) - o.obeg)) >>= _ : M (σ × OBuf) Unit) (s, o) = _
      cases h : bytesBlit o.obuf o.obeg o.obuf 0 ((o.oend : Int) - o.obeg) with
      | none => rfl
      | some b => rfl
    · rw [if_neg h2, if_neg h2]
      cases h3 : OBuf.growLoop ((o.oend : Int) - o.obeg + n) (2 * o.obuf.length) with
      | none =>
        rw [M.bind_def, OBuf.growLoopI, h3]
      | some r =>
        rw [M.bind_def, OBuf.growLoopI, h3]
        simp only []
        change (if _ then _ else _ : M (σ × OBuf) Unit) (s, o) = _
        by_cases h4 : r > env.maxLen ∧ ¬ ((o.oend : Int) - o.obeg + n ≤ env.maxLen)
        · rw [if_pos h4, if_pos h4]; rfl
        · rw [if_neg h4, if_neg h4]
          generalize (if r > env.maxLen then env.maxLen else r) = N
          change (M.orRaise _ (bytesBlit o.obuf o.obeg (env.create N) 0 ((o.oend : Int) - o.obeg)) >>= _ : M (σ × OBuf) Unit) (s, o) = _
          cases h : bytesBlit o.obuf o.obeg (env.create N) 0 ((o.oend : Int) - o.obeg) with
          | none => rfl
          | some b => rfl
  · rw [if_neg h1, if_neg h1]; rfl

theorem available_eq : @OBuf.availableOutputI σ (quiet σ) = M.zoom (·.2) (fun o p => (p.1, o)) OBuf.availableOutput := rfl
theorem getSubstring_eq : @OBuf.getSubstringI σ (quiet σ) = M.zoom (·.2) (fun o p => (p.1, o)) OBuf.getSubstring := rfl
theorem getString_eq : @OBuf.getStringI σ (quiet σ) = M.zoom (·.2) (fun o p => (p.1, o)) OBuf.getString := by
  funext p
  obtain ⟨s, o⟩ := p
  simp only [M.zoom, OBuf.getString]
  change (M.orRaise _ (bytesSub o.obuf o.obeg ((o.oend : Int) - o.obeg)) >>= _ : M (σ × OBuf) Bytes) (s, o) = _
  cases h : bytesSub o.obuf o.obeg ((o.oend : Int) - o.obeg) with
  | none => rfl
  | some b => rfl
theorem getChar_eq : @OBuf.getCharI σ (quiet σ) = M.zoom (·.2) (fun o p => (p.1, o)) OBuf.getChar := by
  funext p
  obtain ⟨s, o⟩ := p
  simp only [M.zoom, OBuf.getChar]
  change (if o.obeg ≥ o.oend then _ else _ : M (σ × OBuf) Byte) (s, o) = _
  by_cases h1 : o.obeg ≥ o.oend
  · rw [if_pos h1, if_pos h1]; rfl
  · rw [if_neg h1, if_neg h1]
    cases h : bytesGet o.obuf o.obeg with
    | none => rfl
    | some b => rfl
theorem getByte_eq : @OBuf.getByteI σ (quiet σ) = M.zoom (·.2) (fun o p => (p.1, o)) OBuf.getByte := by
  unfold OBuf.getByteI OBuf.getByte
  rw [getChar_eq]
  funext p
  simp only [M.zoom, M.bind_def]
  cases OBuf.getChar p.2 with
  | ok a o => rfl
  | _ => rfl
theorem bufWipe_eq : @OBuf.wipeI σ (quiet σ) = M.zoom (·.2) (fun o p => (p.1, o)) OBuf.wipe := rfl

open CipherSt

theorem onBufI_zoom (m : M OBuf α) :
    onBufI (M.zoom (·.2) (fun o (p : σ × OBuf) => (p.1, o)) m) = onBuf m := by
  funext t
  simp only [onBufI, onBuf, M.zoom]
  cases m t.ob <;> rfl

theorem pushBlock_eq (env : Env) (c : BlockCipher σ) : @pushBlockI σ (quiet σ) env c = pushBlock env c := by
  unfold pushBlockI pushBlock
  rw [ensure_eq, onBufI_zoom]
  funext t
  refine mcongr fun _ q => ?_
  refine mcongr (m := callOut c) (s := q) fun _ q => ?_
  rfl

theorem plain_none {env : Env} {c : BlockCipher σ} {src : Bytes} {ofs len : Int} {t : CipherSt σ}
    (h1 : ¬ len ≤ 0) (h2 : ¬ (t.used : Int) + len ≤ c.blocksize)
    (hb : bytesBlit src ofs t.ibuf t.used ((c.blocksize : Int) - t.used) = none) :
    cipherPutSubstring env c src ofs len t = .exn .invalidArg t := by
  rw [cipherPutSubstring, if_neg h1, if_neg h2]
  simp only []
  split
  · rfl
  · next hb' => rw [hb] at hb'; cases hb'

theorem plain_some {env : Env} {c : BlockCipher σ} {src : Bytes} {ofs len : Int} {t : CipherSt σ} {ib : Bytes}
    (h1 : ¬ len ≤ 0) (h2 : ¬ (t.used : Int) + len ≤ c.blocksize)
    (hb : bytesBlit src ofs t.ibuf t.used ((c.blocksize : Int) - t.used) = some ib) :
    cipherPutSubstring env c src ofs len t =
      match pushBlock env c { t with ibuf := ib } with
      | .ok () st' =>
        if _hb : c.blocksize = 0 then .loop
        else cipherPutSubstring env c src (ofs + ((c.blocksize : Int) - t.used))
          (len - ((c.blocksize : Int) - t.used)) { st' with used := 0 }
      | .exn e st' => .exn e st'
      | .ub => .ub
      | .loop => .loop := by
  rw [cipherPutSubstring, if_neg h1, if_neg h2]
  simp only []
  split
  · next hb' => rw [hb] at hb'; cases hb'
  · next hb' => rw [hb] at hb'; cases hb'; rfl

theorem putSubstring_eq (env : Env) (c : BlockCipher σ) (src : Bytes) (ofs len : Int) (t : CipherSt σ) :
    @cipherPutSubstringI σ (quiet σ) env c src ofs len t = cipherPutSubstring env c src ofs len t := by
  induction hk : len.toNat * 2 + (if t.used = 0 then 0 else 1) using Nat.strongRecOn
    generalizing ofs len t with
  | _ k ih =>
    rw [cipherPutSubstringI]
    by_cases h1 : len ≤ 0
    · rw [if_pos h1, cipherPutSubstring, if_pos h1]; rfl
    rw [if_neg h1]
    by_cases h2 : (t.used : Int) + len ≤ c.blocksize
    · rw [if_pos h2, cipherPutSubstring, if_neg h1, if_pos h2]
      change (M.orRaise _ (bytesBlit src ofs t.ibuf t.used len) >>= _ : M (CipherSt σ) Unit) t = _
      cases h : bytesBlit src ofs t.ibuf t.used len <;> rfl
    rw [if_neg h2]
    have hR : ∀ ib, (do
        poll
        M.modify fun st => { st with ibuf := ib }
        poll
        pushResetI env c : M (CipherSt σ) Unit) t
        = match pushBlock env c { t with ibuf := ib } with
          | .ok () q => .ok () { q with used := 0 }
          | .exn e q => .exn e q
          | .ub => .ub
          | .loop => .loop := by
      intro ib
      change pushResetI env c { t with ibuf := ib } = _
      unfold pushResetI
      rw [pushBlock_eq, M.bind_def]
      cases pushBlock env c { t with ibuf := ib } <;> rfl
    simp only []
    split
    · next hb => rw [plain_none h1 h2 hb]; rfl
    · next ib hb =>
        rw [plain_some h1 h2 hb]
        have hr := hR ib
        cases hp : pushBlock env c { t with ibuf := ib } with
        | ok a q =>
          rw [hp] at hr
          split
          · next q' hq =>
            rw [hr] at hq
            cases hq
            by_cases hb0 : c.blocksize = 0
            · rw [dif_pos (.inl hb0)]; refine Eq.trans ?_ (dif_pos hb0).symm; rfl
            · rw [dif_neg (by simp [hb0])]
              refine Eq.trans ?_ (dif_neg hb0).symm
              refine ih _ ?_ _ _ _ rfl
              have := bytesBlit_len_nonneg hb
              simp only [if_true, Nat.add_zero]; subst hk; split <;> omega
          · next hq => rw [hr] at hq; cases hq
          · next hq => rw [hr] at hq; cases hq
          · next hq => rw [hr] at hq; cases hq
        | exn e q =>
          rw [hp] at hr
          split
          · next q' hq => rw [hr] at hq; cases hq
          · next hq => rw [hr] at hq; cases hq; rfl
          · next hq => rw [hr] at hq; cases hq
          · next hq => rw [hr] at hq; cases hq
        | ub =>
          rw [hp] at hr
          split
          · next q' hq => rw [hr] at hq; cases hq
          · next hq => rw [hr] at hq; cases hq
          · rfl
          · next hq => rw [hr] at hq; cases hq
        | loop =>
          rw [hp] at hr
          split
          · next q' hq => rw [hr] at hq; cases hq
          · next hq => rw [hr] at hq; cases hq
          · next hq => rw [hr] at hq; cases hq
          · rfl

theorem massoc {α β γ : Type} (m : M σ α) (f : α → M σ β) (g : β → M σ γ) (s : σ) :
    ((m >>= f) >>= g : M σ γ) s = (m >>= fun a => f a >>= g : M σ γ) s := by
  rw [M.bind_def, M.bind_def, M.bind_def]
  cases m s <;> rfl

theorem xcongr {α β : Type} {e : Except Exn α} {f g : α → M σ β} {s : σ}
    (h : ∀ a, f a s = g a s) : (ofExcept e >>= f : M σ β) s = (ofExcept e >>= g : M σ β) s := by
  cases e with
  | ok a => exact h a
  | error e => rfl

theorem text {T U : Transform σ} (h1 : T.putSubstring = U.putSubstring) (h2 : T.putString = U.putString)
    (h3 : T.putChar = U.putChar) (h4 : T.putByte = U.putByte) (h5 : T.flush = U.flush)
    (h6 : T.finish = U.finish) (h7 : T.availableOutput = U.availableOutput)
    (h8 : T.getString = U.getString) (h9 : T.getSubstring = U.getSubstring)
    (h10 : T.getChar = U.getChar) (h11 : T.getByte = U.getByte) (h12 : T.wipe = U.wipe) : T = U := by
  cases T; cases U
  simp only at *
  subst h1 h2 h3 h4 h5 h6 h7 h8 h9 h10 h11 h12
  rfl

theorem putChar_eq (env : Env) (c : BlockCipher σ) (ch : Byte) : cipherPutCharI env c ch = cipherPutChar env c ch := by
  funext t
  unfold cipherPutChar
  change (if t.used < c.blocksize then _ else _ : M (CipherSt σ) Unit) t = _
  by_cases h1 : t.used < c.blocksize
  · rw [if_pos h1, if_pos h1]
    cases h : bytesSet t.ibuf t.used ch <;> rfl
  · rw [if_neg h1, if_neg h1, pushBlock_eq]
    refine mcongr fun _ q => ?_
    refine rcongr (s := q) fun _ => ?_
    rfl

theorem flush_eq (env : Env) (c : BlockCipher σ) : cipherFlushI env c = cipherFlush env c := by
  funext t
  unfold cipherFlush
  change (if t.used = 0 then M.pure () else if t.used = c.blocksize then _ else M.raise (.error .wrongDataLength) : M (CipherSt σ) Unit) t = _
  by_cases h1 : t.used = 0
  · rw [if_pos h1, if_pos h1]; rfl
  rw [if_neg h1, if_neg h1]
  by_cases h2 : t.used = c.blocksize
  · rw [if_pos h2, if_pos h2, ensure_eq, onBufI_zoom]
    unfold pushBlock
    rw [massoc]
    refine mcongr fun _ q => ?_
    rw [massoc]
    refine mcongr (m := callOut c) (s := q) fun _ q => ?_
    rfl
  · rw [if_neg h2, if_neg h2]; rfl

theorem wipe_eq (c : BlockCipher σ) : cipherWipeI c = cipherWipe c := rfl

theorem blockTransform_eq (env : Env) (c : BlockCipher σ) : blockTransformI env c = blockTransform env c := by
  refine text ?_ ?_ ?_ ?_ ?_ ?_ ?_ ?_ ?_ ?_ ?_ (wipe_eq c)
  · funext a b d t; exact putSubstring_eq env c a b d t
  · funext a t; exact putSubstring_eq env c a _ _ t
  · funext a; exact putChar_eq env c a
  · funext a; exact putChar_eq env c _
  · exact flush_eq env c
  · exact flush_eq env c
  · exact (congrArg onBufI available_eq).trans (onBufI_zoom _)
  · exact (congrArg onBufI getString_eq).trans (onBufI_zoom _)
  · exact (congrArg onBufI getSubstring_eq).trans (onBufI_zoom _)
  · exact (congrArg onBufI getChar_eq).trans (onBufI_zoom _)
  · exact (congrArg onBufI getByte_eq).trans (onBufI_zoom _)

theorem padPush_eq (env : Env) (p : PadScheme) (c : BlockCipher σ) : padPushI env p c =
    (do
      let st ← M.get
      let ib ← ofExcept (p.pad st.ibuf st.used)
      M.modify fun st => { st with ibuf := ib }
      pushBlock env c : M (CipherSt σ) Unit) := by
  unfold padPushI
  rw [pushBlock_eq]
  rfl

theorem paddedEncrypt_eq (env : Env) (p : PadScheme) (c : BlockCipher σ) : paddedEncryptI env p c = paddedEncrypt env p c := by
  unfold paddedEncryptI paddedEncrypt
  rw [blockTransform_eq]
  refine text rfl rfl rfl rfl rfl ?_ rfl rfl rfl rfl rfl rfl
  funext t
  change paddedEncryptFinishI env p c t = paddedEncryptFinish env p c t
  unfold paddedEncryptFinishI paddedEncryptFinish
  rw [padPush_eq]
  change (if t.used ≥ c.blocksize then _ else _ : M (CipherSt σ) Unit) t = (if t.used ≥ c.blocksize then _ else _ : M (CipherSt σ) Unit) t
  by_cases h1 : t.used ≥ c.blocksize
  · rw [if_pos h1, if_pos h1]
    unfold pushResetI
    rw [pushBlock_eq, massoc]
    exact mcongr fun _ q => rfl
  · rw [if_neg h1, if_neg h1]

theorem paddedDecrypt_eq (env : Env) (p : PadScheme) (c : BlockCipher σ) : paddedDecryptI env p c = paddedDecrypt env p c := by
  unfold paddedDecryptI paddedDecrypt
  rw [blockTransform_eq]
  refine text rfl rfl rfl rfl rfl ?_ rfl rfl rfl rfl rfl rfl
  funext t
  change paddedDecryptFinishI env p c t = paddedDecryptFinish env p c t
  unfold paddedDecryptFinishI paddedDecryptFinish
  change (if t.used ≠ c.blocksize then _ else _ : M (CipherSt σ) Unit) t = (if t.used ≠ c.blocksize then _ else _ : M (CipherSt σ) Unit) t
  by_cases h1 : t.used ≠ c.blocksize
  · rw [if_pos h1, if_pos h1]; rfl
  · rw [if_neg h1, if_neg h1]
    refine mcongr (m := callIbuf c) (s := t) fun _ q => ?_
    refine xcongr (e := p.strip q.ibuf) (s := q) fun v => ?_
    rw [ensure_eq, onBufI_zoom]
    refine mcongr (m := onBuf (OBuf.ensureCapacity env v)) (s := q) fun _ q => ?_
    exact rcongr (s := q) fun _ => rfl

theorem onStreamBufI_zoom (m : M OBuf α) :
    onStreamBufI (M.zoom (·.2) (fun o (p : σ × OBuf) => (p.1, o)) m)
      = M.zoom (·.ob) (fun o t => { t with ob := o }) m := by
  funext t
  simp only [onStreamBufI, M.zoom]
  cases m t.ob <;> rfl

theorem streamPut_eq (env : Env) (c : StreamCipher σ) (src : Bytes) (ofs len : Int) :
    streamPutI env c src ofs len = streamPut env c src ofs len := by
  unfold streamPutI streamPut
  rw [ensure_eq, onStreamBufI_zoom]
  funext t
  refine mcongr fun _ q => ?_
  refine mcongr (m := streamOut c src ofs len) (s := q) fun _ q => ?_
  rfl

theorem streamPutChar_eq (env : Env) (c : StreamCipher σ) (ch : Byte) : streamPutCharI env c ch = streamPutChar env c ch := by
  funext t
  unfold streamPutCharI streamPutChar
  refine rcongr (s := t) fun _ => ?_
  rw [streamPut_eq]
  rfl

theorem streamTransform_eq (env : Env) (c : StreamCipher σ) : streamTransformI env c = streamTransform env c := by
  refine text ?_ ?_ ?_ ?_ rfl rfl ?_ ?_ ?_ ?_ ?_ rfl
  · funext a b d; exact streamPut_eq env c a b d
  · funext a; exact streamPut_eq env c a _ _
  · funext a; exact streamPutChar_eq env c _
  · funext a; exact streamPutChar_eq env c _
  · exact (congrArg onStreamBufI available_eq).trans (onStreamBufI_zoom _)
  · exact (congrArg onStreamBufI getString_eq).trans (onStreamBufI_zoom _)
  · exact (congrArg onStreamBufI getSubstring_eq).trans (onStreamBufI_zoom _)
  · exact (congrArg onStreamBufI getChar_eq).trans (onStreamBufI_zoom _)
  · exact (congrArg onStreamBufI getByte_eq).trans (onStreamBufI_zoom _)

end Verif.Quiet
