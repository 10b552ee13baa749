import Verif.Proof.Sim
import Verif.Props.ExampleUninit
/-
C97, hexadecimal and Base64 encoding and decoding.
-/
namespace Verif

open Spec

variable {env env' : Env}

/-- C97, `Hexa.encode`. -/
theorem C97_hex_encode (he : SameMachine env env') (hm : 256 ≤ env.maxLen) :
    SameTransform ⟨Hex.encode env, Hex.encInit env⟩ ⟨Hex.encode env', Hex.encInit env'⟩ := by
  intro cs
  have hb : ∀ b, Keep (SameOut env env') (Hex.encPutByte env b) (Hex.encPutByte env' b) := fun b t t' ht =>
    Sim.bind (ensure_keep he 2 t t' ht) fun _ s s' hs =>
      Sim.orRaise rfl hs fun x _ => emit_keep he x s s' hs
  have hu : Keep (SameOut env env') (M.pure () : M OBuf Unit) (M.pure ()) := fun _ _ h => ⟨rfl, h⟩
  exact trace_keep (charMethods_keep (fun _ _ h => h) (fun _ _ _ _ _ h => h) (fun c => hb c.toNat) hb hu hu) cs
    (sameOut_init he (by decide) hm)

/-- Two states of the hexadecimal decoder. -/
def HexLike (env env' : Env) (t t' : Hex.Dec) : Prop :=
  t.ibuf = t'.ibuf ∧ t.ipos = t'.ipos ∧ SameOut env env' t.ob t'.ob

theorem hexDec_out (he : SameMachine env env') (cs : Bytes) :
    Keep (HexLike env env') (Hex.Dec.out (OBuf.emit env cs)) (Hex.Dec.out (OBuf.emit env' cs)) := fun t t' ht =>
  Sim.zoom (emit_keep he cs _ _ ht.2.2) (fun _ _ _ h => ⟨ht.1, ht.2.1, h⟩) fun _ _ h => ⟨ht.1, ht.2.1, h⟩

theorem hexDec_put (he : SameMachine env env') (c : Byte) :
    Keep (HexLike env env') (Hex.decPutChar env c) (Hex.decPutChar env' c) := by
  intro t t' ht
  unfold Hex.decPutChar
  refine Sim.ofExcept ht fun n _ => ?_
  split
  · unfold Hex.decDigit
    refine Sim.get ?_
    rw [← ht.1, ← ht.2.1]
    split
    · exact ⟨rfl, ht⟩
    · refine Sim.modify (Sim.get ?_)
      have h1 : HexLike env env' { t with ibuf := t.ibuf.set t.ipos n.toNat, ipos := t.ipos + 1 }
          { t' with ibuf := t'.ibuf.set t'.ipos n.toNat, ipos := t'.ipos + 1 } :=
        ⟨by rw [← ht.1, ← ht.2.1], by rw [← ht.2.1], ht.2.2⟩
      revert h1
      generalize ({ t with ibuf := t.ibuf.set t.ipos n.toNat, ipos := t.ipos + 1 } : Hex.Dec) = u
      generalize ({ t' with ibuf := t'.ibuf.set t'.ipos n.toNat, ipos := t'.ipos + 1 } : Hex.Dec) = u'
      intro h1
      rw [← h1.2.1]
      split
      · unfold Hex.decGroup
        refine Sim.get ?_
        rw [← h1.1]
        refine Sim.orRaise rfl h1 fun a0 _ => Sim.orRaise rfl h1 fun a1 _ => ?_
        generalize charChr _ = o
        refine Sim.orRaise rfl h1 fun x _ => ?_
        exact Sim.bind (hexDec_out he _ _ _ h1) fun _ s s' hs => ⟨rfl, hs.1, rfl, hs.2.2⟩
      · exact ⟨rfl, h1⟩
  · exact ⟨rfl, ht⟩

theorem hexDec_end (e : Exn) : Keep (HexLike env env')
    (do let t ← M.get; if t.ipos ≠ 0 then M.raise e) (do let t ← M.get; if t.ipos ≠ 0 then M.raise e) := by
  intro t t' ht
  refine Sim.get ?_
  rw [← ht.2.1]
  split
  · exact ⟨rfl, ht⟩
  · exact ⟨rfl, ht⟩

/-- C97, `Hexa.decode`. -/
theorem C97_hex_decode (he : SameMachine env env') (hm : 256 ≤ env.maxLen) :
    SameTransform ⟨Hex.decode env, Hex.decInit env⟩ ⟨Hex.decode env', Hex.decInit env'⟩ := fun cs =>
  trace_keep (charMethods_keep (fun _ _ h => h.2.2) (fun _ _ _ _ h ho => ⟨h.1, h.2.1, ho⟩) (hexDec_put he)
    (putByteChr_keep (hexDec_put he)) (hexDec_end _) (hexDec_end _)) cs
    (show HexLike env env' _ _ from ⟨rfl, rfl, sameOut_init he (by decide) hm⟩)

/-- Two states of the Base64 encoder: the bytes put since the last group are the same. -/
structure EncLike (env env' : Env) (t t' : B64.Enc) : Prop where
  pos : t.ipos = t'.ipos
  col : t.ocolumn = t'.ocolumn
  le : t.ipos ≤ 3
  len : t.ibuf.length = 3
  len' : t'.ibuf.length = 3
  pre : t.ibuf.take t.ipos = t'.ibuf.take t.ipos
  ob : SameOut env env' t.ob t'.ob

theorem enc_out (he : SameMachine env env') (cs : Bytes) :
    Keep (EncLike env env') (B64.Enc.out (OBuf.emit env cs)) (B64.Enc.out (OBuf.emit env' cs)) := fun _ _ ht =>
  Sim.zoom (emit_keep he cs _ _ ht.ob) (fun _ _ _ h => { ht with ob := h }) fun _ _ h => { ht with ob := h }

theorem bytesGet_pre {b b' : Bytes} {n i : Nat} (h : b.take n = b'.take n) (hi : i < n) :
    bytesGet b i = bytesGet b' i := by
  have h2 : b[i]? = b'[i]? := by
    have := congrArg (fun l : Bytes => l[i]?) h
    simpa [List.getElem?_take, hi] using this
  unfold bytesGet
  simp only [Int.toNat_natCast, h2]

theorem enc_group (he : SameMachine env env') (ml : Bool) {t t' : B64.Enc} (ht : EncLike env env' t t')
    (h3 : t.ipos = 3) :
    Sim (fun _ => EncLike env env') (EncLike env env') (B64.encGroup env ml t) (B64.encGroup env' ml t') := by
  have hib : t.ibuf = t'.ibuf := take_all ht.len ht.len' (by omega) ht.pre
  unfold B64.encGroup
  refine Sim.get ?_
  rw [← hib]
  refine Sim.orRaise rfl ht fun b0 _ => Sim.orRaise rfl ht fun b1 _ => Sim.orRaise rfl ht fun b2 _ =>
    Sim.orRaise rfl ht fun cs _ => Sim.bind (enc_out he cs t t' ht) fun _ s s' hs => Sim.modify (Sim.get ?_)
  have h1 : EncLike env env' { s with ipos := 0, ocolumn := s.ocolumn + 4 } { s' with ipos := 0, ocolumn := s'.ocolumn + 4 } :=
    { pos := rfl, col := by simp only [hs.col], le := Nat.zero_le _, len := hs.len, len' := hs.len', pre := rfl, ob := hs.ob }
  revert h1
  generalize ({ s with ipos := 0, ocolumn := s.ocolumn + 4 } : B64.Enc) = u
  generalize ({ s' with ipos := 0, ocolumn := s'.ocolumn + 4 } : B64.Enc) = u'
  intro h1
  rw [← h1.col]
  split
  · exact Sim.bind (enc_out he _ u u' h1) fun _ v v' hv => ⟨rfl, { hv with col := rfl }⟩
  · exact ⟨rfl, h1⟩

theorem enc_put (he : SameMachine env env') (ml : Bool) (c : Byte) :
    Keep (EncLike env env') (B64.encPutChar env ml c) (B64.encPutChar env' ml c) := by
  intro t t' ht
  have hle := ht.le
  have hl := ht.len
  have hl' := ht.len'
  unfold B64.encPutChar
  refine Sim.get ?_
  rw [← ht.pos]
  by_cases hlt : t.ipos < 3
  · have s1 := bytesSet_ok (b := t.ibuf) (i := t.ipos) (c := c) (by omega)
    have s2 := bytesSet_ok (b := t'.ibuf) (i := t.ipos) (c := c) (by omega)
    rw [s1, s2]
    simp only [M.orRaise_some, M.bind_def, M.modify_def, M.get_def]
    rw [← ht.pos]
    have h1 : EncLike env env' { t with ibuf := t.ibuf.set t.ipos c, ipos := t.ipos + 1 }
        { t' with ibuf := t'.ibuf.set t.ipos c, ipos := t.ipos + 1 } :=
      { pos := rfl, col := ht.col, le := hlt, len := by simp only [List.length_set]; exact hl
        len' := by simp only [List.length_set]; exact hl'
        pre := by
          simp only
          rw [List.take_add_one, List.take_add_one, List.take_set_of_le (by omega), List.take_set_of_le (by omega),
            List.getElem?_set_self (by omega), List.getElem?_set_self (by omega), ht.pre]
        ob := ht.ob }
    split
    · exact enc_group he ml h1 (by assumption)
    · exact ⟨rfl, h1⟩
  · have n1 : bytesSet t.ibuf t.ipos c = none := by unfold bytesSet; rw [if_neg (by omega)]
    have n2 : bytesSet t'.ibuf t.ipos c = none := by unfold bytesSet; rw [if_neg (by omega)]
    rw [n1, n2]
    exact ⟨rfl, ht⟩

theorem sim_last {σ σ' α : Type} {R : σ → σ' → Prop} {t : σ} {t' : σ'} (h : R t t') (e : Exn) (o : Option α) :
    Sim (fun _ => R) R (M.orRaise e o t) (M.orRaise e o t') := by
  cases o
  · exact ⟨rfl, h⟩
  · exact ⟨rfl, h⟩

theorem enc_finish (he : SameMachine env env') (ml padding : Bool) :
    Keep (EncLike env env') (B64.encFinish env ml padding) (B64.encFinish env' ml padding) := by
  intro t t' ht
  unfold B64.encFinish
  refine Sim.bind (Q := fun _ => EncLike env env') ?_ fun cs s s' hs => Sim.bind (enc_out he cs s s' hs) fun _ u u' hu =>
    Sim.bind (Q := fun _ => EncLike env env') ?_ fun _ v v' hv => Sim.bind (Q := fun _ => EncLike env env') ?_
      fun _ w w' hw => ⟨rfl, { hw with col := rfl }⟩
  · unfold B64.encRest
    refine Sim.get ?_
    rw [← ht.pos]
    match hp : t.ipos with
    | 0 => exact ⟨rfl, ht⟩
    | 1 =>
      refine Sim.orRaise (bytesGet_pre ht.pre (i := 0) (by omega)) ht fun b0 _ => ?_
      exact sim_last ht _ _
    | 2 =>
      refine Sim.orRaise (bytesGet_pre ht.pre (i := 0) (by omega)) ht fun b0 _ => ?_
      refine Sim.orRaise (bytesGet_pre ht.pre (i := 1) (by omega)) ht fun b1 _ => ?_
      exact sim_last ht _ _
    | _ + 3 => exact ⟨rfl, ht⟩
  · unfold B64.encPad
    refine Sim.get ?_
    rw [← hu.pos]
    split
    · exact enc_out he _ _ _ hu
    · exact ⟨rfl, hu⟩
  · unfold B64.encNewline
    refine Sim.get ?_
    rw [← hv.col]
    split
    · exact enc_out he _ _ _ hv
    · exact ⟨rfl, hv⟩

/-- C97, `Base64.encode_multiline`, `encode_compact` and `encode_compact_pad`. -/
theorem C97_base64_encode (he : SameMachine env env') (hm : 256 ≤ env.maxLen) (multiline padding : Bool) :
    SameTransform ⟨B64.encode env multiline padding, B64.encInit env⟩
      ⟨B64.encode env' multiline padding, B64.encInit env'⟩ := by
  intro cs
  have hfl : Keep (EncLike env env') (M.raise (.error .wrongDataLength) : M B64.Enc Unit)
      (M.raise (.error .wrongDataLength)) := fun _ _ h => ⟨rfl, h⟩
  exact trace_keep (charMethods_keep (fun _ _ h => h.ob) (fun _ _ _ _ h ho => { h with ob := ho }) (enc_put he multiline)
    (putByteChr_keep (enc_put he multiline)) hfl (enc_finish he multiline padding)) cs
    { pos := rfl, col := rfl, le := Nat.zero_le _, len := by simp [B64.encInit], len' := by simp [B64.encInit]
      pre := rfl, ob := sameOut_init he (by decide) hm }

/-- Two states of the Base64 decoder. -/
structure DecLike (env env' : Env) (t t' : B64.Dec) : Prop where
  buf : t.ibuf = t'.ibuf
  pos : t.ipos = t'.ipos
  fin : t.finished = t'.finished
  ob : SameOut env env' t.ob t'.ob

theorem dec_out (he : SameMachine env env') (cs : Bytes) :
    Keep (DecLike env env') (B64.Dec.out (OBuf.emit env cs)) (B64.Dec.out (OBuf.emit env' cs)) := fun _ _ ht =>
  Sim.zoom (emit_keep he cs _ _ ht.ob) (fun _ _ _ h => { ht with ob := h }) fun _ _ h => { ht with ob := h }

theorem dec_put (he : SameMachine env env') (c : Byte) :
    Keep (DecLike env env') (B64.decPutChar env c) (B64.decPutChar env' c) := by
  intro t t' ht
  unfold B64.decPutChar
  split
  · exact ⟨rfl, ht.buf, ht.pos, rfl, ht.ob⟩
  refine Sim.ofExcept ht fun n _ => ?_
  split
  · unfold B64.decDigit
    refine Sim.get ?_
    rw [← ht.buf, ← ht.pos, ← ht.fin]
    split
    · exact ⟨rfl, ht⟩
    split
    · exact ⟨rfl, ht⟩
    · refine Sim.modify (Sim.get ?_)
      have h1 : DecLike env env' { t with ibuf := t.ibuf.set t.ipos n.toNat, ipos := t.ipos + 1 }
          { t' with ibuf := t'.ibuf.set t'.ipos n.toNat, ipos := t'.ipos + 1 } :=
        ⟨by rw [← ht.buf, ← ht.pos], by rw [← ht.pos], ht.fin, ht.ob⟩
      revert h1
      generalize ({ t with ibuf := t.ibuf.set t.ipos n.toNat, ipos := t.ipos + 1 } : B64.Dec) = u
      generalize ({ t' with ibuf := t'.ibuf.set t'.ipos n.toNat, ipos := t'.ipos + 1 } : B64.Dec) = u'
      intro h1
      rw [← h1.pos]
      split
      · unfold B64.decGroup
        refine Sim.get ?_
        have hat : ∀ i, u.at i = u'.at i := fun i => by unfold B64.Dec.at; rw [h1.buf]
        rw [← hat, ← hat, ← hat, ← hat]
        refine Sim.orRaise rfl h1 fun _ _ => Sim.orRaise rfl h1 fun _ _ => Sim.orRaise rfl h1 fun _ _ =>
          Sim.orRaise rfl h1 fun _ _ => Sim.orRaise rfl h1 fun _ _ => Sim.orRaise rfl h1 fun _ _ =>
          Sim.orRaise rfl h1 fun _ _ => ?_
        exact Sim.bind (dec_out he _ _ _ h1) fun _ s s' hs => ⟨rfl, hs.buf, rfl, hs.fin, hs.ob⟩
      · exact ⟨rfl, h1⟩
  · exact ⟨rfl, ht⟩

theorem dec_finish (he : SameMachine env env') :
    Keep (DecLike env env') (B64.decFinish env) (B64.decFinish env') := by
  intro t t' ht
  unfold B64.decFinish
  refine Sim.modify ?_
  have h1 : DecLike env env' { t with finished := true } { t' with finished := true } := ⟨ht.buf, ht.pos, rfl, ht.ob⟩
  revert h1
  generalize ({ t with finished := true } : B64.Dec) = u
  generalize ({ t' with finished := true } : B64.Dec) = u'
  intro h1
  refine Sim.bind (Q := fun _ => DecLike env env') ?_ fun cs s s' hs => dec_out he cs s s' hs
  unfold B64.decRest
  refine Sim.get ?_
  have hat : ∀ i, u.at i = u'.at i := fun i => by unfold B64.Dec.at; rw [h1.buf]
  rw [← h1.pos]
  match u.ipos with
  | 0 => exact ⟨rfl, h1⟩
  | 1 => exact ⟨rfl, h1⟩
  | 2 => exact Sim.orRaise (hat 0) h1 fun _ _ => Sim.orRaise (hat 1) h1 fun _ _ => Sim.orRaise rfl h1 fun _ _ => ⟨rfl, h1⟩
  | 3 => exact Sim.orRaise (hat 0) h1 fun _ _ => Sim.orRaise (hat 1) h1 fun _ _ => Sim.orRaise (hat 2) h1 fun _ _ =>
      Sim.orRaise rfl h1 fun _ _ => Sim.orRaise rfl h1 fun _ _ => ⟨rfl, h1⟩
  | _ + 4 => exact ⟨rfl, h1⟩

/-- C97, `Base64.decode`. -/
theorem C97_base64_decode (he : SameMachine env env') (hm : 256 ≤ env.maxLen) :
    SameTransform ⟨B64.decode env, B64.decInit env⟩ ⟨B64.decode env', B64.decInit env'⟩ := by
  intro cs
  have hfl : Keep (DecLike env env') (M.raise (.error .wrongDataLength) : M B64.Dec Unit)
      (M.raise (.error .wrongDataLength)) := fun _ _ h => ⟨rfl, h⟩
  exact trace_keep (charMethods_keep (fun _ _ h => h.ob) (fun _ _ _ _ h ho => { h with ob := ho }) (dec_put he)
    (putByteChr_keep (dec_put he)) hfl (dec_finish he)) cs ⟨rfl, rfl, rfl, sameOut_init he (by decide) hm⟩

open Example in
/-- The objects differ, but not what is seen of them. -/
example : OBuf.init env64 256 ≠ OBuf.init envA5 256 ∧ (B64.encInit env64).ibuf ≠ (B64.encInit envA5).ibuf
    ∧ SameTransform ⟨B64.encode env64 true true, B64.encInit env64⟩ ⟨B64.encode envA5 true true, B64.encInit envA5⟩ :=
  ⟨init_A5, by decide, C97_base64_encode same_A5 (by decide) true true⟩

open Example in
example := And.intro (C97_hex_encode same_A5 (by decide))
  (And.intro (C97_hex_decode same_A5 (by decide)) (C97_base64_decode same_A5 (by decide)))

end Verif
