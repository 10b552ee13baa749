import Verif.Proof.InterruptAeadQuiet
import Verif.Proof.InterruptCodec
import Verif.Spec.InterruptCodec
/-
Where nothing happens at the interruption points, the interruptible codecs of Model/InterruptCodec are those
of Model/Codec.
-/
namespace Verif.Quiet

open Spec Codec

attribute [local instance low] quiet
variable {κ : Type}

/-- On the second component. -/
abbrev snd (κ : Type) (m : M τ α) : M (κ × τ) α := M.zoom (·.2) (fun t p => (p.1, t)) m

theorem snd_bind (m : M τ α) (k : α → M τ β) : snd κ (m >>= k) = snd κ m >>= fun a => snd κ (k a) := by
  funext p
  simp only [M.bind_def, M.zoom]
  cases m p.2 <;> rfl

theorem snd_orRaise (e : Exn) (o : Option α) : snd κ (M.orRaise e o : M τ α) = M.orRaise e o := by
  cases o <;> rfl
theorem snd_ofExcept (o : Except Exn α) : snd κ (ofExcept o : M τ α) = ofExcept o := by
  cases o <;> rfl
theorem snd_ite {c : Prop} [Decidable c] (m k : M τ α) :
    snd κ (if c then m else k) = if c then snd κ m else snd κ k := by
  split <;> rfl
theorem snd_get : snd κ (M.get : M τ τ) = self := rfl
theorem snd_modify (f : τ → τ) : snd κ (M.modify f) = assignI f := rfl
theorem snd_pure (a : α) : snd κ (pure a : M τ α) = pure a := rfl
theorem snd_raise (e : Exn) : snd κ (M.raise e : M τ α) = M.raise e := rfl
theorem qassign {f : τ → τ} {k : Unit → M (κ × τ) β} {s : κ × τ} :
    (assignI f >>= k) s = k () (s.1, f s.2) := rfl
theorem qself {k : τ → M (κ × τ) β} {s : κ × τ} : (self >>= k) s = k s.2 s := rfl

theorem snd_out (get : τ → OBuf) (set : OBuf → τ → τ) (m : M OBuf α) :
    Codec.outI get set (snd κ m) = snd κ (M.zoom get set m) := by
  funext p
  simp only [Codec.outI, M.zoom]
  cases m (get p.2) <;> rfl

theorem sets_eq (env : Env) : ∀ (cs : Bytes) (i : Nat),
    @OBuf.setsI κ (quiet κ) i cs = snd κ (OBuf.emit.sets i cs)
  | [], _ => rfl
  | c :: cs, i => by
    funext p
    unfold OBuf.setsI OBuf.emit.sets
    rw [qpoll (fun _ => rfl), sets_eq env cs, snd_bind, snd_get, qself, qget, snd_bind, snd_orRaise]
    refine rcongr fun b => ?_
    rw [snd_bind]
    rfl

theorem emit_eq (env : Env) (cs : Bytes) : @OBuf.emitI κ (quiet κ) env cs = snd κ (OBuf.emit env cs) := by
  unfold OBuf.emitI OBuf.emit
  rw [ensure_eq, sets_eq env, snd_bind]
  funext p
  refine mcongr fun _ p => ?_
  rw [snd_bind]
  refine mcongr fun _ p => ?_
  rfl

theorem putLoop_eq (put : Byte → M τ Unit) (s : Bytes) : ∀ (n : Nat) (i : Int),
    putLoop (fun c => snd κ (put c)) s i n = snd κ (putLoop put s i n)
  | 0, _ => rfl
  | n + 1, i => by
    unfold putLoop
    rw [snd_bind, snd_orRaise]
    simp only [snd_bind, putLoop_eq put s n]

theorem iterChars_eq (put : Byte → M τ Unit) : ∀ s : Bytes,
    iterChars (fun c => snd κ (put c)) s = snd κ (iterChars put s)
  | [] => rfl
  | c :: s => by
    unfold iterChars
    rw [snd_bind, iterChars_eq put s]

theorem putByteChr_eq (put : Byte → M τ Unit) (b : Int) :
    putByteChr (fun c => snd κ (put c)) b = snd κ (putByteChr put b) := by
  unfold putByteChr
  rw [snd_bind, snd_orRaise]

theorem codec_eq {get : τ → OBuf} {set : OBuf → τ → τ} {put : Byte → M (κ × τ) Unit} {put' : Byte → M τ Unit}
    {putByte : Int → M (κ × τ) Unit} {putByte' : Int → M τ Unit} {flush finish wipe : M (κ × τ) Unit}
    {flush' finish' wipe' : M τ Unit} (h1 : ∀ c, put c = snd κ (put' c)) (h2 : ∀ b, putByte b = snd κ (putByte' b))
    (h3 : flush = snd κ flush') (h4 : finish = snd κ finish') (h5 : wipe = snd κ wipe') :
    @inheritI κ (quiet κ) _ get set (charMethods put putByte flush finish wipe) =
      beside κ (inheritBuf get set (charMethods put' putByte' flush' finish' wipe')) := by
  have h1 : put = fun c => snd κ (put' c) := funext h1
  have h2 : putByte = fun b => snd κ (putByte' b) := funext h2
  subst h1 h2 h3 h4 h5
  apply text
  · funext s i n; exact putLoop_eq put' s n.toNat i
  · funext s; exact iterChars_eq put' s
  · rfl
  · rfl
  · rfl
  · rfl
  · exact (congrArg (Codec.outI get set) available_eq).trans (snd_out _ _ _)
  · exact (congrArg (Codec.outI get set) getString_eq).trans (snd_out _ _ _)
  · exact (congrArg (Codec.outI get set) getSubstring_eq).trans (snd_out _ _ _)
  · exact (congrArg (Codec.outI get set) getChar_eq).trans (snd_out _ _ _)
  · exact (congrArg (Codec.outI get set) getByte_eq).trans (snd_out _ _ _)
  · rfl

section b64

open B64

theorem encEmit_eq (env : Env) (cs : Bytes) :
    Enc.outI (@OBuf.emitI κ (quiet κ) env cs) = snd κ (Enc.out (OBuf.emit env cs)) := by
  rw [emit_eq]; exact snd_out _ _ _

theorem encGroup_eq (env : Env) (m : Bool) : @encGroupI κ (quiet κ) env m = snd κ (encGroup env m) := by
  funext p
  unfold encGroupI encGroup
  rw [snd_bind, snd_get, qself, qself, snd_bind, snd_orRaise]
  refine rcongr fun b0 => ?_
  rw [snd_bind, snd_orRaise]
  refine rcongr fun b1 => ?_
  rw [snd_bind, snd_orRaise]
  refine rcongr fun b2 => ?_
  rw [snd_bind, snd_orRaise]
  refine rcongr fun cs => ?_
  rw [snd_bind, encEmit_eq]
  refine mcongr fun _ p => ?_
  rw [qassign, qpoll (fun _ => rfl), qassign, qpoll (fun _ => rfl), qself, snd_bind, snd_modify, qassign,
    snd_bind, snd_get, qself, snd_ite]
  simp only
  split
  · rw [snd_bind, encEmit_eq]
    exact mcongr fun _ p => rfl
  · rfl

theorem encPutChar_eq (env : Env) (m : Bool) (c : Byte) :
    @encPutCharI κ (quiet κ) env m c = snd κ (encPutChar env m c) := by
  funext p
  unfold encPutCharI encPutChar
  rw [qpoll (fun _ => rfl), snd_bind, snd_get, qself, qself, snd_bind, snd_orRaise]
  refine rcongr fun ib => ?_
  rw [qassign, qpoll (fun _ => rfl), qassign, qpoll (fun _ => rfl), qself, snd_bind, snd_modify, qassign,
    snd_bind, snd_get, qself, snd_ite, encGroup_eq]
  rfl

theorem encFinish_eq (env : Env) (m pd : Bool) :
    @encFinishI κ (quiet κ) env m pd = snd κ (encFinish env m pd) := by
  funext p
  unfold encFinishI encFinish
  rw [qpoll (fun _ => rfl), snd_bind]
  refine mcongr fun cs p => ?_
  rw [snd_bind, encEmit_eq]
  refine mcongr fun _ p => ?_
  have h1 : @encPadI κ (quiet κ) env m pd = snd κ (encPad env m pd) := by
    unfold encPadI encPad
    rw [snd_bind]
    simp only [snd_ite, encEmit_eq]
    rfl
  have h2 : @encNewlineI κ (quiet κ) env m = snd κ (encNewline env m) := by
    unfold encNewlineI encNewline
    rw [snd_bind]
    simp only [snd_ite, encEmit_eq]
    rfl
  rw [snd_bind, h1]
  refine mcongr fun _ p => ?_
  rw [snd_bind, h2]
  exact mcongr fun _ p => rfl

theorem b64Encode_eq (env : Env) (m pd : Bool) :
    @encodeI κ (quiet κ) env m pd = beside κ (encode env m pd) := by
  refine codec_eq (encPutChar_eq env m) (fun b => ?_) rfl (encFinish_eq env m pd) ?_
  · rw [← putByteChr_eq]
    exact congrArg (fun f => putByteChr f b) (funext fun c => encPutChar_eq env m c)
  · funext p
    unfold encWipeI encWipe
    rw [qpoll (fun _ => rfl), snd_bind, Enc.outI, bufWipe_eq]
    exact mcongr (m := assignI _) fun _ p => congrFun (snd_out _ _ _) p

theorem b64DecEmit_eq (env : Env) (cs : Bytes) :
    Dec.outI (@OBuf.emitI κ (quiet κ) env cs) = snd κ (Dec.out (OBuf.emit env cs)) := by
  rw [emit_eq]; exact snd_out _ _ _

theorem b64DecGroup_eq (env : Env) : @decGroupI κ (quiet κ) env = snd κ (decGroup env) := by
  funext p
  unfold decGroupI decGroup
  rw [snd_bind, snd_get, qself, qself, snd_bind, snd_orRaise]
  refine rcongr fun _ => ?_
  rw [snd_bind, snd_orRaise]
  refine rcongr fun _ => ?_
  rw [snd_bind, snd_orRaise]
  refine rcongr fun _ => ?_
  rw [snd_bind, snd_orRaise]
  refine rcongr fun _ => ?_
  rw [snd_bind, snd_orRaise]
  refine rcongr fun _ => ?_
  rw [snd_bind, snd_orRaise]
  refine rcongr fun _ => ?_
  rw [snd_bind, snd_orRaise]
  refine rcongr fun _ => ?_
  rw [snd_bind, b64DecEmit_eq]
  exact mcongr fun _ p => rfl

theorem b64DecDigit_eq (env : Env) (n : Int) : @decDigitI κ (quiet κ) env n = snd κ (decDigit env n) := by
  funext p
  unfold decDigitI decDigit
  rw [snd_bind, snd_get, qself, qself, snd_ite]
  split
  · rfl
  rw [snd_ite]
  split
  · rfl
  rw [qassign, qpoll (fun _ => rfl), qassign, qpoll (fun _ => rfl), qself, snd_bind, snd_modify, qassign,
    snd_bind, snd_get, qself, snd_ite, b64DecGroup_eq]
  rfl

theorem b64DecPutChar_eq (env : Env) (c : Byte) : @decPutCharI κ (quiet κ) env c = snd κ (decPutChar env c) := by
  funext p
  unfold decPutCharI decPutChar
  rw [qpoll (fun _ => rfl), snd_ite]
  split
  · rfl
  rw [snd_bind, snd_ofExcept]
  refine xcongr fun n => ?_
  rw [snd_ite, b64DecDigit_eq]
  rfl

theorem b64DecFinish_eq (env : Env) : @decFinishI κ (quiet κ) env = snd κ (decFinish env) := by
  funext p
  unfold decFinishI decFinish
  rw [qpoll (fun _ => rfl), qassign, qpoll (fun _ => rfl), snd_bind, snd_modify, qassign, snd_bind]
  refine mcongr fun cs p => ?_
  rw [b64DecEmit_eq]

theorem b64Decode_eq (env : Env) : @decodeI κ (quiet κ) env = beside κ (decode env) := by
  refine codec_eq (b64DecPutChar_eq env) (fun b => ?_) rfl (b64DecFinish_eq env) ?_
  · rw [← putByteChr_eq]
    exact congrArg (fun f => putByteChr f b) (funext fun c => b64DecPutChar_eq env c)
  · funext p
    unfold decWipeI decWipe
    rw [qpoll (fun _ => rfl), snd_bind, Dec.outI, bufWipe_eq]
    exact mcongr (m := assignI _) fun _ p => congrFun (snd_out _ _ _) p

end b64

section hex

open Hex

theorem hexEncPutByte_eq (env : Env) (b : Int) : @encPutByteI κ (quiet κ) env b = snd κ (encPutByte env b) := by
  funext p
  unfold encPutByteI encPutByte
  rw [qpoll (fun _ => rfl), ensure_eq, snd_bind]
  refine mcongr fun _ p => ?_
  rw [qpoll (fun _ => rfl), snd_bind, snd_orRaise]
  refine rcongr fun cs => ?_
  rw [emit_eq]

theorem hexEncode_eq (env : Env) : @encodeI κ (quiet κ) env = beside κ (encode env) :=
  codec_eq (fun c => hexEncPutByte_eq env c.toNat) (hexEncPutByte_eq env) rfl rfl bufWipe_eq

theorem hexDecEmit_eq (env : Env) (cs : Bytes) :
    Dec.outI (@OBuf.emitI κ (quiet κ) env cs) = snd κ (Dec.out (OBuf.emit env cs)) := by
  rw [emit_eq]; exact snd_out _ _ _

theorem hexDecGroup_eq (env : Env) : @decGroupI κ (quiet κ) env = snd κ (decGroup env) := by
  funext p
  unfold decGroupI decGroup
  rw [snd_bind, snd_get, qself, qself, snd_bind, snd_orRaise]
  refine rcongr fun a0 => ?_
  rw [snd_bind, snd_orRaise]
  refine rcongr fun a1 => ?_
  rw [snd_bind, snd_orRaise]
  generalize charChr ((a0 * 16 ||| a1 : Nat) : Int) = oc
  refine rcongr fun c => ?_
  rw [snd_bind, hexDecEmit_eq]
  exact mcongr fun _ p => rfl

theorem hexDecDigit_eq (env : Env) (n : Int) : @decDigitI κ (quiet κ) env n = snd κ (decDigit env n) := by
  funext p
  unfold decDigitI decDigit
  rw [snd_bind, snd_get, qself, qself, snd_ite]
  split
  · rfl
  rw [qassign, qpoll (fun _ => rfl), qassign, qpoll (fun _ => rfl), qself, snd_bind, snd_modify, qassign,
    snd_bind, snd_get, qself, snd_ite, hexDecGroup_eq]
  rfl

theorem hexDecPutChar_eq (env : Env) (c : Byte) : @decPutCharI κ (quiet κ) env c = snd κ (decPutChar env c) := by
  funext p
  unfold decPutCharI decPutChar
  rw [qpoll (fun _ => rfl), snd_bind, snd_ofExcept]
  refine xcongr fun n => ?_
  rw [snd_ite, hexDecDigit_eq]
  rfl

theorem hexDecode_eq (env : Env) : @decodeI κ (quiet κ) env = beside κ (decode env) := by
  refine codec_eq (hexDecPutChar_eq env) (fun b => ?_) ?_ ?_ ?_
  · rw [← putByteChr_eq]
    exact congrArg (fun f => putByteChr f b) (funext fun c => hexDecPutChar_eq env c)
  · funext p
    unfold decFlushI decFlush
    rw [qpoll (fun _ => rfl), snd_bind, snd_get, qself, qself, snd_ite]
    rfl
  · funext p
    unfold decFinishI decFinish
    rw [qpoll (fun _ => rfl), snd_bind, snd_get, qself, qself, snd_ite]
    rfl
  · funext p
    unfold decWipeI decWipe
    rw [qpoll (fun _ => rfl), snd_bind, Dec.outI, bufWipe_eq]
    exact mcongr (m := assignI _) fun _ p => congrFun (snd_out _ _ _) p

end hex

end Verif.Quiet
