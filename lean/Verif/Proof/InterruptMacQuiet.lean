import Verif.Proof.InterruptAeadQuiet
import Verif.Proof.InterruptMac
/-
Where nothing happens at the interruption points, the interruptible MACs of Model/InterruptMac are those
of Model/Mac.
-/
namespace Verif.Quiet

open Spec

attribute [local instance low] quiet
variable {σ σ2 σ3 : Type}

theorem macBlock_eq (c : BlockCipher σ) : @macBlockI σ (quiet σ) c = macBlock c := by
  funext t
  unfold macBlockI macBlock
  rw [qget, qget]
  refine mcongr fun _ q => ?_
  rw [qpoll (fun _ => rfl), M.bind_def]
  cases macCall c q <;> rfl

theorem macBlockReset_eq (c : BlockCipher σ) :
    @macBlockResetI σ (quiet σ) c = (do macBlock c; M.modify fun st => { st with used := 0 }) := by
  funext t
  unfold macBlockResetI
  rw [macBlock_eq]
  exact mcongr fun _ q => rfl

theorem macPlain_none {c : BlockCipher σ} {src : Bytes} {ofs len : Int} {t : MacSt σ}
    (h1 : ¬ len ≤ 0) (h2 : ¬ (t.used : Int) + len ≤ c.blocksize)
    (hb : bytesBlit src ofs t.buffer t.used ((c.blocksize : Int) - t.used) = none) :
    macAddSubstring c src ofs len t = .exn .invalidArg t := by
  rw [macAddSubstring, if_neg h1, if_neg h2]
  simp only []
  split
  · rfl
  · next hb' => rw [hb] at hb'; cases hb'

theorem macPlain_some {c : BlockCipher σ} {src : Bytes} {ofs len : Int} {t : MacSt σ} {ib : Bytes}
    (h1 : ¬ len ≤ 0) (h2 : ¬ (t.used : Int) + len ≤ c.blocksize)
    (hb : bytesBlit src ofs t.buffer t.used ((c.blocksize : Int) - t.used) = some ib) :
    macAddSubstring c src ofs len t =
      match macBlock c { t with buffer := ib } with
      | .ok () st' =>
        if _hb : c.blocksize = 0 then .loop
        else macAddSubstring c src (ofs + ((c.blocksize : Int) - t.used))
          (len - ((c.blocksize : Int) - t.used)) { st' with used := 0 }
      | .exn e st' => .exn e st'
      | .ub => .ub
      | .loop => .loop := by
  rw [macAddSubstring, if_neg h1, if_neg h2]
  simp only []
  split
  · next hb' => rw [hb] at hb'; cases hb'
  · next hb' => rw [hb] at hb'; cases hb'; rfl

theorem macAddSubstring_eq (c : BlockCipher σ) (src : Bytes) (ofs len : Int) (t : MacSt σ) :
    @macAddSubstringI σ (quiet σ) c src ofs len t = macAddSubstring c src ofs len t := by
  induction hk : len.toNat * 2 + (if t.used = 0 then 0 else 1) using Nat.strongRecOn
    generalizing ofs len t with
  | _ k ih =>
    rw [macAddSubstringI]
    by_cases h1 : len ≤ 0
    · rw [if_pos h1, macAddSubstring, if_pos h1]; rfl
    rw [if_neg h1]
    by_cases h2 : (t.used : Int) + len ≤ c.blocksize
    · rw [if_pos h2, macAddSubstring, if_neg h1, if_pos h2]
      change (M.orRaise _ (bytesBlit src ofs t.buffer t.used len) >>= _ : M (MacSt σ) Unit) t = _
      cases h : bytesBlit src ofs t.buffer t.used len <;> rfl
    rw [if_neg h2]
    have hR : ∀ ib, (do
        poll
        M.modify fun st => { st with buffer := ib }
        poll
        macBlockResetI c : M (MacSt σ) Unit) t
        = match macBlock c { t with buffer := ib } with
          | .ok () q => .ok () { q with used := 0 }
          | .exn e q => .exn e q
          | .ub => .ub
          | .loop => .loop := by
      intro ib
      change macBlockResetI c { t with buffer := ib } = _
      rw [macBlockReset_eq, M.bind_def]
      cases macBlock c { t with buffer := ib } <;> rfl
    simp only []
    split
    · next hb => rw [macPlain_none h1 h2 hb]; rfl
    · next ib hb =>
        rw [macPlain_some h1 h2 hb]
        have hr := hR ib
        cases hp : macBlock c { t with buffer := ib } with
        | ok a q =>
          rw [hp] at hr
          split
          · next q' hq =>
            rw [hr] at hq
            cases hq
            by_cases hb0 : c.blocksize = 0
            · rw [dif_pos (.inl hb0)]; refine Eq.trans ?_ (dif_pos hb0).symm; rfl
            · rw [dif_neg (by simp [hb0])]
              refine Eq.trans ?_ (dif_neg hb0).symm
              refine ih _ ?_ _ _ _ rfl
              have := bytesBlit_len_nonneg hb
              simp only [if_true, Nat.add_zero]; subst hk; split <;> omega
          · next hq => rw [hr] at hq; cases hq
          · next hq => rw [hr] at hq; cases hq
          · next hq => rw [hr] at hq; cases hq
        | exn e q =>
          rw [hp] at hr
          split
          · next q' hq => rw [hr] at hq; cases hq
          · next hq => rw [hr] at hq; cases hq; rfl
          · next hq => rw [hr] at hq; cases hq
          · next hq => rw [hr] at hq; cases hq
        | ub =>
          rw [hp] at hr
          split
          · next q' hq => rw [hr] at hq; cases hq
          · next hq => rw [hr] at hq; cases hq
          · rfl
          · next hq => rw [hr] at hq; cases hq
        | loop =>
          rw [hp] at hr
          split
          · next q' hq => rw [hr] at hq; cases hq
          · next hq => rw [hr] at hq; cases hq
          · next hq => rw [hr] at hq; cases hq
          · rfl

theorem macAddChar_eq (c : BlockCipher σ) (ch : Byte) : @macAddCharI σ (quiet σ) c ch = macAddChar c ch := by
  funext t
  unfold macAddChar
  change (if t.used < c.blocksize then _ else _ : M (MacSt σ) Unit) t = _
  by_cases h1 : t.used < c.blocksize
  · rw [if_pos h1, if_pos h1]
    cases h : bytesSet t.buffer t.used ch <;> rfl
  · rw [if_neg h1, if_neg h1, macBlock_eq]
    refine mcongr fun _ q => ?_
    refine rcongr (s := q) fun _ => ?_
    rfl

/-- The end of `macResult`. -/
theorem macLast_eq (c : BlockCipher σ) (pad : Option PadScheme) (t : MacSt σ) :
    @macLastI σ (quiet σ) c pad t = (do
      let st ← M.get
      match pad with
      | none => if st.used ≠ 0 then M.raise (.error .wrongDataLength)
      | some p =>
        let b ← ofExcept (p.pad st.buffer st.used)
        M.modify fun st => { st with buffer := b }
        macBlock c
        M.modify fun st => { st with used := 0 }
      let st ← M.get
      pure st.iv : M (MacSt σ) Bytes) t := by
  unfold macLastI
  rw [qpoll (fun _ => rfl), qget, qget]
  cases pad with
  | none =>
    simp only []
    by_cases h : t.used ≠ 0
    · rw [if_pos h, if_pos h]; rfl
    · rw [if_neg h, if_neg h]; rfl
  | some p =>
    simp only []
    refine xcongr fun b => ?_
    rw [qmodify, qmodify, qpoll (fun _ => rfl), macBlockReset_eq, massoc]
    refine mcongr fun _ q => ?_
    rfl

theorem macResult_eq (c : BlockCipher σ) (pad : Option PadScheme) :
    @macResultI σ (quiet σ) c pad = macResult c pad := by
  funext t
  unfold macResultI macResult
  rw [qpoll (fun _ => rfl), qget, qget]
  by_cases h : t.used = c.blocksize
  · simp only [if_pos h]
    rw [macBlockReset_eq, massoc]
    refine mcongr fun _ q => ?_
    rw [qmodify, qmodify]
    exact macLast_eq c pad _
  · simp only [if_neg h]
    exact macLast_eq c pad t

theorem hext {H K : HashObj σ} (h0 : H.hashSize = K.hashSize) (h1 : H.addSubstring = K.addSubstring)
    (h2 : H.addString = K.addString) (h3 : H.addChar = K.addChar) (h4 : H.addByte = K.addByte)
    (h5 : H.result = K.result) (h6 : H.wipe = K.wipe) : H = K := by
  cases H; cases K
  simp only at *
  subst h0 h1 h2 h3 h4 h5 h6
  rfl

theorem mac_eq (c : BlockCipher σ) (pad : Option PadScheme) : @macI σ (quiet σ) c pad = mac c pad := by
  refine hext rfl ?_ ?_ ?_ ?_ (macResult_eq c pad) rfl
  · funext a b d t; exact macAddSubstring_eq c a b d t
  · funext a t; exact macAddSubstring_eq c a _ _ t
  · funext a; exact macAddChar_eq c a
  · funext a; exact macAddChar_eq c _

theorem qcall {κ τ : Type} {c : BlockCipher κ} {get : τ → κ} {set : κ → τ → τ} {r : Bytes}
    {k : Bytes → M τ β} {t : τ} : (mac3CallI c get set r >>= k) t =
      match c.transform .self 0 0 (get t, r) with
      | .ok () (s, r) => k r (set s t)
      | .exn e (s, _) => .exn e (set s t)
      | .ub => .ub
      | .loop => .loop := by
  rw [M.bind_def]
  unfold mac3CallI
  cases c.transform .self 0 0 (get t, r) <;> rfl

theorem mac3Finish_eq (c2 : BlockCipher σ2) (c3 : BlockCipher σ3) (r : Bytes) :
    @mac3FinishI σ (quiet σ) σ2 σ3 c2 c3 r = mac3Finish c2 c3 r := by
  funext t
  unfold mac3FinishI mac3Finish
  rw [qpoll (fun _ => rfl), qcall]
  cases c2.transform .self 0 0 (t.c2, r) with
  | ok a p =>
    simp only []
    rw [qpoll (fun _ => rfl), qcall]
    cases c3.transform .self 0 0 (t.c3, p.2) <;> rfl
  | _ => rfl

theorem macFinalTriple_eq (c1 : BlockCipher σ) (c2 : BlockCipher σ2) (c3 : BlockCipher σ3)
    (pad : Option PadScheme) :
    @macFinalTripleI σ (quiet σ) σ2 σ3 c1 c2 c3 pad = macFinalTriple c1 c2 c3 pad := by
  unfold macFinalTripleI
  rw [mac_eq, macResult_eq]
  refine hext rfl rfl rfl rfl rfl ?_ rfl
  funext t
  refine mcongr fun r q => ?_
  exact congrFun (mac3Finish_eq c2 c3 r) q

theorem cmacLast_eq (c : BlockCipher σ) (k : Bytes) (t : MacSt σ) :
    @cmacLastI σ (quiet σ) c k t = (do
      let st ← M.get
      macXor c st.iv
      macXor c k
      macCall c
      M.modify fun st => { st with used := 0 }
      let st ← M.get
      pure st.iv : M (MacSt σ) Bytes) t := by
  unfold cmacLastI
  rw [qpoll (fun _ => rfl), qget, qget]
  refine mcongr fun _ q => ?_
  rw [qpoll (fun _ => rfl)]
  refine mcongr fun _ q => ?_
  rw [qpoll (fun _ => rfl)]
  refine mcongr fun _ q => ?_
  rfl

theorem cmacResult_eq (c : BlockCipher σ) (k1 k2 : Bytes) :
    @cmacResultI σ (quiet σ) c k1 k2 = cmacResult c k1 k2 := by
  funext t
  unfold cmacResultI cmacResult
  rw [qpoll (fun _ => rfl), qget, qget]
  by_cases h : t.used = c.blocksize
  · simp only [if_pos h]
    exact cmacLast_eq c k1 t
  · simp only [if_neg h]
    refine xcongr fun b => ?_
    exact cmacLast_eq c k2 _

theorem cmac_eq (c : BlockCipher σ) : @cmacI σ (quiet σ) c = cmac c := by
  unfold cmacI
  rw [mac_eq]
  refine hext rfl rfl rfl rfl rfl ?_ rfl
  funext t
  change CmacSt.onMac (cmacResultI c t.k1 t.k2) t = CmacSt.onMac (cmacResult c t.k1 t.k2) t
  rw [cmacResult_eq]

end Verif.Quiet
