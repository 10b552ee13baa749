import Verif.Proof.SafeBlock
import Verif.Proof.Checked
import Verif.Model.MacEntry
import Verif.Props.C67_Cipher
/-
Safety of the block ciphers proper, and of the entry points of module `Cipher` built on them.
-/
namespace Verif

open Spec

variable {σ : Type}

theorem SafeBlock.of_forall {c : BlockCipher σ} {I : σ → Prop} (hp : 0 < c.blocksize)
    (h : ∀ k, I k → SafeBlock c (· = k)) : SafeBlock c I := by
  refine ⟨hp, ?_⟩
  intro s src so dofs dst hi hs hd
  exact Post.mono ((h s hi).run rfl hs hd) (fun _ _ x => ⟨x.1 ▸ hi, x.2⟩)
    fun _ _ x => ⟨x.1, x.2.1 ▸ hi, x.2.2⟩

/-- A checked cipher is safe where its stubs are. -/
theorem checkedCipher_safe {n : Nat} (hn : 0 < n) {stub : σ → Bytes → Option Bytes}
    {stubs : σ → List (Bytes → Option Bytes)} {wipe : σ → σ} {I : σ → Prop}
    (h1 : ∀ k, I k → ∀ b : Bytes, b.length = n → ∃ o, stub k b = some o ∧ o.length = n)
    (h2 : ∀ k, I k → ∀ f ∈ stubs k, ∀ b : Bytes, b.length = n → ∃ o, f b = some o ∧ o.length = n) :
    SafeBlock (checkedCipher n stub stubs wipe) I := by
  refine SafeBlock.of_forall hn ?_
  intro k hk
  refine SafeBlock.of_pure (checkedCipher_pure hn (E := fun b => (stub k b).getD [])
    (Es := (stubs k).map fun f b => (f b).getD []) ?_ ?_ ?_ ?_)
  · intro b hb; obtain ⟨o, h, _⟩ := h1 k hk b hb; simp [h]
  · intro b hb
    rw [List.map_map]
    refine List.map_congr_left ?_
    intro f hf
    obtain ⟨o, h, _⟩ := h2 k hk f hf b hb
    simp [h]
  · intro b hb; obtain ⟨o, h, hl⟩ := h1 k hk b hb; simpa [h] using hl
  · intro E hE b hb
    obtain ⟨f, hf, rfl⟩ := List.mem_map.1 hE
    obtain ⟨o, h, hl⟩ := h2 k hk f hf b hb
    simpa [h] using hl

theorem Des.transform_some {k : List W32} (h : 32 ≤ k.length) (b : Bytes) :
    ∃ o, Des.transform k b = some o ∧ o.length = 8 := by
  unfold Des.transform
  rw [if_neg (by omega)]
  exact ⟨_, rfl, rfl⟩

theorem Des.cipher_safe : SafeBlock Des.cipher (fun k => 32 ≤ k.length) :=
  checkedCipher_safe (by decide) (fun _ hk b _ => Des.transform_some hk b) (fun _ _ _ hf => nomatch hf)

theorem Des.cipher_wipe : BWipeSafe Des.cipher (fun k => 32 ≤ k.length) := by
  intro k hk
  simpa [Des.cipher, checkedCipher] using hk

theorem Des.cipher3_safe :
    SafeBlock Des.cipher3 (fun k => 32 ≤ k.ckey1.length ∧ 32 ≤ k.ckey2.length ∧ 32 ≤ k.ckey3.length) :=
  checkedCipher_safe (by decide) (fun _ hk b _ => Des.transform_some hk.1 b) (by
    intro k hk f hf b _
    simp only [List.mem_cons, List.not_mem_nil, or_false] at hf
    rcases hf with rfl | rfl
    · exact Des.transform_some hk.2.1 b
    · exact Des.transform_some hk.2.2 b)

theorem Des.cipher3_wipe : BWipeSafe Des.cipher3
    (fun k => 32 ≤ k.ckey1.length ∧ 32 ≤ k.ckey2.length ∧ 32 ≤ k.ckey3.length) := by
  intro k hk
  simpa [Des.cipher3, checkedCipher] using hk

theorem Des.cook_length {key : Bytes} {ofs : Nat} {de1 : Bool} {k : List W32}
    (h : Des.camlCookKey key ofs de1 = some k) : 32 ≤ k.length := by
  unfold Des.camlCookKey at h
  obtain ⟨b, hb, rfl⟩ := Option.map_eq_some_iff.1 h
  have hl : b.length = 8 := by
    unfold cRead at hb
    split at hb
    · next hc => cases hb; rw [slice_length_of_le (by omega)]
    · cases hb
  have := Des.transform_eq hl de1 (b := List.replicate 8 0) rfl
  unfold Des.transform at this
  refine Classical.byContradiction fun hk => ?_
  rw [if_pos (by omega)] at this
  cases this

theorem Blowfish.enc_safe : SafeBlock Blowfish.cipherEnc (fun _ => True) :=
  checkedCipher_safe (by decide) (fun _ _ _ _ => ⟨_, rfl, rfl⟩) (fun _ _ _ hf => nomatch hf)
theorem Blowfish.dec_safe : SafeBlock Blowfish.cipherDec (fun _ => True) :=
  checkedCipher_safe (by decide) (fun _ _ _ _ => ⟨_, rfl, rfl⟩) (fun _ _ _ hf => nomatch hf)

theorem Except.eq_ok_of_map {ε α : Type} {β : Type u} {f : α → β} {e : Except ε α} {y : β}
    (h : e.map f = .ok y) : ∃ x, e = .ok x ∧ f x = y := by
  cases e with
  | error e => cases h
  | ok x => cases h; exact ⟨x, rfl, rfl⟩

namespace Cipher

/-- A block cipher object safe to use, after `wipe` too if `w`. -/
def BlockOk (w : Prop) (b : AnyBlock) : Prop :=
  ∃ I : b.σ → Prop, SafeBlock b.c I ∧ I b.s ∧ (w → BWipeSafe b.c I)

theorem desBlock_ok {dir : Dir} {key : Bytes} {b : AnyBlock} (h : desBlock dir key = some (.ok b)) :
    BlockOk True b ∧ b.c.blocksize = 8 := by
  unfold desBlock Des.new at h
  split at h
  · simp only [Option.map_map, Option.map_eq_some_iff] at h
    obtain ⟨k, hk, h⟩ := h
    simp only [Function.comp, Except.map, Except.ok.injEq] at h
    subst h
    exact ⟨⟨_, Des.cipher_safe, Des.cook_length hk, fun _ => Des.cipher_wipe⟩, rfl⟩
  · simp [Except.map] at h

theorem tripleDesBlock_ok {dir : Dir} {key : Bytes} {b : AnyBlock}
    (h : tripleDesBlock dir key = some (.ok b)) : BlockOk True b ∧ b.c.blocksize = 8 := by
  have key : ∀ (k1 k2 k3 : List W32) (r : Except Exn Des.Keys3), r = .ok ⟨k1, k2, k3⟩ →
      32 ≤ k1.length → 32 ≤ k2.length → 32 ≤ k3.length →
      some (r.map fun k => (⟨Des.cipher3, k⟩ : AnyBlock)) = some (.ok b) →
      BlockOk True b ∧ b.c.blocksize = 8 := by
    intro k1 k2 k3 r hr h1 h2 h3 h
    subst hr
    simp only [Except.map, Option.some.injEq, Except.ok.injEq] at h
    subst h
    exact ⟨⟨_, Des.cipher3_safe, ⟨h1, h2, h3⟩, fun _ => Des.cipher3_wipe⟩, rfl⟩
  unfold tripleDesBlock Des.new3Enc Des.new3Dec at h
  split at h <;> split at h
  · simp [Except.map] at h
  · split at h <;>
    · simp only [bind, Option.map_eq_some_iff, Option.bind_eq_some_iff] at h
      obtain ⟨r, ⟨k1, h1, k2, h2, k3, h3, hr⟩, h⟩ := h
      first
      | exact key _ _ _ r (Option.some.inj hr).symm (Des.cook_length h1) (Des.cook_length h2)
          (Des.cook_length h3) (congrArg some h)
      | (cases h3; exact key _ _ _ r (Option.some.inj hr).symm (Des.cook_length h1) (Des.cook_length h2)
          (Des.cook_length h1) (congrArg some h))
  · simp [Except.map] at h
  · split at h <;>
    · simp only [bind, Option.map_eq_some_iff, Option.bind_eq_some_iff] at h
      obtain ⟨r, ⟨k1, h1, k2, h2, k3, h3, hr⟩, h⟩ := h
      first
      | exact key _ _ _ r (Option.some.inj hr).symm (Des.cook_length h3) (Des.cook_length h2)
          (Des.cook_length h1) (congrArg some h)
      | (cases h3; exact key _ _ _ r (Option.some.inj hr).symm (Des.cook_length h1) (Des.cook_length h2)
          (Des.cook_length h1) (congrArg some h))

theorem blowfishBlock_ok {dir : Dir} {key : Bytes} {b : AnyBlock}
    (h : blowfishBlock dir key = some (.ok b)) : BlockOk True b ∧ b.c.blocksize = 8 := by
  unfold blowfishBlock Blowfish.new at h
  split at h <;> split at h <;> simp only [Except.map, Option.some.injEq, Except.ok.injEq, reduceCtorEq] at h
  · subst h; exact ⟨⟨_, Blowfish.enc_safe, trivial, fun _ _ _ => trivial⟩, rfl⟩
  · subst h; exact ⟨⟨_, Blowfish.dec_safe, trivial, fun _ _ _ => trivial⟩, rfl⟩

theorem aesBlock_ok {host : AesHost} {dir : Dir} {key : Bytes} {b : AnyBlock}
    (h : aesBlock host dir key = some (.ok b)) : BlockOk False b ∧ b.c.blocksize = 16 := by
  by_cases hk : key.length = 16 ∨ key.length = 24 ∨ key.length = 32
  · cases dir with
    | encrypt =>
      obtain ⟨b', h1, h2, h3⟩ := aesBlock_enc host hk
      rw [h1] at h; cases h
      exact ⟨⟨_, SafeBlock.of_pure h3, rfl, False.elim⟩, h2⟩
    | decrypt =>
      obtain ⟨b', h1, h2, h3⟩ := aesBlock_dec host hk
      rw [h1] at h; cases h
      exact ⟨⟨_, SafeBlock.of_pure h3, rfl, False.elim⟩, h2⟩
  · have hn : ¬ (key.length = 16 ∨ key.length = 24 ∨ key.length = 32) := hk
    cases host <;> cases dir <;>
      simp [aesBlock, Aes.encNew, Aes.decNew, Aesni.encNew, Aesni.decNew, hn, Except.map] at h

theorem BlockOk.weaken {w w' : Prop} {b : AnyBlock} (h : BlockOk w b) (hw : w' → w) : BlockOk w' b := by
  obtain ⟨I, h1, h2, h3⟩ := h
  exact ⟨I, h1, h2, fun x => h3 (hw x)⟩

theorem chained_ok {env : Env} {mode : Mode} {iv : Option Bytes} {dir : Dir} {b m : AnyBlock} {w : Prop}
    (hb : BlockOk w b) (h : chained env mode iv dir b = .ok m) : BlockOk w m := by
  obtain ⟨I, h1, h2, h3⟩ := hb
  unfold chained at h
  split at h
  · cases h; exact ⟨I, h1, h2, h3⟩
  · obtain ⟨st, hs, rfl⟩ := Except.eq_ok_of_map h
    exact ⟨_, cbcEncrypt_safe h1, modeInit_safe h2 hs, fun x => cbcEncrypt_wipe (h3 x) _⟩
  · obtain ⟨st, hs, rfl⟩ := Except.eq_ok_of_map h
    exact ⟨_, cbcDecrypt_safe h1, modeInit_safe h2 hs, fun x => cbcDecrypt_wipe (h3 x) _⟩
  · obtain ⟨st, hs, rfl⟩ := Except.eq_ok_of_map h
    obtain ⟨i1, i2, i3⟩ := modeInitChunk_safe h2 hs
    exact ⟨_, cfbEncrypt_safe h1 i2 i3, i1, fun x => cfbEncrypt_wipe (h3 x) _ _⟩
  · obtain ⟨st, hs, rfl⟩ := Except.eq_ok_of_map h
    obtain ⟨i1, i2, i3⟩ := modeInitChunk_safe h2 hs
    exact ⟨_, cfbDecrypt_safe h1 i2 i3, i1, fun x => cfbDecrypt_wipe (h3 x) _ _⟩
  · obtain ⟨st, hs, rfl⟩ := Except.eq_ok_of_map h
    obtain ⟨i1, i2, i3⟩ := modeInitChunk_safe h2 hs
    exact ⟨_, ofb_safe h1 i2 i3, i1, fun x => ofb_wipe (h3 x) _ _⟩
  · obtain ⟨st, hs, rfl⟩ := Except.eq_ok_of_map h
    exact ⟨_, ctr_safe h1 _, ctrInit_safe h2 hs, fun x => ctr_wipe (h3 x) _ _⟩
  · obtain ⟨st, hs, rfl⟩ := Except.eq_ok_of_map h
    exact ⟨_, ctr_safe h1 _, ctrInit_safe h2 hs, fun x => ctr_wipe (h3 x) _ _⟩

/-- An object of class `transform` safe to use, after `wipe` too if `w`. -/
def TransformOk (w : Prop) (A : AnyTransform) : Prop :=
  ∃ I : A.τ → Prop, TSafe A.T I ∧ TFinSafe A.T I ∧ I A.t ∧ (w → TWipeSafe A.T I) ∧
    (∀ t, I t → ∀ b ofs len, ¬ InRange b ofs len →
      (∃ e t', A.T.putSubstring b ofs len t = .exn e t' ∧ RangeExn e)
        ∨ (len ≤ 0 ∧ A.T.putSubstring b ofs len t = .ok () t))

theorem cipherPut_range {c : BlockCipher σ} {I : σ → Prop} (h : SafeBlock c I) (env : Env)
    (t : CipherSt σ) (ht : CipherSafe c I t) (b : Bytes) (ofs len : Int) (hr : ¬ InRange b ofs len) :
    (∃ e t', cipherPutSubstring env c b ofs len t = .exn e t' ∧ RangeExn e)
        ∨ (len ≤ 0 ∧ cipherPutSubstring env c b ofs len t = .ok () t) := by
  have := cipherPutSubstring_safe h env b ofs len t ht
  cases hc : cipherPutSubstring env c b ofs len t with
  | ok a t' =>
    rw [hc] at this
    rcases this.2 with h | ⟨h1, rfl⟩
    · exact absurd h hr
    · exact .inr ⟨h1, rfl⟩
  | exn e t' =>
    rw [hc] at this
    refine .inl ⟨e, t', rfl, ?_⟩
    rcases this.2 with h | h | h
    · exact .inl h
    · exact .inr (.inl h)
    · exact .inr (.inr (.inl h))
  | ub => rw [hc] at this; exact this.elim
  | loop => rw [hc] at this; exact this.elim

theorem make_ok {env : Env} {mode : Option Mode} {pad : Option PadScheme} {iv : Option Bytes} {dir : Dir}
    {ob : Option (Except Exn AnyBlock)} {A : AnyTransform} {w : Prop}
    (hp : ∀ p, pad = some p → PadKeeps p) (hb : ∀ b, ob = some (.ok b) → BlockOk w b)
    (h : make env mode pad iv dir ob = some (.ok A)) : TransformOk w A := by
  unfold make at h
  cases ob with
  | none => cases h
  | some r =>
    cases r with
    | error e => cases h
    | ok b =>
      simp only [Option.map_some, Except.bind, Option.some.injEq, makeBlockCipher] at h
      cases hm : chained env (mode.getD .CBC) iv dir b with
      | error e => rw [hm] at h; cases h
      | ok m =>
        rw [hm] at h
        simp only [Except.map, Except.ok.injEq] at h
        subst h
        obtain ⟨I, h1, h2, h3⟩ := chained_ok (hb b rfl) hm
        cases pad with
        | none =>
          exact ⟨_, blockTransform_safe h1 env, blockTransform_fin h1 env, cipherInit_safe h1 h2 env,
            fun x t ht => cipherWipe_safe (h3 x) t ht, fun t ht => cipherPut_range h1 env t ht⟩
        | some p =>
          have hs := blockTransform_safe h1 env
          cases dir with
          | encrypt =>
            exact ⟨_, ⟨hs.putSubstring, hs.putString, hs.putChar, hs.putByte, hs.availableOutput,
              hs.getString, hs.getSubstring, hs.getChar, hs.getByte⟩,
              paddedEncrypt_fin h1 env (hp p rfl), cipherInit_safe h1 h2 env,
              fun x t ht => cipherWipe_safe (h3 x) t ht, fun t ht => cipherPut_range h1 env t ht⟩
          | decrypt =>
            exact ⟨_, ⟨hs.putSubstring, hs.putString, hs.putChar, hs.putByte, hs.availableOutput,
              hs.getString, hs.getSubstring, hs.getChar, hs.getByte⟩,
              paddedDecrypt_fin h1 env p, cipherInit_safe h1 h2 env,
              fun x t ht => cipherWipe_safe (h3 x) t ht, fun t ht => cipherPut_range h1 env t ht⟩

theorem TransformOk.any {A : AnyTransform} (h : TransformOk True A) :
    MemorySafe (invoke A.T) anyCall A.t ∧ RangeChecked (invoke A.T) anyCall A.t A.T.putSubstring := by
  obtain ⟨I, h1, h2, h3, h4, h5⟩ := h
  have hp := h1.any h2 (h4 trivial)
  exact ⟨hp.safe h3, fun t hr => h5 t (hp.reachable h3 hr)⟩

theorem TransformOk.notWipe {A : AnyTransform} (h : TransformOk False A) :
    MemorySafe (invoke A.T) notWipe A.t ∧ RangeChecked (invoke A.T) notWipe A.t A.T.putSubstring := by
  obtain ⟨I, h1, h2, h3, h4, h5⟩ := h
  have hp := h1.notWipe h2
  exact ⟨hp.safe h3, fun t hr => h5 t (hp.reachable h3 hr)⟩

end Cipher
end Verif
