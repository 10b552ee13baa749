import Verif.Proof.Uninit
import Verif.Props.ExampleUninit
import Verif.Props.C14_Entries
/-
C97 Results do not depend on uninitialised memory.

The same calls on two machines that differ in the contents of fresh memory (and, for AES, in the presence of the
AES-NI instructions) give the same results, whatever the calls: any arguments, exceptions caught, `finish` or `flush`
at any time.
-/
namespace Verif

open Spec Cipher

variable {env env' : Env}

/-! ### Block ciphers -/

/-- The block cipher object, seen through some relation, computes `g` from the state `v`. -/
def Shows (b : AnyBlock) {υ : Type} (g : υ → Bytes → BRes υ) (n : Nat) (v : υ) : Prop :=
  ∃ (inv : b.σ → Prop) (f : b.σ → Bytes → BRes b.σ) (V : b.σ → υ → Prop),
    Implements b.c inv f ∧ b.c.blocksize = n ∧ inv b.s ∧ V b.s v
    ∧ ∀ {s v x}, inv s → V s v → x.length = n →
        (f s x).out = (g v x).out ∧ (f s x).exn = (g v x).exn ∧ V (f s x).st (g v x).st

/-- Two block cipher objects with the same effect on blocks. -/
def SameBlock (b b' : AnyBlock) : Prop :=
  ∃ (υ : Type) (g : υ → Bytes → BRes υ) (n : Nat) (v : υ), 0 < n ∧ Shows b g n v ∧ Shows b' g n v

/-- Transforms built from block cipher objects with the same effect on blocks. -/
theorem transform_same {b b' : AnyBlock} (hb : SameBlock b b') (he : SameMachine env env')
    (hm : max 256 (2 * b.c.blocksize) ≤ env.maxLen) {pad : Option PadScheme} (dir : Dir)
    (hp : ∀ P, pad = some P → P = Padding._8000 ∨ P = Padding.length ∧ b.c.blocksize < 256) :
    SameTransform
      (match pad with
        | none => ⟨blockTransform env b.c, cipherInit env b.c b.s⟩
        | some p =>
          match dir with
          | .encrypt => ⟨paddedEncrypt env p b.c, cipherInit env b.c b.s⟩
          | .decrypt => ⟨paddedDecrypt env p b.c, cipherInit env b.c b.s⟩)
      (match pad with
        | none => ⟨blockTransform env' b'.c, cipherInit env' b'.c b'.s⟩
        | some p =>
          match dir with
          | .encrypt => ⟨paddedEncrypt env' p b'.c, cipherInit env' b'.c b'.s⟩
          | .decrypt => ⟨paddedDecrypt env' p b'.c, cipherInit env' b'.c b'.s⟩) := by
  obtain ⟨υ, g, n, v, hpos, ⟨inv, f, V, hi, hn, hs, hv, hg⟩, ⟨inv', f', V', hi', hn', hs', hv', hg'⟩⟩ := hb
  rw [hn] at hm hp
  let I : BlockImpl g n env.maxLen := ⟨env, b.c, inv, f, V, hi, hn, rfl, fun a b c => (hg a b c).1,
    fun a b c => (hg a b c).2.1, fun a b c => (hg a b c).2.2⟩
  let J : BlockImpl g n env.maxLen := ⟨env', b'.c, inv', f', V', hi', hn', he.symm, fun a b c => (hg' a b c).1,
    fun a b c => (hg' a b c).2.1, fun a b c => (hg' a b c).2.2⟩
  have rI : I.Rep (cipherInit env b.c b.s) (v, [], []) := BlockImpl.rep_init I hs hv hm
  have rJ : J.Rep (cipherInit env' b'.c b'.s) (v, [], []) := BlockImpl.rep_init J hs' hv' hm
  intro cs
  cases pad with
  | none => exact trace_agree (block_follows hpos I J) rI rJ cs
  | some P =>
    have : ∃ pad, P.Computes n pad := by
      rcases hp P rfl with rfl | ⟨rfl, h⟩
      · exact ⟨_, _8000_computes⟩
      · exact ⟨_, length_computes hpos h⟩
    obtain ⟨padf, hc⟩ := this
    cases dir with
    | encrypt => exact trace_agree (padded_agree hpos I J (padEncFinish_agree hpos hc I J)) rI rJ cs
    | decrypt => exact trace_agree (padded_agree hpos I J (padDecFinish_agree hc I J)) rI rJ cs

/-- Modes: the states of the mode, without the scratch block and the underlying cipher. -/
def modeView {σ : Type} (s : ModeSt σ) (v : ModeSt Unit) : Prop := s.iv = v.iv

theorem mode_shows {b : AnyBlock} {E : Bytes → Bytes} {c : BlockCipher (ModeSt b.σ)} {m : Nat}
    {f : ∀ {σ : Type}, ModeSt σ → Bytes → BRes (ModeSt σ)} (hi : Implements c (ModeInv b.s b.c.blocksize) f)
    (hf : ∀ {s : ModeSt b.σ} {v : ModeSt Unit} {x : Bytes}, modeView s v →
      (f s x).out = (f v x).out ∧ (f s x).exn = (f v x).exn ∧ modeView (f s x).st (f v x).st)
    (hm : c.blocksize = m) {iv : Option Bytes} (hiv : IVOk b.c.blocksize iv) :
    Shows ⟨c, ⟨b.s, ivOf b.c.blocksize iv, env.create b.c.blocksize⟩⟩ (f (σ := Unit)) m
      ⟨(), ivOf b.c.blocksize iv, []⟩ :=
  ⟨_, _, modeView, hi, hm, modeInv_init env _ b.s hiv, rfl, fun _ hv _ => hf hv⟩

theorem modeInit_bad (env : Env) {σ : Type} (c : BlockCipher σ) (k : σ) {iv : Option Bytes} (hiv : ¬ IVOk c.blocksize iv) :
    modeInit env c k iv = .error (.error .wrongIVSize) := by
  cases iv with
  | none => exact absurd (fun v h => by cases h) hiv
  | some v =>
    have : v.length ≠ c.blocksize := fun h => hiv (fun w hw => by cases hw; exact h)
    simp [modeInit, makeInitialIV, this]

theorem sameBlock_of {b b' : AnyBlock} {υ : Type} {g : υ → Bytes → BRes υ} {n : Nat} {v : υ} (hn : 0 < n)
    (h : Shows b g n v) (h' : Shows b' g n v) : SameBlock b b' := ⟨υ, g, n, v, hn, h, h'⟩

section
variable {b b' : AnyBlock} {E : Bytes → Bytes}

theorem pure_shows (hb : PureCipher b.c b.s E) :
    Shows b (υ := Unit) (fun _ x => ⟨E x, (), none⟩) b.c.blocksize () :=
  ⟨_, _, fun _ _ => True, hb, rfl, rfl, trivial, fun _ _ _ => ⟨rfl, rfl, trivial⟩⟩

/-- CTR: the states, without the scratch block and the underlying cipher. -/
def ctrView {σ : Type} (s : CtrSt σ) (v : CtrSt Unit) : Prop := s.m.iv = v.m.iv ∧ s.maxTransf = v.maxTransf

theorem ctrF_view {σ : Type} {nincr : Nat} {s : CtrSt σ} {v : CtrSt Unit} {x : Bytes} (h : ctrView s v) :
    (ctrF E nincr s x).out = (ctrF E nincr v x).out ∧ (ctrF E nincr s x).exn = (ctrF E nincr v x).exn
    ∧ ctrView (ctrF E nincr s x).st (ctrF E nincr v x).st := by
  obtain ⟨h1, h2⟩ := h
  unfold ctrF ctrView
  rw [h1, h2]
  split <;> exact ⟨rfl, rfl, rfl, rfl⟩

theorem ctrNincr_le {n : Nat} {inc : Option Int} {k : Nat} (h : ctrNincr n inc = .ok k) : k ≤ n := by
  cases inc with
  | none => cases h; exact Nat.le_refl _
  | some i =>
    simp only [ctrNincr] at h
    split at h
    · cases h; omega
    · cases h

theorem ctr_same (hb : PureCipher b.c b.s E) (hb' : PureCipher b'.c b'.s E)
    (hn : b'.c.blocksize = b.c.blocksize) (iv : Option Bytes) (inc : Option Int) :
    SameResult (fun m m' => SameBlock m m' ∧ m.c.blocksize ≤ b.c.blocksize)
      (some ((ctrInit env b.c b.s iv inc).map fun p => ⟨ctr p.1 b.c, p.2⟩))
      (some ((ctrInit env' b'.c b'.s iv inc).map fun p => ⟨ctr p.1 b'.c, p.2⟩)) := by
  simp only [ctrInit, hn]
  cases hi : ctrNincr b.c.blocksize inc with
  | error e => simp only [Except.map, SameResult]
  | ok k =>
    have hk := ctrNincr_le hi
    by_cases hiv : IVOk b.c.blocksize iv
    · have hiv' : IVOk b'.c.blocksize iv := by rw [hn]; exact hiv
      simp only [modeInit_ok env b.c b.s hiv, modeInit_ok env' b'.c b'.s hiv', Except.map]
      refine ⟨sameBlock_of (g := ctrF E k) (n := b.c.blocksize)
        (v := ⟨⟨(), ivOf b.c.blocksize iv, []⟩, ctrMaxTransf k⟩) hb.pos
        ⟨_, _, ctrView, ctr_implements hb hk, rfl, modeInv_init env _ b.s hiv, ⟨rfl, rfl⟩, fun _ h _ => ctrF_view h⟩
        ⟨_, _, ctrView, ctr_implements hb' (by rw [hn]; exact hk), hn, modeInv_init env' _ b'.s hiv',
          ⟨by simp only [hn], rfl⟩, fun _ h _ => ctrF_view h⟩, Nat.le_refl _⟩
    · have hiv' : ¬ IVOk b'.c.blocksize iv := by rw [hn]; exact hiv
      simp only [modeInit_bad env b.c b.s hiv, modeInit_bad env' b'.c b'.s hiv', Except.map, SameResult]

/-- The chained cipher has the same effect on both machines. -/
theorem chained_same (hb : PureCipher b.c b.s E) (hb' : PureCipher b'.c b'.s E)
    (hn : b'.c.blocksize = b.c.blocksize) (mode : Mode) (iv : Option Bytes) (dir : Dir) :
    SameResult (fun m m' => SameBlock m m' ∧ m.c.blocksize ≤ b.c.blocksize)
      (some (chained env mode iv dir b)) (some (chained env' mode iv dir b')) := by
  have hpos := hb.pos
  have hview : ∀ {σ : Type} {s : ModeSt σ} {v : ModeSt Unit}, modeView s v → s.iv = v.iv := fun h => h
  cases mode with
  | ECB =>
    refine ⟨sameBlock_of hpos (pure_shows hb) ?_, Nat.le_refl _⟩
    have := pure_shows hb'
    rw [hn] at this
    exact this
  | CBC =>
    by_cases hiv : IVOk b.c.blocksize iv
    · have hiv' : IVOk b'.c.blocksize iv := by rw [hn]; exact hiv
      cases dir <;>
        simp only [chained, modeInit_ok env b.c b.s hiv, modeInit_ok env' b'.c b'.s hiv', Except.map]
      · refine ⟨sameBlock_of hpos (mode_shows (E := E) (f := cbcEncF E) (cbcEncrypt_implements hb)
          (fun hv => by simp only [cbcEncF, modeView, hview hv, and_self]) rfl hiv) ?_, Nat.le_refl _⟩
        have := mode_shows (env := env') (E := E) (f := cbcEncF E) (cbcEncrypt_implements hb')
          (fun hv => by simp only [cbcEncF, modeView, hview hv, and_self]) hn hiv'
        rw [hn] at this
        rw [hn]
        exact this
      · refine ⟨sameBlock_of hpos (mode_shows (E := E) (f := cbcDecF E) (cbcDecrypt_implements hb)
          (fun hv => by simp only [cbcDecF, modeView, hview hv, and_self]) rfl hiv) ?_, Nat.le_refl _⟩
        have := mode_shows (env := env') (E := E) (f := cbcDecF E) (cbcDecrypt_implements hb')
          (fun hv => by simp only [cbcDecF, modeView, hview hv, and_self]) hn hiv'
        rw [hn] at this
        rw [hn]
        exact this
    · have hiv' : ¬ IVOk b'.c.blocksize iv := by rw [hn]; exact hiv
      cases dir <;>
        simp only [chained, modeInit_bad env b.c b.s hiv, modeInit_bad env' b'.c b'.s hiv', Except.map, SameResult]
  | CFB k =>
    by_cases hk : k > 0 ∧ k ≤ b.c.blocksize
    · have hk' : k > 0 ∧ k ≤ b'.c.blocksize := by rw [hn]; exact hk
      by_cases hiv : IVOk b.c.blocksize iv
      · have hiv' : IVOk b'.c.blocksize iv := by rw [hn]; exact hiv
        obtain ⟨k, rfl⟩ := Int.eq_ofNat_of_zero_le (Int.le_of_lt hk.1)
        have h0 : 0 < k := by omega
        have h1 : k ≤ b.c.blocksize := by omega
        have h1' : k ≤ b'.c.blocksize := by omega
        cases dir <;>
          simp only [chained, modeInitChunk, if_pos hk, if_pos hk', modeInit_ok env b.c b.s hiv,
            modeInit_ok env' b'.c b'.s hiv', Except.map, Int.toNat_natCast]
        · refine ⟨sameBlock_of h0 (mode_shows (E := E) (f := cfbEncF E k) (cfbEncrypt_implements hb h0 h1)
            (fun hv => by simp only [cfbEncF, modeView, hview hv, and_self]) rfl hiv) ?_, h1⟩
          have := mode_shows (env := env') (E := E) (f := cfbEncF E k) (cfbEncrypt_implements hb' h0 h1')
            (fun hv => by simp only [cfbEncF, modeView, hview hv, and_self]) rfl hiv'
          rw [hn] at this
          rw [hn]
          exact this
        · refine ⟨sameBlock_of h0 (mode_shows (E := E) (f := cfbDecF E k) (cfbDecrypt_implements hb h0 h1)
            (fun hv => by simp only [cfbDecF, modeView, hview hv, and_self]) rfl hiv) ?_, h1⟩
          have := mode_shows (env := env') (E := E) (f := cfbDecF E k) (cfbDecrypt_implements hb' h0 h1')
            (fun hv => by simp only [cfbDecF, modeView, hview hv, and_self]) rfl hiv'
          rw [hn] at this
          rw [hn]
          exact this
      · have hiv' : ¬ IVOk b'.c.blocksize iv := by rw [hn]; exact hiv
        cases dir <;>
          simp only [chained, modeInitChunk, if_pos hk, if_pos hk', modeInit_bad env b.c b.s hiv,
            modeInit_bad env' b'.c b'.s hiv', Except.map, SameResult]
    · have hk' : ¬ (k > 0 ∧ k ≤ b'.c.blocksize) := by rw [hn]; exact hk
      cases dir <;> simp only [chained, modeInitChunk, if_neg hk, if_neg hk', Except.map, SameResult]
  | OFB k =>
    by_cases hk : k > 0 ∧ k ≤ b.c.blocksize
    · have hk' : k > 0 ∧ k ≤ b'.c.blocksize := by rw [hn]; exact hk
      by_cases hiv : IVOk b.c.blocksize iv
      · have hiv' : IVOk b'.c.blocksize iv := by rw [hn]; exact hiv
        obtain ⟨k, rfl⟩ := Int.eq_ofNat_of_zero_le (Int.le_of_lt hk.1)
        have h0 : 0 < k := by omega
        have h1 : k ≤ b.c.blocksize := by omega
        have h1' : k ≤ b'.c.blocksize := by omega
        simp only [chained, modeInitChunk, if_pos hk, if_pos hk', modeInit_ok env b.c b.s hiv,
            modeInit_ok env' b'.c b'.s hiv', Except.map, Int.toNat_natCast]
        refine ⟨sameBlock_of h0 (mode_shows (E := E) (f := ofbF E k) (ofb_implements hb h0 h1)
            (fun hv => by simp only [ofbF, modeView, hview hv, and_self]) rfl hiv) ?_, h1⟩
        have := mode_shows (env := env') (E := E) (f := ofbF E k) (ofb_implements hb' h0 h1')
            (fun hv => by simp only [ofbF, modeView, hview hv, and_self]) rfl hiv'
        rw [hn] at this
        rw [hn]
        exact this
      · have hiv' : ¬ IVOk b'.c.blocksize iv := by rw [hn]; exact hiv
        simp only [chained, modeInitChunk, if_pos hk, if_pos hk', modeInit_bad env b.c b.s hiv,
            modeInit_bad env' b'.c b'.s hiv', Except.map, SameResult]
    · have hk' : ¬ (k > 0 ∧ k ≤ b'.c.blocksize) := by rw [hn]; exact hk
      simp only [chained, modeInitChunk, if_neg hk, if_neg hk', Except.map, SameResult]
  | CTR => exact ctr_same hb hb' hn iv none
  | CTR_N k => exact ctr_same hb hb' hn iv (some k)

/-- The paddings of the library. -/
def Spec.PadLib (pad : Option PadScheme) : Prop :=
  pad = none ∨ pad = some Padding.length ∨ pad = some Padding._8000

theorem make_same (he : SameMachine env env') {mode : Option Mode} {pad : Option PadScheme} {iv : Option Bytes}
    {dir : Dir} {n : Nat} {keyOk : Prop} {mk mk' : Option (Except Exn AnyBlock)}
    (hm : 256 ≤ env.maxLen) (hn : n ≤ 16) (hp : PadLib pad)
    (h1 : keyOk → ∃ b, mk = some (.ok b) ∧ b.c.blocksize = n ∧ PureCipher b.c b.s E)
    (h1' : keyOk → ∃ b, mk' = some (.ok b) ∧ b.c.blocksize = n ∧ PureCipher b.c b.s E)
    (h2 : ¬ keyOk → mk = some (.error (.error .wrongKeySize)))
    (h2' : ¬ keyOk → mk' = some (.error (.error .wrongKeySize))) :
    SameResult SameTransform (make env mode pad iv dir mk) (make env' mode pad iv dir mk') := by
  by_cases hk : keyOk
  swap
  · rw [h2 hk, h2' hk]; rfl
  obtain ⟨b, rfl, hb, hc⟩ := h1 hk
  obtain ⟨b', rfl, hb', hc'⟩ := h1' hk
  have h := chained_same (env := env) (env' := env') hc hc' (by rw [hb, hb']) (mode.getD .CBC) iv dir
  simp only [make, Option.map_some, Except.bind, makeBlockCipher]
  cases e1 : chained env (mode.getD .CBC) iv dir b with
  | error e =>
    cases e2 : chained env' (mode.getD .CBC) iv dir b' with
    | error e' => rw [e1, e2] at h; simpa only [Except.map, SameResult] using h
    | ok m' => rw [e1, e2] at h; exact h.elim
  | ok m =>
    cases e2 : chained env' (mode.getD .CBC) iv dir b' with
    | error e' => rw [e1, e2] at h; exact h.elim
    | ok m' =>
      rw [e1, e2] at h
      obtain ⟨h3, h4⟩ := h
      simp only [Except.map, SameResult]
      have hP : ∀ P, pad = some P → P = Padding._8000 ∨ (P = Padding.length ∧ m.c.blocksize < 256) := by
        intro P hP
        rcases hp with h | h | h <;> rw [h] at hP <;> cases hP
        · exact .inr ⟨rfl, by omega⟩
        · exact .inl rfl
      have hx := transform_same h3 he (by omega) dir hP
      cases pad with
      | none => exact hx
      | some P => cases dir <;> exact hx

end

variable {mode : Option Mode} {pad : Option PadScheme} {iv : Option Bytes} {key : Bytes}

/-- C97, `Cipher.aes`, whether or not the hosts have AES-NI instructions. -/
theorem C97_aes (host host' : AesHost) (he : SameMachine env env') (hm : 256 ≤ env.maxLen) (hp : PadLib pad)
    (dir : Dir) :
    SameResult SameTransform (Cipher.aes env host mode pad iv key dir) (Cipher.aes env' host' mode pad iv key dir) := by
  unfold Cipher.aes
  cases normalizeDir mode dir with
  | encrypt =>
    exact make_same (n := 16) he hm (by decide) hp (aesBlock_enc host) (aesBlock_enc host') (aesBlock_key host .encrypt)
      (aesBlock_key host' .encrypt)
  | decrypt =>
    exact make_same (n := 16) he hm (by decide) hp (aesBlock_dec host) (aesBlock_dec host') (aesBlock_key host .decrypt)
      (aesBlock_key host' .decrypt)

/-- C97, `Cipher.des`. -/
theorem C97_des (he : SameMachine env env') (hm : 256 ≤ env.maxLen) (hp : PadLib pad) (dir : Dir) :
    SameResult SameTransform (Cipher.des env mode pad iv key dir) (Cipher.des env' mode pad iv key dir) := by
  unfold Cipher.des
  cases normalizeDir mode dir with
  | encrypt =>
    have h1 : key.length = 8 → ∃ b, desBlock .encrypt key = some (.ok b) ∧ b.c.blocksize = 8
        ∧ PureCipher b.c b.s (Spec.Des.encrypt key) := fun hk => by
      obtain ⟨ke, kd, h1, h2, h3, h4, h5⟩ := C43_des hk
      exact ⟨⟨Des.cipher, ke⟩, by simp [desBlock, h1, Except.map], rfl, h4⟩
    exact make_same (n := 8) he hm (by decide) hp h1 h1 (desBlock_key _) (desBlock_key _)
  | decrypt =>
    have h1 : key.length = 8 → ∃ b, desBlock .decrypt key = some (.ok b) ∧ b.c.blocksize = 8
        ∧ PureCipher b.c b.s (Spec.Des.decrypt key) := fun hk => by
      obtain ⟨ke, kd, h1, h2, h3, h4, h5⟩ := C43_des hk
      exact ⟨⟨Des.cipher, kd⟩, by simp [desBlock, h2, Except.map], rfl, h5⟩
    exact make_same (n := 8) he hm (by decide) hp h1 h1 (desBlock_key _) (desBlock_key _)

/-- C97, `Cipher.triple_des`. -/
theorem C97_triple_des (he : SameMachine env env') (hm : 256 ≤ env.maxLen) (hp : PadLib pad) (dir : Dir) :
    SameResult SameTransform (Cipher.tripleDes env mode pad iv key dir)
      (Cipher.tripleDes env' mode pad iv key dir) := by
  unfold Cipher.tripleDes
  have h2 : ∀ dir, ¬ (key.length = 16 ∨ key.length = 24) →
      tripleDesBlock dir key = some (.error (.error .wrongKeySize)) := by
    intro dir hk
    obtain ⟨_, h1, h2⟩ := C14_des_key_size key true
    cases dir <;> simp [tripleDesBlock, h1.2 hk, h2.2 hk, Except.map]
  cases normalizeDir mode dir with
  | encrypt =>
    have h1 : key.length = 16 ∨ key.length = 24 → ∃ b, tripleDesBlock .encrypt key = some (.ok b)
        ∧ b.c.blocksize = 8 ∧ PureCipher b.c b.s (Spec.Des.encrypt3 key) := fun hk => by
      obtain ⟨ke, kd, h1, h2, h3, h4, h5⟩ := C43_triple_des hk
      exact ⟨⟨Des.cipher3, ke⟩, by simp [tripleDesBlock, h1, Except.map], rfl, h4⟩
    exact make_same (n := 8) he hm (by decide) hp h1 h1 (h2 _) (h2 _)
  | decrypt =>
    have h1 : key.length = 16 ∨ key.length = 24 → ∃ b, tripleDesBlock .decrypt key = some (.ok b)
        ∧ b.c.blocksize = 8 ∧ PureCipher b.c b.s (Spec.Des.decrypt3 key) := fun hk => by
      obtain ⟨ke, kd, h1, h2, h3, h4, h5⟩ := C43_triple_des hk
      exact ⟨⟨Des.cipher3, kd⟩, by simp [tripleDesBlock, h2, Except.map], rfl, h5⟩
    exact make_same (n := 8) he hm (by decide) hp h1 h1 (h2 _) (h2 _)

/-- C97, `Cipher.blowfish`. -/
theorem C97_blowfish (he : SameMachine env env') (hm : 256 ≤ env.maxLen) (hp : PadLib pad) (dir : Dir) :
    SameResult SameTransform (Cipher.blowfish env mode pad iv key dir)
      (Cipher.blowfish env' mode pad iv key dir) := by
  unfold Cipher.blowfish
  have h2 : ∀ dir, ¬ (4 ≤ key.length ∧ key.length ≤ 56) →
      blowfishBlock dir key = some (.error (.error .wrongKeySize)) := by
    intro dir hk
    cases dir <;> simp [blowfishBlock, Blowfish.new, hk, Except.map]
  cases normalizeDir mode dir with
  | encrypt =>
    have h1 : 4 ≤ key.length ∧ key.length ≤ 56 → ∃ b, blowfishBlock .encrypt key = some (.ok b)
        ∧ b.c.blocksize = 8 ∧ PureCipher b.c b.s (Spec.Blowfish.encrypt key) := fun hk => by
      obtain ⟨k, h1, h2, h3, h4, h5⟩ := C44_blowfish hk
      exact ⟨⟨Blowfish.cipherEnc, k⟩, by simp [blowfishBlock, h1, Except.map], h2, h4⟩
    exact make_same (n := 8) he hm (by decide) hp h1 h1 (h2 _) (h2 _)
  | decrypt =>
    have h1 : 4 ≤ key.length ∧ key.length ≤ 56 → ∃ b, blowfishBlock .decrypt key = some (.ok b)
        ∧ b.c.blocksize = 8 ∧ PureCipher b.c b.s (Spec.Blowfish.decrypt key) := fun hk => by
      obtain ⟨k, h1, h2, h3, h4, h5⟩ := C44_blowfish hk
      exact ⟨⟨Blowfish.cipherDec, k⟩, by simp [blowfishBlock, h1, Except.map], h3, h5⟩
    exact make_same (n := 8) he hm (by decide) hp h1 h1 (h2 _) (h2 _)

open Example in
/-- The ciphers of both machines are made, and their output buffers differ. -/
example (host host' : AesHost) :
    ∃ A B, Cipher.aes env64 host (some (.CFB 1)) none none aesKey .encrypt = some (.ok A)
      ∧ Cipher.aes envA5 host' (some (.CFB 1)) none none aesKey .encrypt = some (.ok B)
      ∧ SameTransform A B ∧ OBuf.init env64 256 ≠ OBuf.init envA5 256 := by
  obtain ⟨A, B, h1, h2, _⟩ := C67_aes (env := env64) (env' := env64)
    (maxLen := 1000) (mode := some (.CFB 1)) (pad := none) (padf := id) (iv := none) host host'
    (key := aesKey) (.inl rfl) (by decide) (by decide) (by simp [ModeOk]) (.inr (by simp [IVOk])) .none
  obtain ⟨A', B', h1', h2', _⟩ := C67_aes (env := envA5) (env' := envA5)
    (maxLen := 1000) (mode := some (.CFB 1)) (pad := none) (padf := id) (iv := none) host' host
    (key := aesKey) (.inl rfl) (by decide) (by decide) (by simp [ModeOk]) (.inr (by simp [IVOk])) .none
  have h := C97_aes (mode := some (.CFB 1)) (pad := none) (iv := none) (key := aesKey) host host' same_A5 (by decide)
    (.inl rfl) .encrypt
  rw [h1, h1'] at h
  exact ⟨A, A', h1, h1', h, init_A5⟩

open Example in
example (mode : Option Mode) (iv : Option Bytes) (dir : Dir) :=
  And.intro (C97_des (mode := mode) (iv := iv) (key := desKey) same_A5 (by decide) (.inr (.inl rfl)) dir)
    (And.intro (C97_triple_des (mode := mode) (iv := iv) (key := desKey3) same_A5 (by decide) (.inr (.inr rfl)) dir)
      (C97_blowfish (mode := mode) (iv := iv) (key := desKey) same_A5 (by decide) (.inl rfl) dir))

end Verif
