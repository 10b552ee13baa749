import Verif.Proof.Tower
import Verif.Props.C67_Cipher
/-
C105: chaining modes can be put on top of each other, in any number and order. The object computes
the composition of the modes, raises `Message_too_long` exactly when one of the counter modes has used
up its counter, and the tower built for decryption gives back what the tower built for encryption has
encrypted.

See Spec/Tower for `Layers`, `Layers.build`, `Layers.machine` and `towerText`.
-/
namespace Verif

open Spec Cipher

/-- The objects `base .encrypt` and `base .decrypt` are a block cipher with blocks of `n` bytes that
computes `E`, and its inverse that computes `D`. -/
structure Spec.BlockPair (base : Dir → AnyBlock) (n : Nat) (E D : Bytes → Bytes) : Prop where
  enc : PureCipher (base .encrypt).c (base .encrypt).s E
  dec : PureCipher (base .decrypt).c (base .decrypt).s D
  encSize : (base .encrypt).c.blocksize = n
  decSize : (base .decrypt).c.blocksize = n
  inv : ∀ b : Bytes, b.length = n → D (E b) = b

variable {env env' : Env} {base base' : Dir → AnyBlock} {n : Nat} {E D : Bytes → Bytes} {ls : Layers}

/-- C105: the object built by a tower of modes, on every history of calls. -/
theorem C105_tower (hb : BlockPair base n E D) (hok : Layers.Ok n ls) (dir : Dir) :
    ∃ b, Layers.build env base ls dir = .ok b ∧ b.c.blocksize = Layers.unit n ls ∧
      ∀ ops : List TOp, (∀ op ∈ ops, op.Legal) → max 256 (2 * Layers.unit n ls) ≤ env.maxLen →
        Layers.unit n ls ∣ (inputOf ops).length → (inputOf ops).length ≤ env.maxLen →
        (Layers.CountOk n ls ((inputOf ops).length / Layers.unit n ls) →
          (cipherObject env none dir b).run ops = some (.ok (towerText E D n ls id dir (inputOf ops))))
        ∧ (¬ Layers.CountOk n ls ((inputOf ops).length / Layers.unit n ls) →
          (cipherObject env none dir b).run ops = some (.error (.error .messageTooLong))) := by
  obtain ⟨b, h1, h2⟩ := tower_tracks (env := env) hb.enc hb.encSize hb.dec hb.decSize ls dir hok
  obtain ⟨inv, f, k1, k2, k3, k4⟩ := tracks_runBlocks (countOk_mono ls) h2 (countOk_zero ls)
  refine ⟨b, h1, k3, ?_⟩
  intro ops hops hroom hd hfit
  rw [← k3] at hroom hd ⊢
  have hbs := chunks_length_of_dvd k1.pos _ hd
  obtain ⟨m1, m2⟩ := k4 (chunks b.c.blocksize (inputOf ops)) (k3 ▸ hbs)
  rw [chunks_count k1.pos hd] at m1 m2
  constructor
  · intro hc
    obtain ⟨s', hs'⟩ := m1 hc
    have := k1.transform_ok (env := env) k2 hroom hops hd hfit hs'
    rw [k3] at this
    exact this
  · intro hc
    obtain ⟨o, ho⟩ := m2 hc
    exact k1.transform_err (env := env) k2 hroom hops hd hfit ho

theorem tower_runs {b : AnyBlock} {u : Nat} {L : Nat → Prop} {M : Machine}
    (hL : ∀ i j, i ≤ j → L j → L i) (h0 : L 0) (h : Tracks b u L M) : Runs b u L (M.run M.init) := by
  obtain ⟨inv, f, k1, k2, k3, k4⟩ := tracks_runBlocks hL h h0
  exact ⟨inv, f, k1, k2, k3, fun bs hbs => (k4 bs hbs).1⟩

/-- C105: decryption with a tower gives back what the same tower has encrypted, with or without
padding, however the calls are made on either side. -/
theorem C105_round_trip {maxLen : Nat} (hmE : maxLen ≤ env.maxLen) (hmD : maxLen ≤ env'.maxLen)
    (hb : BlockPair base n E D) (hb' : BlockPair base' n E D) (hok : Layers.Ok n ls)
    {pad : Option PadScheme} {padf : Bytes → Bytes} (hpad : PadOk (Layers.unit n ls) pad padf) :
    ∃ bE bD, Layers.build env base ls .encrypt = .ok bE ∧ Layers.build env' base' ls .decrypt = .ok bD ∧
      Enciphers (cipherObject env pad .encrypt bE) (cipherObject env' pad .decrypt bD)
        (TowerMessageOk maxLen n ls pad padf) (towerText E D n ls padf .encrypt) := by
  obtain ⟨mE, h1, hE⟩ := tower_tracks (env := env) hb.enc hb.encSize hb.dec hb.decSize ls .encrypt hok
  obtain ⟨mD, h2, hD⟩ := tower_tracks (env := env') hb'.enc hb'.encSize hb'.dec hb'.decSize ls .decrypt hok
  obtain ⟨hK, hI⟩ := tower_keeps_inverse (E := E) (D := D)
    (fun b h => hb.encSize ▸ hb.enc.len (hb.encSize ▸ h)) hb.inv ls hok
  have hrE := tower_runs (countOk_mono ls) (countOk_zero ls) hE
  have hrD := tower_runs (countOk_mono ls) (countOk_zero ls) hD
  have hu : 0 < Layers.unit n ls := by
    obtain ⟨_, _, hi, _, hs, _⟩ := hrE
    rw [← hs]; exact hi.pos
  refine ⟨mE, mD, h1, h2, ?_⟩
  have key : ∀ m, TowerMessageOk maxLen n ls pad padf m →
      Layers.unit n ls ∣ (padf m).length
      ∧ (towerText E D n ls padf .encrypt m).length = (padf m).length
      ∧ ((Layers.machine n E D ls .decrypt).run (Layers.machine n E D ls .decrypt).init
          (chunks (Layers.unit n ls) (towerText E D n ls padf .encrypt m))).flatten = padf m := by
    intro m hm
    have hd : Layers.unit n ls ∣ (padf m).length := by
      cases pad with
      | none => cases hpad; exact hm.whole rfl
      | some p =>
        obtain ⟨_, _, _, h⟩ := Cipher.padLength hu hpad
        rw [h]; exact Nat.dvd_mul_left _ _
    obtain ⟨k1, k2, k3⟩ := inverse_run hK hI _ (chunks_length_of_dvd hu _ hd)
    refine ⟨hd, same_length_blocks hu hd k1 k2, ?_⟩
    rw [towerText, chunks_of_flatten hu _ k1, k3, chunks_flatten hu]
  have enc : ∀ ops : List TOp, (∀ op ∈ ops, op.Legal) → TowerMessageOk maxLen n ls pad padf (inputOf ops) →
      AnyTransform.run (cipherObject env pad .encrypt mE) ops
        = some (.ok (towerText E D n ls padf .encrypt (inputOf ops))) := by
    intro ops hops hm
    have hroom := Nat.le_trans hm.room hmE
    have hfits := hm.fits
    cases pad with
    | none =>
      cases hpad
      exact hrE.plain hroom ops hops (hm.whole rfl) hm.count (Nat.le_trans hfits hmE)
    | some p =>
      obtain ⟨pad, hc, rfl, hl⟩ := Cipher.padLength hu hpad
      have hcount := hm.count
      rw [hl, Nat.mul_div_cancel _ hu] at hcount
      rw [hl] at hfits
      exact hrE.padEnc hc hroom ops hops hcount (Nat.le_trans hfits hmE)
  have dec : ∀ (ops : List TOp) (m : Bytes), (∀ op ∈ ops, op.Legal) →
      TowerMessageOk maxLen n ls pad padf m → inputOf ops = towerText E D n ls padf .encrypt m →
      AnyTransform.run (cipherObject env' pad .decrypt mD) ops = some (.ok m) := by
    intro ops m hops hm hin
    obtain ⟨hd, hl, hinv⟩ := key m hm
    have hroom := Nat.le_trans hm.room hmD
    have hfits := hm.fits
    rw [← hin] at hl hinv
    cases pad with
    | none =>
      cases hpad
      have := hrD.plain hroom ops hops (by rw [hl]; exact hd) (by rw [hl]; exact hm.count)
        (by rw [hl]; exact Nat.le_trans hfits hmD)
      rw [hinv] at this
      exact this
    | some p =>
      obtain ⟨pad, hc, rfl, hpl⟩ := Cipher.padLength hu hpad
      have hcount := hm.count
      rw [hpl, Nat.mul_div_cancel _ hu] at hcount
      exact hrD.padDec hc hroom ops hops m (by rw [hl, hpl]) hinv hcount
        (by rw [hl]; exact Nat.le_trans hfits hmD)
  have hput : ∀ m : Bytes, inputOf [.putString m] = m := by intro m; simp [inputOf, TOp.input]
  have hleg : ∀ m : Bytes, ∀ op ∈ [TOp.putString m], op.Legal := by
    intro m op h; simp only [List.mem_singleton] at h; subst h; trivial
  refine ⟨enc, dec, ?_, ?_⟩
  · intro m hm
    have := enc [.putString m] (hleg m) (by rw [hput]; exact hm)
    rw [hput] at this
    cases pad <;>
    · rw [AnyTransform.string]
      exact (transformString_observe (fun t => Cipher.wipe_ok _ t) _ _).trans this
  · intro m hm
    have := dec [.putString (towerText E D n ls padf .encrypt m)] m (hleg _) hm (hput _)
    cases pad <;>
    · rw [AnyTransform.string]
      exact (transformString_observe (fun t => Cipher.wipe_ok _ t) _ _).trans this

/-! ### A tower of one mode is that mode -/

theorem ofb_machine (E : Bytes → Bytes) (k : Nat) (iv : Bytes) (bs : List Bytes) : ∀ i,
    ((Machine.map E).ofb k iv).run (iter E i iv, ()) bs = xorStream (ofbKey E k iv) i bs := by
  induction bs with
  | nil => intro i; rfl
  | cons b bs ih =>
    intro i
    have := ih (i + 1)
    have hs : iter E (i + 1) iv = E (iter E i iv) := Spec.iter_succ E i iv
    simp only [Machine.run, xorStream, Machine.ofb, Machine.map, ofbKey] at this ⊢
    rw [← this, hs]

theorem ctr_machine (E : Bytes → Bytes) (k : Nat) (iv : Bytes) (bs : List Bytes) : ∀ i,
    ((Machine.map E).ctr k iv).run (i, ()) bs = xorStream (fun i => E (counterBlock iv k i)) i bs := by
  induction bs with
  | nil => intro i; rfl
  | cons b bs ih =>
    intro i
    have := ih (i + 1)
    simp only [Machine.run, xorStream, Machine.ctr, Machine.map] at this ⊢
    rw [← this]

/-- C105: the machine of a single mode is the mode as defined in Spec/Modes. -/
theorem C105_single (E D : Bytes → Bytes) (n : Nat) (mode : Mode) (iv : Option Bytes) (bs : List Bytes) :
    (Layers.machine n E D [(mode, iv)] .encrypt).run (Layers.machine n E D [(mode, iv)] .encrypt).init bs
        = modeEnc E n (ivOf n iv) mode bs
      ∧ (Layers.machine n E D [(mode, iv)] .decrypt).run (Layers.machine n E D [(mode, iv)] .decrypt).init bs
        = modeDec E D n (ivOf n iv) mode bs := by
  have hmap : ∀ (F : Bytes → Bytes) (bs : List Bytes), (Machine.map F).run () bs = bs.map F := by
    intro F bs
    induction bs with
    | nil => rfl
    | cons b bs ih => simp only [Machine.run, List.map_cons]; rw [← ih]; rfl
  have hcfb : ∀ (k : Nat) (bs : List Bytes) (r : Bytes),
      ((Machine.map E).cfbEnc k (ivOf n iv)).run (r, ()) bs = cfbEnc E k r bs
      ∧ ((Machine.map E).cfbDec k (ivOf n iv)).run (r, ()) bs = cfbDec E k r bs := by
    intro k bs
    induction bs with
    | nil => intro r; exact ⟨rfl, rfl⟩
    | cons b bs ih =>
      intro r
      exact ⟨congrArg _ (ih _).1, congrArg _ (ih _).2⟩
  have hcbc : ∀ (bs : List Bytes) (r : Bytes),
      ((Machine.map E).cbcEnc (ivOf n iv)).run (r, ()) bs = cbcEnc E r bs
      ∧ ((Machine.map D).cbcDec (ivOf n iv)).run (r, ()) bs = cbcDec D r bs := by
    intro bs
    induction bs with
    | nil => intro r; exact ⟨rfl, rfl⟩
    | cons b bs ih =>
      intro r
      exact ⟨congrArg _ (ih _).1, congrArg _ (ih _).2⟩
  cases mode with
  | ECB => exact ⟨hmap E bs, hmap D bs⟩
  | CBC => exact ⟨(hcbc bs _).1, (hcbc bs _).2⟩
  | CFB k => exact ⟨(hcfb _ bs _).1, (hcfb _ bs _).2⟩
  | OFB k => exact ⟨ofb_machine E _ _ bs 0, ofb_machine E _ _ bs 0⟩
  | CTR => exact ⟨ctr_machine E _ _ bs 0, ctr_machine E _ _ bs 0⟩
  | CTR_N k => exact ⟨ctr_machine E _ _ bs 0, ctr_machine E _ _ bs 0⟩

/-! ### The ciphers of the library -/

theorem blockPair_of {mk : Dir → Option (Except Exn AnyBlock)}
    (h1 : ∃ b, mk .encrypt = some (.ok b) ∧ b.c.blocksize = n ∧ PureCipher b.c b.s E)
    (h2 : ∃ b, mk .decrypt = some (.ok b) ∧ b.c.blocksize = n ∧ PureCipher b.c b.s D)
    (hinv : ∀ b : Bytes, b.length = n → D (E b) = b) :
    ∃ base, (∀ dir, mk dir = some (.ok (base dir))) ∧ BlockPair base n E D := by
  obtain ⟨b, e1, e2, e3⟩ := h1
  obtain ⟨b', d1, d2, d3⟩ := h2
  refine ⟨fun | .encrypt => b | .decrypt => b', ?_, e3, d3, e2, d2, hinv⟩
  intro dir
  cases dir
  · exact e1
  · exact d1

/-- C105: AES is such a pair, with or without AES-NI. -/
theorem C105_aes (host : AesHost) {key : Bytes} (hk : key.length = 16 ∨ key.length = 24 ∨ key.length = 32) :
    ∃ base, (∀ dir, aesBlock host dir key = some (.ok (base dir)))
      ∧ BlockPair base 16 (Spec.Aes.encrypt key) (Spec.Aes.decrypt key) :=
  blockPair_of (aesBlock_enc host hk) (aesBlock_dec host hk) (fun _ hb => (C41_aes_inverse hk hb).2.2.1)

/-- C105: DES. -/
theorem C105_des {key : Bytes} (hk : key.length = 8) :
    ∃ base, (∀ dir, desBlock dir key = some (.ok (base dir)))
      ∧ BlockPair base 8 (Spec.Des.encrypt key) (Spec.Des.decrypt key) := by
  obtain ⟨ke, kd, h1, h2, h3, h4, h5⟩ := C43_des hk
  exact blockPair_of (mk := fun d => desBlock d key)
    ⟨⟨Des.cipher, ke⟩, by simp [desBlock, h1, Except.map], rfl, h4⟩
    ⟨⟨Des.cipher, kd⟩, by simp [desBlock, h2, Except.map], rfl, h5⟩
    (fun _ hb => (C43_inverse key hb).2.2.1)

/-- C105: Triple DES. -/
theorem C105_triple_des {key : Bytes} (hk : key.length = 16 ∨ key.length = 24) :
    ∃ base, (∀ dir, tripleDesBlock dir key = some (.ok (base dir)))
      ∧ BlockPair base 8 (Spec.Des.encrypt3 key) (Spec.Des.decrypt3 key) := by
  obtain ⟨ke, kd, h1, h2, h3, h4, h5⟩ := C43_triple_des hk
  exact blockPair_of (mk := fun d => tripleDesBlock d key)
    ⟨⟨Des.cipher3, ke⟩, by simp [tripleDesBlock, h1, Except.map], rfl, h4⟩
    ⟨⟨Des.cipher3, kd⟩, by simp [tripleDesBlock, h2, Except.map], rfl, h5⟩
    (fun _ hb => (C43_inverse key hb).2.2.2.2.1)

/-- C105: Blowfish. -/
theorem C105_blowfish {key : Bytes} (hk : 4 ≤ key.length ∧ key.length ≤ 56) :
    ∃ base, (∀ dir, blowfishBlock dir key = some (.ok (base dir)))
      ∧ BlockPair base 8 (Spec.Blowfish.encrypt key) (Spec.Blowfish.decrypt key) := by
  obtain ⟨k, h1, h2, h3, h4, h5⟩ := C44_blowfish hk
  exact blockPair_of (mk := fun d => blowfishBlock d key)
    ⟨⟨Blowfish.cipherEnc, k⟩, by simp [blowfishBlock, h1, Except.map], rfl, h4⟩
    ⟨⟨Blowfish.cipherDec, k⟩, by simp [blowfishBlock, h1, Except.map], rfl, h5⟩
    (fun _ hb => (C44_inverse (by omega) hb).2.2.1)

/-! ### Non-vacuity -/

/-- CFB with segments of 3 bytes, over CBC, over counter mode with a counter of 2 bytes, over AES. -/
def Example.tower : Layers := [(.CFB 3, none), (.CBC, some Example.aesKey), (.CTR_N 2, none)]

example : Layers.Ok 16 Example.tower ∧ Layers.unit 16 Example.tower = 3
    ∧ Layers.CountOk 16 Example.tower 65535 ∧ ¬ Layers.CountOk 16 Example.tower 65536 := by
  simp [Example.tower, Layers.Ok, Layers.unit, unitOf, ModeOk, ModeIVOk, IVOk, Layers.CountOk, UnitsOk,
    Example.aesKey]

example (host host' : AesHost) : ∃ base base' bE bD,
    (∀ dir, aesBlock host dir Example.aesKey = some (.ok (base dir)))
    ∧ (∀ dir, aesBlock host' dir Example.aesKey = some (.ok (base' dir)))
    ∧ Layers.build Example.env64 base Example.tower .encrypt = .ok bE
    ∧ Layers.build Example.env64 base' Example.tower .decrypt = .ok bD
    ∧ (cipherObject Example.env64 none .decrypt bD).string
        (towerText (Spec.Aes.encrypt Example.aesKey) (Spec.Aes.decrypt Example.aesKey) 16 Example.tower id
          .encrypt [1, 2, 3, 4, 5, 6]) = some (.ok [1, 2, 3, 4, 5, 6]) := by
  obtain ⟨base, h1, h2⟩ := C105_aes host (key := Example.aesKey) (.inl rfl)
  obtain ⟨base', h1', h2'⟩ := C105_aes host' (key := Example.aesKey) (.inl rfl)
  obtain ⟨bE, bD, h3, h4, h5⟩ := C105_round_trip (env := Example.env64) (env' := Example.env64)
    (maxLen := 1000) (by decide) (by decide) h2 h2' (ls := Example.tower)
    (by simp [Example.tower, Layers.Ok, Layers.unit, unitOf, ModeOk, ModeIVOk, IVOk, Example.aesKey]) .none
  refine ⟨base, base', bE, bD, h1, h1', h3, h4, h5.decrypt_string _ ⟨fun _ => ?_, ?_, by decide, ?_⟩⟩
  · simp [Example.tower, Layers.unit, unitOf]
  · simp [Example.tower, Layers.CountOk, Layers.unit, unitOf, UnitsOk]
  · simp [Example.tower, Layers.unit, unitOf]

/-- In a tower, the message of a counter mode with a counter of one byte ends before 256 blocks. -/
example (host : AesHost) (m : Bytes) (hm : m.length = 256) : ∃ base b,
    (∀ dir, aesBlock host dir Example.aesKey = some (.ok (base dir)))
    ∧ Layers.build Example.env64 base [(.CFB 1, none), (.CTR_N 1, none)] .encrypt = .ok b
    ∧ (cipherObject Example.env64 none .encrypt b).run [.putString m]
        = some (.error (.error .messageTooLong)) := by
  obtain ⟨base, h1, h2⟩ := C105_aes host (key := Example.aesKey) (.inl rfl)
  obtain ⟨b, h3, -, h5⟩ := C105_tower (env := Example.env64) h2 (ls := [(.CFB 1, none), (.CTR_N 1, none)])
    (by simp [Layers.Ok, Layers.unit, unitOf, ModeOk, ModeIVOk, IVOk]) .encrypt
  have hin : (inputOf [.putString m]).length = 256 := by simp [inputOf, TOp.input, hm]
  refine ⟨base, b, h1, h3, (h5 [.putString m] ?_ ?_ ?_ ?_).2 ?_⟩
  · intro op h; simp only [List.mem_singleton] at h; subst h; trivial
  · simp only [Layers.unit, unitOf]; decide
  · simp [Layers.unit, unitOf]
  · rw [hin]; decide
  · rw [hin]; simp [Layers.CountOk, Layers.unit, unitOf, UnitsOk]

end Verif
