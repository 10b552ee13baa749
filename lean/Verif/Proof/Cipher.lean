import Verif.Props.C04_C05_C06_Padding
import Verif.Props.C07_C11_Modes
import Verif.Spec.CipherModes
/-
The transforms built by `Cipher.make_block_cipher`.
-/
namespace Verif.Cipher

open Spec

theorem runBlocks_out_length {σ : Type} {c : BlockCipher σ} {inv : σ → Prop}
    {f : σ → Bytes → BRes σ} (h : BlockRuns c inv f) (bs : List Bytes) :
    ∀ {s : σ} {out : Bytes} {p : σ × Bytes}, inv s → (∀ b ∈ bs, b.length = c.blocksize) →
      runBlocks f s bs = .ok out p → out.length = bs.flatten.length := by
  induction bs with
  | nil =>
    intro s out p _ _ hr
    simp only [runBlocks, SRes.ok.injEq] at hr
    rw [← hr.1]; rfl
  | cons b bs ih =>
    intro s out p hs hb hr
    have hbl := hb b (by simp)
    cases hexn : (f s b).exn with
    | some e => simp [runBlocks, oneBlock, hexn, SRes.andThen] at hr
    | none =>
      rw [runBlocks_cons_noexn hexn] at hr
      simp only [SRes.andThen] at hr
      cases hr2 : runBlocks f (f s b).st bs with
      | err o e => rw [hr2] at hr; cases hr
      | ok o q =>
        rw [hr2] at hr
        simp only [SRes.ok.injEq] at hr
        rw [← hr.1, List.length_append, h.out_len hs hbl,
          ih (h.inv_step hs hbl) (fun x hx => hb x (by simp [hx])) hr2]
        simp [hbl]

/-- The block cipher object `b` processes units of `n` bytes and maps a list of units `bs` with
`L bs.length` to `F bs`. -/
def Runs (b : AnyBlock) (n : Nat) (L : Nat → Prop) (F : List Bytes → List Bytes) : Prop :=
  ∃ inv f, BlockRuns b.c inv f ∧ inv b.s ∧ b.c.blocksize = n ∧
    ∀ bs : List Bytes, (∀ x ∈ bs, x.length = n) → L bs.length →
      ∃ s', runBlocks f b.s bs = .ok (F bs).flatten (s', [])

variable {env : Env} {b : AnyBlock} {n : Nat} {L : Nat → Prop} {F : List Bytes → List Bytes}

theorem chunks_count {m : Bytes} (hn : 0 < n) (hd : n ∣ m.length) :
    (chunks n m).length = m.length / n := by
  obtain ⟨q, hq⟩ := hd
  rw [chunks_length hn, hq, Nat.mul_div_cancel_left _ hn, Nat.add_sub_assoc (by omega),
    Nat.mul_add_div hn, Nat.div_eq_of_lt (by omega), Nat.add_zero]

theorem Runs.plain (h : Runs b n L F) (hm : max 256 (2 * n) ≤ env.maxLen) (ops : List TOp)
    (hops : ∀ op ∈ ops, op.Legal) (hd : n ∣ (inputOf ops).length)
    (hL : L ((inputOf ops).length / n)) (hfit : (inputOf ops).length ≤ env.maxLen) :
    ((blockTransform env b.c).total ops (cipherInit env b.c b.s)).observe
      = some (.ok (F (chunks n (inputOf ops))).flatten) := by
  obtain ⟨inv, f, hi, hs, rfl, hrun⟩ := h
  obtain ⟨s', hr⟩ := hrun (chunks _ (inputOf ops)) (chunks_length_of_dvd hi.pos _ hd)
    (by rw [chunks_count hi.pos hd]; exact hL)
  exact hi.transform_ok hs hm hops hd hfit hr

theorem Runs.padEnc (h : Runs b n L F) {p : PadScheme} {pad : Bytes → Bytes}
    (hc : p.Computes n pad) (hm : max 256 (2 * n) ≤ env.maxLen) (ops : List TOp)
    (hops : ∀ op ∈ ops, op.Legal) (hL : L ((inputOf ops).length / n + 1))
    (hfit : ((inputOf ops).length / n + 1) * n ≤ env.maxLen) :
    ((paddedEncrypt env p b.c).total ops (cipherInit env b.c b.s)).observe
      = some (.ok (F (chunks n (padMessage n pad (inputOf ops)))).flatten) := by
  obtain ⟨inv, f, hi, hs, rfl, hrun⟩ := h
  have hpl := padMessage_length hi.pos (pad := pad) (fun x hx => hc.pad_len hx) (inputOf ops)
  have hd : b.c.blocksize ∣ (padMessage b.c.blocksize pad (inputOf ops)).length := by
    rw [hpl]; exact Nat.dvd_mul_left _ _
  have hbs := chunks_length_of_dvd hi.pos _ hd
  obtain ⟨s', hr⟩ := hrun _ hbs
    (by rw [chunks_count hi.pos hd, hpl, Nat.mul_div_cancel _ hi.pos]; exact hL)
  have hol := runBlocks_out_length hi _ hs hbs hr
  rw [chunks_flatten hi.pos, hpl] at hol
  have ht := (hi.paddedEncrypt env hc).total (padEncSpec_lawful hi.pos f pad) ops
    (blockRep_init env (s := b.s) hs hm) hops
  have hmap := padEnc_run hi.pos (f := f) (pad := pad) (fun x hx => hc.pad_len hx) (inputOf ops) b.s
  rw [hr] at hmap
  obtain ⟨r, hb⟩ := SRes.map_ok hmap
  have heq : ((padEncSpec b.c.blocksize f pad).put (b.s, []) (inputOf ops)).andThen
      (padEncSpec b.c.blocksize f pad).finish
      = (lazyBlocks b.c.blocksize f b.s (inputOf ops)).andThen (padEncFinish b.c.blocksize f pad) := by
    simp only [padEncSpec, blockSpec]
    by_cases h0 : inputOf ops = []
    · rw [h0, lazyBlocks_le (by simp : ([] : Bytes).length ≤ _)]; simp
    · simp [h0]
  rw [heq, hb] at ht
  obtain ⟨t', ht', _⟩ := ht (by omega)
  rw [ht']; rfl

theorem Runs.padDec (h : Runs b n L F) {p : PadScheme} {pad : Bytes → Bytes}
    (hc : p.Computes n pad) (hm : max 256 (2 * n) ≤ env.maxLen) (ops : List TOp)
    (hops : ∀ op ∈ ops, op.Legal) (m : Bytes)
    (hlen : (inputOf ops).length = (m.length / n + 1) * n)
    (hdec : (F (chunks n (inputOf ops))).flatten = padMessage n pad m)
    (hL : L (m.length / n + 1)) (hfit : (inputOf ops).length ≤ env.maxLen) :
    ((paddedDecrypt env p b.c).total ops (cipherInit env b.c b.s)).observe = some (.ok m) := by
  obtain ⟨inv, f, hi, hs, rfl, hrun⟩ := h
  have hn := hi.pos
  have hd : b.c.blocksize ∣ (inputOf ops).length := by rw [hlen]; exact Nat.dvd_mul_left _ _
  have hbs := chunks_length_of_dvd hi.pos _ hd
  obtain ⟨s', hr⟩ := hrun _ hbs
    (by rw [chunks_count hi.pos hd, hlen, Nat.mul_div_cancel _ hi.pos]; exact hL)
  have ht := (hi.paddedDecrypt env hc).total (padDecSpec_lawful hi.pos f p.strip) ops
    (blockRep_init env (s := b.s) hs hm) hops
  have heq : ((padDecSpec b.c.blocksize f p.strip).put (b.s, []) (inputOf ops)).andThen
      (padDecSpec b.c.blocksize f p.strip).finish
      = (lazyBlocks b.c.blocksize f b.s (inputOf ops)).andThen
          (padDecFinish b.c.blocksize f p.strip) := by
    simp only [padDecSpec, blockSpec]
    by_cases h0 : inputOf ops = []
    · rw [h0, lazyBlocks_le (by simp : ([] : Bytes).length ≤ _)]; simp
    · simp [h0]
  rw [heq] at ht
  have hne : inputOf ops ≠ [] := by
    intro h0
    rw [h0] at hlen
    have := Nat.mul_pos (Nat.succ_pos (m.length / b.c.blocksize)) hn
    simp only [List.length_nil, Nat.succ_eq_add_one] at hlen this
    omega
  rw [hdec] at hr
  obtain ⟨hl, hr⟩ := padDec_run hi.pos (f := f) (strip := p.strip) hi.out_len hi.inv_step _ b.s s' _ hs hd
    hne hr
  have hk : (inputOf ops).length - b.c.blocksize = m.length / b.c.blocksize * b.c.blocksize := by
    rw [hlen, Nat.add_mul, Nat.one_mul, Nat.add_sub_cancel]
  have hdm := Nat.div_add_mod m.length b.c.blocksize
  have hml2 := Nat.mod_lt m.length hn
  rw [Nat.mul_comm] at hdm
  have htl : (m.take (m.length / b.c.blocksize * b.c.blocksize)).length
      = m.length / b.c.blocksize * b.c.blocksize := by rw [List.length_take]; omega
  have hdr : (padMessage b.c.blocksize pad m).drop ((inputOf ops).length - b.c.blocksize)
      = pad (m.drop (m.length / b.c.blocksize * b.c.blocksize)) := by
    rw [hk, padMessage, List.drop_append, htl, Nat.sub_self, List.drop_zero,
      List.drop_of_length_le (by omega), List.nil_append]
  have htk : (padMessage b.c.blocksize pad m).take ((inputOf ops).length - b.c.blocksize)
      = m.take (m.length / b.c.blocksize * b.c.blocksize) := by
    rw [hk, padMessage, List.take_append, htl, Nat.sub_self, List.take_zero, List.append_nil,
      List.take_of_length_le (by omega)]
  rw [hdr, htk, hc.strip_pad (by rw [List.length_drop]; omega)] at hr
  obtain ⟨r, hr⟩ := hr
  rw [hc.pad_take, List.take_append_drop] at hr
  rw [hr] at ht
  obtain ⟨t', ht', _⟩ := ht (by rw [hlen] at hfit; rw [Nat.add_mul] at hfit; omega)
  rw [ht']; rfl

/-! ### The chaining modes -/

theorem blockwise_map {σ : Type} (E : Bytes → Bytes) (s : σ) (bs : List Bytes) :
    blockwise (fun (s : σ) b => (⟨E b, s, none⟩ : BRes σ)) s bs = bs.map E := by
  induction bs with
  | nil => rfl
  | cons x bs ih => simp only [blockwise, List.map_cons]; rw [ih]

theorem runs_map (hb : PureCipher b.c b.s E) (L : Nat → Prop) :
    Runs b b.c.blocksize L (List.map E) := by
  refine ⟨_, _, hb.runs, rfl, rfl, fun bs _ _ => ?_⟩
  obtain ⟨s', h⟩ := runBlocks_blockwise (f := fun s b => ⟨E b, s, none⟩) (fun _ _ => rfl) bs b.s
  refine ⟨s', ?_⟩
  rw [h]
  rw [blockwise_map]

theorem runs_ctr (hb : PureCipher b.c b.s E) {iv : Option Bytes} (hiv : IVOk b.c.blocksize iv)
    {inc : Option Nat} (hinc : IncOk b.c.blocksize inc) :
    ∃ b', (ctrInit env b.c b.s iv (inc.map Int.ofNat)).map
        (fun p => (⟨ctr p.1 b.c, p.2⟩ : AnyBlock)) = .ok b' ∧
      Runs b' b.c.blocksize (· < Verif.ctrLimit (incOf b.c.blocksize inc))
        (Spec.ctr E (incOf b.c.blocksize inc) (ivOf b.c.blocksize iv)) := by
  rw [ctrInit_ok env b.c b.s hiv hinc]
  refine ⟨_, rfl, _, _, (ctr_implements hb (incOf_le hinc)).runs, modeInv_init env _ b.s hiv, rfl, ?_⟩
  intro bs _ hL
  have hle := incOf_le hinc
  have hr := runBlocks_ctr E (incOf b.c.blocksize inc) (ivOf b.c.blocksize iv)
    (by rw [ivOf_length hiv]; exact hle) bs
    ⟨⟨b.s, ivOf b.c.blocksize iv, env.create b.c.blocksize⟩,
      BitVec.ofNat 64 (Verif.ctrLimit (incOf b.c.blocksize inc))⟩ 0
    (Verif.ctrLimit (incOf b.c.blocksize inc))
    (by rw [counterBlock_zero]; rw [ivOf_length hiv]; exact hle) rfl
    (ctrLimit_le _).1 (ctrLimit_le _).2.1
  rw [if_pos hL] at hr
  exact hr

theorem Runs.mono {L' : Nat → Prop} (h : Runs b n L F) (hL : ∀ k, L' k → L k) : Runs b n L' F := by
  obtain ⟨inv, f, h1, h2, h3, h4⟩ := h
  exact ⟨inv, f, h1, h2, h3, fun bs hb hl => h4 bs hb (hL _ hl)⟩

/-- The constructed mode object, on encryption. -/
theorem chained_enc (hb : PureCipher b.c b.s E) {mode : Mode} (hmode : ModeOk b.c.blocksize mode)
    {iv : Option Bytes} (hiv : ModeIVOk b.c.blocksize mode iv) :
    ∃ b', chained env mode iv .encrypt b = .ok b' ∧
      Runs b' (unitOf b.c.blocksize mode) (UnitsOk b.c.blocksize mode)
        (modeEnc E b.c.blocksize (ivOf b.c.blocksize iv) mode) := by
  cases mode with
  | ECB => exact ⟨b, rfl, runs_map hb _⟩
  | CBC =>
    replace hiv := hiv.resolve_left (by simp)
    simp only [chained, modeInit_ok env b.c b.s hiv]
    exact ⟨_, rfl, _, _, (cbcEncrypt_implements hb).runs, modeInv_init env _ b.s hiv, rfl,
      fun bs _ _ => runBlocks_cbcEnc E bs _⟩
  | CFB k =>
    replace hiv := hiv.resolve_left (by simp)
    obtain ⟨h0, h1⟩ := hmode
    obtain ⟨k, rfl⟩ := Int.eq_ofNat_of_zero_le (Int.le_of_lt h0)
    have h0 : 0 < k := by omega
    have h1 : k ≤ b.c.blocksize := by omega
    simp only [chained, modeInitChunk_ok env b.c b.s hiv h0 h1, unitOf, Int.toNat_natCast, modeEnc]
    exact ⟨_, rfl, _, _, (cfbEncrypt_implements hb h0 h1).runs, modeInv_init env _ b.s hiv, rfl,
      fun bs _ _ => runBlocks_cfbEnc E k bs _⟩
  | OFB k =>
    replace hiv := hiv.resolve_left (by simp)
    obtain ⟨h0, h1⟩ := hmode
    obtain ⟨k, rfl⟩ := Int.eq_ofNat_of_zero_le (Int.le_of_lt h0)
    have h0 : 0 < k := by omega
    have h1 : k ≤ b.c.blocksize := by omega
    simp only [chained, modeInitChunk_ok env b.c b.s hiv h0 h1, unitOf, Int.toNat_natCast, modeEnc]
    exact ⟨_, rfl, _, _, (ofb_implements hb h0 h1).runs, modeInv_init env _ b.s hiv, rfl,
      fun bs _ _ => runBlocks_ofb E k _ bs _ 0 rfl⟩
  | CTR =>
    replace hiv := hiv.resolve_left (by simp)
    obtain ⟨b', h1, h2⟩ := runs_ctr (env := env) hb hiv (inc := none) (by intro n h; cases h)
    exact ⟨b', h1, h2.mono fun k hk => hk⟩
  | CTR_N k =>
    replace hiv := hiv.resolve_left (by simp)
    obtain ⟨h0, h1⟩ := hmode
    obtain ⟨k, rfl⟩ := Int.eq_ofNat_of_zero_le (Int.le_of_lt h0)
    obtain ⟨b', h1, h2⟩ := runs_ctr (env := env) hb hiv (inc := some k)
      (by intro n h; cases h; omega)
    exact ⟨b', h1, h2.mono fun k hk => hk⟩

/-- The constructed mode object, on decryption: `b` is the inverse cipher for ECB and CBC, the
forward cipher for the other modes. -/
theorem chained_dec {mode : Mode} (hb : PureCipher b.c b.s
      (match normalizeDir (some mode) .decrypt with | .encrypt => E | .decrypt => D))
    (hmode : ModeOk b.c.blocksize mode)
    {iv : Option Bytes} (hiv : ModeIVOk b.c.blocksize mode iv) :
    ∃ b', chained env mode iv .decrypt b = .ok b' ∧
      Runs b' (unitOf b.c.blocksize mode) (UnitsOk b.c.blocksize mode)
        (modeDec E D b.c.blocksize (ivOf b.c.blocksize iv) mode) := by
  cases mode with
  | ECB => exact ⟨b, rfl, runs_map hb _⟩
  | CBC =>
    replace hiv := hiv.resolve_left (by simp)
    simp only [chained, modeInit_ok env b.c b.s hiv]
    exact ⟨_, rfl, _, _, (cbcDecrypt_implements hb).runs, modeInv_init env _ b.s hiv, rfl,
      fun bs _ _ => runBlocks_cbcDec D bs _⟩
  | CFB k =>
    replace hiv := hiv.resolve_left (by simp)
    obtain ⟨h0, h1⟩ := hmode
    obtain ⟨k, rfl⟩ := Int.eq_ofNat_of_zero_le (Int.le_of_lt h0)
    have h0 : 0 < k := by omega
    have h1 : k ≤ b.c.blocksize := by omega
    simp only [chained, modeInitChunk_ok env b.c b.s hiv h0 h1, unitOf, Int.toNat_natCast, modeDec]
    exact ⟨_, rfl, _, _, (cfbDecrypt_implements hb h0 h1).runs, modeInv_init env _ b.s hiv, rfl,
      fun bs _ _ => runBlocks_cfbDec E k bs _⟩
  | OFB k => exact chained_enc (mode := .OFB k) hb hmode hiv
  | CTR => exact chained_enc (mode := .CTR) hb hmode hiv
  | CTR_N k => exact chained_enc (mode := .CTR_N k) hb hmode hiv

/-- Decryption of units inverts encryption, and encryption yields units. -/
theorem modeDec_modeEnc {E D : Bytes → Bytes} {n : Nat}
    (hE : ∀ b : Bytes, b.length = n → (E b).length = n)
    (hinv : ∀ b : Bytes, b.length = n → D (E b) = b) {mode : Mode} (hmode : ModeOk n mode)
    {iv : Option Bytes} (hiv : ModeIVOk n mode iv) {ps : List Bytes}
    (hps : ∀ p ∈ ps, p.length = unitOf n mode) :
    (∀ x ∈ modeEnc E n (ivOf n iv) mode ps, x.length = unitOf n mode)
      ∧ (modeEnc E n (ivOf n iv) mode ps).length = ps.length
      ∧ modeDec E D n (ivOf n iv) mode (modeEnc E n (ivOf n iv) mode ps) = ps := by
  have hctr : ∀ k, k ≤ n → IVOk n iv → (∀ p ∈ ps, p.length = n) →
      (∀ x ∈ Spec.ctr E k (ivOf n iv) ps, x.length = n)
      ∧ (Spec.ctr E k (ivOf n iv) ps).length = ps.length
      ∧ Spec.ctr E k (ivOf n iv) (Spec.ctr E k (ivOf n iv) ps) = ps := by
    intro k hk hiv hps
    have hivl := ivOf_length hiv
    obtain ⟨h1, h2⟩ := xorStream_facts (n := n)
      (key := fun i => E (Spec.counterBlock (ivOf n iv) k i))
      (fun i => hE _ (by rw [counterBlock_length _ _ _ (by omega), hivl])) ps 0 hps
    exact ⟨h1, xorStream_count _ _ _, h2⟩
  cases mode with
  | ECB =>
    refine ⟨?_, by simp [modeEnc], ?_⟩
    · intro x hx
      simp only [modeEnc, List.mem_map] at hx
      obtain ⟨p, hp, rfl⟩ := hx
      exact hE _ (hps p hp)
    · simp only [modeEnc, modeDec, List.map_map]
      conv => rhs; rw [← List.map_id ps]
      exact List.map_congr_left fun p hp => hinv p (hps p hp)
  | CBC =>
    replace hiv := hiv.resolve_left (by simp)
    exact ⟨cbcEnc_lengths hE _ _ (ivOf_length hiv) hps, cbcEnc_count _ _ _,
      cbcDec_cbcEnc hE hinv _ _ (ivOf_length hiv) hps⟩
  | CFB k =>
    replace hiv := hiv.resolve_left (by simp)
    obtain ⟨h0, h1⟩ := hmode
    obtain ⟨h2, h3⟩ := cfb_facts (n := k.toNat) (m := n) (by omega) hE ps _ (ivOf_length hiv) hps
    exact ⟨h2, cfbEnc_count _ _ _ _, h3⟩
  | OFB k =>
    replace hiv := hiv.resolve_left (by simp)
    obtain ⟨h0, h1⟩ := hmode
    obtain ⟨h2, h3⟩ := xorStream_facts (n := k.toNat) (key := Spec.ofbKey E k.toNat (ivOf n iv))
      (fun i => by
        rw [Spec.ofbKey, List.length_take, iter_length (m := n) hE _ _ (ivOf_length hiv)]
        omega) ps 0 hps
    exact ⟨h2, xorStream_count _ _ _, h3⟩
  | CTR => exact hctr n (Nat.le_refl n) (hiv.resolve_left (by simp)) hps
  | CTR_N k => exact hctr _ (by have := hmode.2; omega) (hiv.resolve_left (by simp)) hps

/-! ### `transform_string` -/

theorem transformString_observe {τ : Type} {T : Transform τ}
    (hw : ∀ t, ∃ t', T.wipe t = .ok () t') (m : Bytes) (t : τ) :
    (transformString T m t).observe = (T.total [.putString m] t).observe := by
  simp only [transformString, Transform.total, Transform.calls, Transform.call, M.bind_def]
  cases h1 : T.putString m t with
  | ok u t1 =>
    cases u
    simp only [M.pure_def, List.append_nil]
    cases h2 : T.finish t1 with
    | ok u t2 =>
      cases u
      simp only
      cases h3 : T.getString t2 with
      | ok r t3 =>
        obtain ⟨t4, h4⟩ := hw t3
        simp [h4, Out.observe]
      | exn e t3 => simp [Out.observe]
      | ub => simp [Out.observe]
      | loop => simp [Out.observe]
    | exn e t2 => simp [Out.observe]
    | ub => simp [Out.observe]
    | loop => simp [Out.observe]
  | exn e t1 => simp [Out.observe]
  | ub => simp [Out.observe]
  | loop => simp [Out.observe]

end Verif.Cipher
