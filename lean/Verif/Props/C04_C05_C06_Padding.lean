import Verif.Proof.Padded
import Verif.Props.Example
/-
C04 Padding schemes are unambiguous.
C05 Padded encryption followed by padded decryption is the identity.
C06 Padded decryption rejects exactly malformed input.
C68 (padded transforms) Flushing does not change what a transform means.
-/
namespace Verif

/-! ### C04 -/

/-- C04, `Padding.length`, padding: the first `used` bytes are kept and the rest filled. -/
theorem C04_length_pad (b : Bytes) (used : Nat) (hu : used < b.length)
    (h255 : b.length < 256) :
    Padding.length.pad b used = .ok (Spec.padLength b.length (b.take used)) :=
  lengthPad_ok rfl hu (by omega)

/-- C04, `Padding.length`: stripping a padded block returns the number of used bytes. -/
theorem C04_length_strip_pad (b : Bytes) (used : Nat) (hu : used < b.length)
    (h255 : b.length < 256) :
    (Padding.length.pad b used).bind Padding.length.strip = .ok used := by
  rw [C04_length_pad b used hu h255]
  have := lengthStrip_pad (n := b.length) (x := b.take used) (by simp; omega) (by simp; omega)
  rw [List.length_take, Nat.min_eq_left (by omega)] at this
  exact this

/-- C04, `Padding.length`: `strip` returns `v` exactly when the block is what padding its
first `v` bytes yields, and raises `Bad_padding` on every other block. -/
theorem C04_length_strip_exact (b : Bytes) (hb : b ≠ []) (h255 : b.length < 256) :
    (∀ v, Padding.length.strip b = .ok v ↔ v < b.length ∧ Padding.length.pad b v = .ok b) ∧
    ((¬ ∃ v, v < b.length ∧ Padding.length.pad b v = .ok b) →
      Padding.length.strip b = .error (.error .badPadding)) := by
  have key : ∀ v, v < b.length ∧ Padding.length.pad b v = .ok b → Padding.length.strip b = .ok v := by
    rintro v ⟨hv, hp⟩
    have := C04_length_strip_pad b v hv h255
    rw [hp] at this
    exact this
  rcases lengthStrip_inv hb with ⟨v, h1, h2, _, h4⟩ | h1
  · have hv : v < b.length ∧ Padding.length.pad b v = .ok b :=
      ⟨h2, by rw [C04_length_pad b v h2 h255, ← h4]⟩
    refine ⟨fun w => ⟨fun hw => ?_, key w⟩, fun hno => absurd ⟨v, hv⟩ hno⟩
    have : v = w := by
      have h5 : Padding.length.strip b = .ok v := h1
      rw [hw] at h5; cases h5; rfl
    exact this ▸ hv
  · refine ⟨fun w => ⟨fun hw => ?_, key w⟩, fun _ => h1⟩
    have h5 : Padding.length.strip b = .error (.error .badPadding) := h1
    rw [hw] at h5; cases h5

/-- C04, `Padding._8000`, padding. -/
theorem C04_8000_pad (b : Bytes) (used : Nat) (hu : used < b.length) :
    Padding._8000.pad b used = .ok (Spec.pad8000 b.length (b.take used)) :=
  pad8000_ok rfl hu

theorem C04_8000_strip_pad (b : Bytes) (used : Nat) (hu : used < b.length) :
    (Padding._8000.pad b used).bind Padding._8000.strip = .ok used := by
  rw [C04_8000_pad b used hu]
  have := strip8000_pad (n := b.length) (x := b.take used) (by simp; omega)
  rw [List.length_take, Nat.min_eq_left (by omega)] at this
  exact this

theorem C04_8000_strip_exact (b : Bytes) :
    (∀ v, Padding._8000.strip b = .ok v ↔ v < b.length ∧ Padding._8000.pad b v = .ok b) ∧
    ((¬ ∃ v, v < b.length ∧ Padding._8000.pad b v = .ok b) →
      Padding._8000.strip b = .error (.error .badPadding)) := by
  have key : ∀ v, v < b.length ∧ Padding._8000.pad b v = .ok b → Padding._8000.strip b = .ok v := by
    rintro v ⟨hv, hp⟩
    have := C04_8000_strip_pad b v hv
    rw [hp] at this
    exact this
  rcases strip8000_inv b with ⟨v, h1, h2, h4⟩ | h1
  · have hv : v < b.length ∧ Padding._8000.pad b v = .ok b :=
      ⟨h2, by rw [C04_8000_pad b v h2, ← h4]⟩
    refine ⟨fun w => ⟨fun hw => ?_, key w⟩, fun hno => absurd ⟨v, hv⟩ hno⟩
    have : v = w := by
      have h5 : Padding._8000.strip b = .ok v := h1
      rw [hw] at h5; cases h5; rfl
    exact this ▸ hv
  · refine ⟨fun w => ⟨fun hw => ?_, key w⟩, fun _ => h1⟩
    have h5 : Padding._8000.strip b = .error (.error .badPadding) := h1
    rw [hw] at h5; cases h5

/-- non-vacuity, and what the schemes do on a concrete block -/
example : Padding.length.pad [1, 2, 3, 4, 5, 6, 7, 8] 5 = .ok [1, 2, 3, 4, 5, 3, 3, 3] := by rfl
example : Padding._8000.pad [1, 2, 3, 4, 5, 6, 7, 8] 5 = .ok [1, 2, 3, 4, 5, 0x80, 0, 0] := by rfl
example : Padding.length.strip [1, 2, 3, 4, 5, 2, 3, 3] = .error (.error .badPadding) := by rfl
example : Padding._8000.strip [1, 2, 3, 0x80, 5, 0, 0, 0] = .error (.error .badPadding) := by rfl

/-! ### C05 and C06 -/

/-- `p` is one of the padding schemes of the library, usable with blocks of `n` bytes. -/
def LibraryPadding (p : PadScheme) (n : Nat) : Prop :=
  (p = Padding.length ∧ n < 256) ∨ p = Padding._8000

/-- The padding function of a scheme, as documented. -/
def LibraryPadding.fn (pad : Bytes → Bytes) (p : PadScheme) (n : Nat) : Prop :=
  (p = Padding.length ∧ n < 256 ∧ pad = Spec.padLength n) ∨ (p = Padding._8000 ∧ pad = Spec.pad8000 n)

theorem LibraryPadding.computes {p : PadScheme} {n : Nat} {pad : Bytes → Bytes} (hn : 0 < n)
    (h : LibraryPadding.fn pad p n) : p.Computes n pad := by
  rcases h with ⟨rfl, h1, rfl⟩ | ⟨rfl, rfl⟩
  · exact length_computes hn h1
  · exact _8000_computes

variable {σ τ : Type} {env : Env}

theorem SRes.map_ok {r : SRes (σ × Bytes)} {o : Bytes} {s : σ}
    (h : r.map Prod.fst = .ok o s) : ∃ b, r = .ok o (s, b) := by
  cases r with
  | ok o' p => cases p; simp only [SRes.map, SRes.ok.injEq] at h; obtain ⟨rfl, rfl⟩ := h; exact ⟨_, rfl⟩
  | err o e => cases h

/-- Padded encryption of a message is the block function applied to the blocks of the
padded message, for every chunking. -/
theorem C05_padded_encrypt {c : BlockCipher σ} {inv : σ → Prop} {f : σ → Bytes → BRes σ} {s : σ}
    (h : Implements c inv f) (hf : Total f) (hs : inv s) {p : PadScheme} {pad : Bytes → Bytes}
    (hp : LibraryPadding.fn pad p c.blocksize)
    (hm : max 256 (2 * c.blocksize) ≤ env.maxLen)
    (ops : List TOp) (hops : ∀ op ∈ ops, op.Legal)
    (hfit : ((inputOf ops).length / c.blocksize + 1) * c.blocksize ≤ env.maxLen) :
    ((paddedEncrypt env p c).total ops (cipherInit env c s)).observe
      = some (.ok (blockwise f s
          (chunks c.blocksize (Spec.padMessage c.blocksize pad (inputOf ops)))).flatten) := by
  have hc := LibraryPadding.computes h.pos hp
  have hpl := padMessage_length h.pos (pad := pad) (fun x hx => hc.pad_len hx) (inputOf ops)
  have ht := (paddedEncrypt_refines env h hc).total (padEncSpec_lawful h.pos f pad) ops
    (blockRep_init env (s := s) hs hm) hops
  obtain ⟨s', hrun⟩ := runBlocks_blockwise hf
    (chunks c.blocksize (Spec.padMessage c.blocksize pad (inputOf ops))) s
  have hmap := padEnc_run h.pos (f := f) (pad := pad) (fun x hx => hc.pad_len hx) (inputOf ops) s
  rw [hrun] at hmap
  obtain ⟨b, hb⟩ := SRes.map_ok hmap
  have heq : ((padEncSpec c.blocksize f pad).put (s, []) (inputOf ops)).andThen
      (padEncSpec c.blocksize f pad).finish
      = (lazyBlocks c.blocksize f s (inputOf ops)).andThen (padEncFinish c.blocksize f pad) := by
    simp only [padEncSpec, blockSpec]
    by_cases h0 : inputOf ops = []
    · rw [h0, lazyBlocks_le (by simp : ([] : Bytes).length ≤ _)]; simp
    · simp [h0]
  rw [heq, hb] at ht
  have hd : c.blocksize ∣ (Spec.padMessage c.blocksize pad (inputOf ops)).length := by
    rw [hpl]; exact Nat.dvd_mul_left _ _
  obtain ⟨t', ht', _⟩ := ht (by
    rw [blockwise_length (f := f) h.out_len h.inv_step _ s hs
      (chunks_length_of_dvd h.pos _ hd), chunks_flatten h.pos, hpl]
    exact hfit)
  rw [ht']; rfl

/-- Any run that shows the data-level result shows a correct outcome. -/
theorem decryptOutcome_of_run {c : BlockCipher σ} {inv : σ → Prop} {f : σ → Bytes → BRes σ} {s : σ}
    (h : Implements c inv f) (hf : Total f) (hs : inv s) {p : PadScheme} {pad : Bytes → Bytes}
    (hc : p.Computes c.blocksize pad) (ct : Bytes) {lim : Nat} (hfit : ct.length ≤ lim)
    (run : Out (CipherSt σ) Bytes)
    (ht : match (lazyBlocks c.blocksize f s ct).andThen (padDecFinish c.blocksize f p.strip) with
      | .ok out _ => out.length ≤ lim → ∃ t', run = .ok out t'
      | .err out e => out.length ≤ lim → ∃ t', run = .exn e t') :
    Spec.DecryptOutcome c.blocksize pad ct (blockwise f s (chunks c.blocksize ct)).flatten
      run.observe := by
  generalize hdd : (blockwise f s (chunks c.blocksize ct)).flatten = d
  constructor
  · intro hbad
    obtain ⟨o, ho, hr⟩ := padDec_bad h.pos (strip := p.strip) hf h.out_len h.inv_step ct s hs hbad
    rw [hr] at ht
    obtain ⟨t', ht'⟩ := ht (by omega)
    rw [ht']; rfl
  · intro hne hd x hx hlx
    obtain ⟨s', hrun⟩ := runBlocks_blockwise hf (chunks c.blocksize ct) s
    rw [hdd] at hrun
    obtain ⟨hl, hr⟩ := padDec_run h.pos (f := f) (strip := p.strip) h.out_len h.inv_step ct s s' d hs hd hne hrun
    have hle : c.blocksize ≤ ct.length := Nat.le_of_dvd (List.length_pos_iff.2 hne) hd
    have hst : p.strip (d.drop (ct.length - c.blocksize)) = .ok x.length := by
      rw [hlx]; exact hc.strip_pad hx
    rw [hst] at hr
    obtain ⟨r, hr⟩ := hr
    have htk : (d.drop (ct.length - c.blocksize)).take x.length = x := by
      rw [hlx]; exact hc.pad_take
    rw [htk] at hr
    rw [hr] at ht
    obtain ⟨t', ht'⟩ := ht (by
      simp only [List.length_append, List.length_take]; omega)
    rw [ht']; rfl
  · intro hne hd hno
    obtain ⟨s', hrun⟩ := runBlocks_blockwise hf (chunks c.blocksize ct) s
    rw [hdd] at hrun
    obtain ⟨hl, hr⟩ := padDec_run h.pos (f := f) (strip := p.strip) h.out_len h.inv_step ct s s' d hs hd hne hrun
    have hle : c.blocksize ≤ ct.length := Nat.le_of_dvd (List.length_pos_iff.2 hne) hd
    have hlast : (d.drop (ct.length - c.blocksize)).length = c.blocksize := by
      rw [List.length_drop]; omega
    have hst : p.strip (d.drop (ct.length - c.blocksize)) = .error (.error .badPadding) := by
      rcases hc.strip_inv hlast with ⟨v, h1, h2, h3⟩ | h1
      · exact absurd ⟨(d.drop (ct.length - c.blocksize)).take v,
          by rw [List.length_take]; omega, h3⟩ hno
      · exact h1
    rw [hst] at hr
    obtain ⟨o, ho, hr⟩ := hr
    rw [hr] at ht
    obtain ⟨t', ht'⟩ := ht (by omega)
    rw [ht']; rfl

/-- C06: what a padded decryption shows, on every ciphertext and every chunking. -/
theorem C06_padded_decrypt {c : BlockCipher σ} {inv : σ → Prop} {f : σ → Bytes → BRes σ} {s : σ}
    (h : Implements c inv f) (hf : Total f) (hs : inv s) {p : PadScheme} {pad : Bytes → Bytes}
    (hp : LibraryPadding.fn pad p c.blocksize)
    (hm : max 256 (2 * c.blocksize) ≤ env.maxLen)
    (ops : List TOp) (hops : ∀ op ∈ ops, op.Legal)
    (hfit : (inputOf ops).length ≤ env.maxLen) :
    Spec.DecryptOutcome c.blocksize pad (inputOf ops)
      (blockwise f s (chunks c.blocksize (inputOf ops))).flatten
      ((paddedDecrypt env p c).total ops (cipherInit env c s)).observe := by
  have hc := LibraryPadding.computes h.pos hp
  have ht := (paddedDecrypt_refines env h hc).total (padDecSpec_lawful h.pos f p.strip) ops
    (blockRep_init env (s := s) hs hm) hops
  have heq : ((padDecSpec c.blocksize f p.strip).put (s, []) (inputOf ops)).andThen
      (padDecSpec c.blocksize f p.strip).finish
      = (lazyBlocks c.blocksize f s (inputOf ops)).andThen (padDecFinish c.blocksize f p.strip) := by
    simp only [padDecSpec, blockSpec]
    by_cases h0 : inputOf ops = []
    · rw [h0, lazyBlocks_le (by simp : ([] : Bytes).length ≤ _)]; simp
    · simp [h0]
  rw [heq] at ht
  refine decryptOutcome_of_run h hf hs hc _ hfit _ ?_
  generalize (lazyBlocks c.blocksize f s (inputOf ops)).andThen
    (padDecFinish c.blocksize f p.strip) = r at ht ⊢
  cases r with
  | ok out s' => exact fun hl => (ht hl).imp fun _ x => x.1
  | err out e => exact ht

theorem blockwise_append (f : σ → Bytes → BRes σ) (a b : List Bytes) (s : σ) :
    ∃ s', blockwise f s (a ++ b) = blockwise f s a ++ blockwise f s' b := by
  induction a generalizing s with
  | nil => exact ⟨s, rfl⟩
  | cons x a ih =>
    obtain ⟨s', h⟩ := ih (f s x).st
    exact ⟨s', by simp [blockwise, h]⟩

/-- C05: padded encryption then padded decryption is the identity, for every message and
every chunking on both sides, whenever the two block functions are inverse of each other
on sequences of blocks. -/
theorem C05_round_trip {cE : BlockCipher σ} {invE : σ → Prop} {fE : σ → Bytes → BRes σ} {sE : σ}
    {cD : BlockCipher τ} {invD : τ → Prop} {fD : τ → Bytes → BRes τ} {sD : τ}
    (hE : Implements cE invE fE) (hfE : Total fE) (hsE : invE sE)
    (hD : Implements cD invD fD) (hfD : Total fD) (hsD : invD sD)
    (hsize : cD.blocksize = cE.blocksize)
    (hinv : ∀ bs : List Bytes, (∀ b ∈ bs, b.length = cE.blocksize) →
      blockwise fD sD (blockwise fE sE bs) = bs)
    {p : PadScheme} (hp : LibraryPadding p cE.blocksize)
    (hm : max 256 (2 * cE.blocksize) ≤ env.maxLen)
    (ops₁ : List TOp) (hops₁ : ∀ op ∈ ops₁, op.Legal)
    (hfit : ((inputOf ops₁).length / cE.blocksize + 1) * cE.blocksize ≤ env.maxLen) :
    ∃ ct : Bytes,
      ((paddedEncrypt env p cE).total ops₁ (cipherInit env cE sE)).observe = some (.ok ct) ∧
      ct.length = ((inputOf ops₁).length / cE.blocksize + 1) * cE.blocksize ∧
      ∀ ops₂ : List TOp, (∀ op ∈ ops₂, op.Legal) → inputOf ops₂ = ct →
        ((paddedDecrypt env p cD).total ops₂ (cipherInit env cD sD)).observe
          = some (.ok (inputOf ops₁)) := by
  obtain ⟨pad, hpf⟩ : ∃ pad, LibraryPadding.fn pad p cE.blocksize := by
    rcases hp with ⟨h1, h2⟩ | h1
    · exact ⟨_, .inl ⟨h1, h2, rfl⟩⟩
    · exact ⟨_, .inr ⟨h1, rfl⟩⟩
  have hc := LibraryPadding.computes hE.pos hpf
  have hpl := padMessage_length hE.pos (pad := pad) (fun x hx => hc.pad_len hx) (inputOf ops₁)
  generalize hM : Spec.padMessage cE.blocksize pad (inputOf ops₁) = M at hpl
  have hd : cE.blocksize ∣ M.length := by rw [hpl]; exact Nat.dvd_mul_left _ _
  have hch := chunks_length_of_dvd hE.pos M hd
  have hlen : ((blockwise fE sE (chunks cE.blocksize M)).flatten).length = M.length := by
    rw [blockwise_length (f := fE) hE.out_len hE.inv_step _ sE hsE hch, chunks_flatten hE.pos]
  have henc := C05_padded_encrypt hE hfE hsE hpf hm ops₁ hops₁ hfit
  rw [hM] at henc
  refine ⟨_, henc, by rw [hlen, hpl], ?_⟩
  intro ops₂ hops₂ hin
  have hall : ∀ (bs : List Bytes) (s : σ), invE s → (∀ b ∈ bs, b.length = cE.blocksize) →
      ∀ b ∈ blockwise fE s bs, b.length = cE.blocksize := by
    intro bs
    induction bs with
    | nil => intro s _ _ b hb; simp [blockwise] at hb
    | cons x bs ih =>
      intro s hs hx b hb
      simp only [blockwise, List.mem_cons] at hb
      have h1 := hx x (by simp)
      rcases hb with rfl | hb
      · exact hE.out_len hs h1
      · exact ih _ (hE.inv_step hs h1) (fun b' hm => hx b' (by simp [hm])) b hb
  have hctl : (inputOf ops₂).length = M.length := by rw [hin, hlen]
  have hdec := C06_padded_decrypt (env := env) hD hfD hsD (p := p) (pad := pad)
    (by rw [hsize]; exact hpf) (by rw [hsize]; exact hm) ops₂ hops₂ (by rw [hctl, hpl]; exact hfit)
  simp only [hsize] at hdec
  have hd2 : (blockwise fD sD (chunks cE.blocksize (inputOf ops₂))).flatten = M := by
    rw [hin, chunks_of_flatten hE.pos _ (hall _ sE hsE hch), hinv _ hch, chunks_flatten hE.pos]
  rw [hd2] at hdec
  have hn := hE.pos
  have hml : 0 < M.length := by rw [hpl]; exact Nat.mul_pos (Nat.succ_pos _) hn
  have hne : inputOf ops₂ ≠ [] := by
    intro h0; rw [h0] at hctl; simp at hctl; omega
  have hk : M.length - cE.blocksize = (inputOf ops₁).length / cE.blocksize * cE.blocksize := by
    rw [hpl, Nat.add_mul, Nat.one_mul, Nat.add_sub_cancel]
  have hdm := Nat.div_add_mod (inputOf ops₁).length cE.blocksize
  have hml2 := Nat.mod_lt (inputOf ops₁).length hn
  rw [Nat.mul_comm] at hdm
  have hres := hdec.good hne (by rw [hctl]; exact hd) ((inputOf ops₁).drop ((inputOf ops₁).length / cE.blocksize * cE.blocksize))
    (by simp; omega) (by
      rw [hctl, hk, ← hM, Spec.padMessage, List.drop_append, List.drop_of_length_le (by simp; omega)]
      simp
      rw [show min ((inputOf ops₁).length / cE.blocksize * cE.blocksize) (inputOf ops₁).length
        = (inputOf ops₁).length / cE.blocksize * cE.blocksize by omega]
      simp)
  rw [hres, hctl, hk, ← hM, Spec.padMessage, List.take_append, List.take_of_length_le (by simp; omega)]
  simp only [List.length_take]
  rw [show (inputOf ops₁).length / cE.blocksize * cE.blocksize
      - min ((inputOf ops₁).length / cE.blocksize * cE.blocksize) (inputOf ops₁).length = 0 by omega]
  simp

/-! ### C68 for the padded transforms -/

theorem padEncFinish_stable {n : Nat} (hn : 0 < n) {f : σ → Bytes → BRes σ} {pad : Bytes → Bytes} :
    FlushStable n f (padEncFinish n f pad) := by
  intro p hp
  by_cases h0 : p.2.length = 0
  · have : blockFlush n f p = .ok [] p := by rw [blockFlush, if_pos h0]
    rw [this, SRes.andThen_ok_nil]
  · have hpn : p.2.length = n := by omega
    have hfl : blockFlush n f p = oneBlock f p.1 p.2 := by rw [blockFlush, if_neg h0, if_pos hpn]
    rw [hfl]
    conv => rhs; rw [padEncFinish, if_pos hpn]
    unfold oneBlock
    cases hexn : (f p.1 p.2).exn with
    | some e => simp only [hexn]; rfl
    | none =>
      simp only [hexn, SRes.andThen, padEncFinish]
      rw [if_neg (by simp; omega)]

/-- C68, padded encryption: flushing at block boundaries is neutral. -/
theorem C68_flush_neutral_padded_encrypt {c : BlockCipher σ} {inv : σ → Prop}
    {f : σ → Bytes → BRes σ} {s : σ}
    (h : Implements c inv f) (hf : Total f) (hs : inv s) {p : PadScheme} {pad : Bytes → Bytes}
    (hp : LibraryPadding.fn pad p c.blocksize)
    (hm : max 256 (2 * c.blocksize) ≤ env.maxLen)
    (ops : List FOp) (hops : ∀ op ∈ ops, op.Legal) (hal : FlushesAligned c.blocksize 0 ops)
    (hfit : ((finputOf ops).length / c.blocksize + 1) * c.blocksize ≤ env.maxLen) :
    ((paddedEncrypt env p c).totalF ops (cipherInit env c s)).observe
      = some (.ok (blockwise f s
          (chunks c.blocksize (Spec.padMessage c.blocksize pad (finputOf ops)))).flatten) := by
  have hc := LibraryPadding.computes h.pos hp
  have hpl := padMessage_length h.pos (pad := pad) (fun x hx => hc.pad_len hx) (finputOf ops)
  have ht := (paddedEncrypt_refines env h hc).totalF (padEncSpec_lawful h.pos f pad) ops
    (blockRep_init env (s := s) hs hm) hops
  obtain ⟨s', hrun⟩ := runBlocks_blockwise hf
    (chunks c.blocksize (Spec.padMessage c.blocksize pad (finputOf ops))) s
  have hmap := padEnc_run h.pos (f := f) (pad := pad) (fun x hx => hc.pad_len hx) (finputOf ops) s
  rw [hrun] at hmap
  obtain ⟨b, hb⟩ := SRes.map_ok hmap
  have h1 := blockSpec_runF h.pos (f := f) ops (s, []) 0 (by simp) hal
    (.inr (padEncFinish_stable h.pos (pad := pad))) (padEncSpec c.blocksize f pad) rfl rfl
  simp only [List.nil_append] at h1
  rw [hb] at h1
  have h2 : ((padEncSpec c.blocksize f pad).runF (s, []) ops).andThen
      (padEncSpec c.blocksize f pad).finish = _ := h1
  rw [h2] at ht
  have hd : c.blocksize ∣ (Spec.padMessage c.blocksize pad (finputOf ops)).length := by
    rw [hpl]; exact Nat.dvd_mul_left _ _
  obtain ⟨t', ht', _⟩ := ht (by
    rw [blockwise_length (f := f) h.out_len h.inv_step _ s hs
      (chunks_length_of_dvd h.pos _ hd), chunks_flatten h.pos, hpl]
    exact hfit)
  rw [ht']; rfl

/-- C68, padded decryption, partial: flushing at block boundaries is neutral (the outcome
is the one required of a history without flushes) provided some ciphertext follows each
flush. What is missing (a flush after the last block) is false: see
`C68_padded_decrypt_flush_then_finish_raises`. -/
theorem C68_flush_neutral_padded_decrypt_partial {c : BlockCipher σ} {inv : σ → Prop}
    {f : σ → Bytes → BRes σ} {s : σ}
    (h : Implements c inv f) (hf : Total f) (hs : inv s) {p : PadScheme} {pad : Bytes → Bytes}
    (hp : LibraryPadding.fn pad p c.blocksize)
    (hm : max 256 (2 * c.blocksize) ≤ env.maxLen)
    (ops : List FOp) (hops : ∀ op ∈ ops, op.Legal) (hal : FlushesAligned c.blocksize 0 ops)
    (hdata : DataAfterFlush ops) (hfit : (finputOf ops).length ≤ env.maxLen) :
    Spec.DecryptOutcome c.blocksize pad (finputOf ops)
      (blockwise f s (chunks c.blocksize (finputOf ops))).flatten
      ((paddedDecrypt env p c).totalF ops (cipherInit env c s)).observe := by
  have hc := LibraryPadding.computes h.pos hp
  have ht := (paddedDecrypt_refines env h hc).totalF (padDecSpec_lawful h.pos f p.strip) ops
    (blockRep_init env (s := s) hs hm) hops
  have h1 := blockSpec_runF h.pos (f := f) (fin := padDecFinish c.blocksize f p.strip)
    ops (s, []) 0 (by simp) hal (.inl hdata) (padDecSpec c.blocksize f p.strip) rfl rfl
  simp only [List.nil_append] at h1
  have h2 : ((padDecSpec c.blocksize f p.strip).runF (s, []) ops).andThen
      (padDecSpec c.blocksize f p.strip).finish = _ := h1
  rw [h2] at ht
  refine decryptOutcome_of_run h hf hs hc _ hfit _ ?_
  generalize (lazyBlocks c.blocksize f s (finputOf ops)).andThen
    (padDecFinish c.blocksize f p.strip) = r at ht ⊢
  cases r with
  | ok out s' => exact fun hl => (ht hl).imp fun _ x => x.1
  | err out e => exact ht

theorem XSpec.runF_append {ρ : Type} (S : XSpec ρ) (a b : List FOp) (s : ρ) :
    S.runF s (a ++ b) = (S.runF s a).andThen (fun s' => S.runF s' b) := by
  induction a generalizing s with
  | nil => simp [XSpec.runF]
  | cons op a ih =>
    cases op <;> (simp only [List.cons_append, XSpec.runF, SRes.andThen_assoc]; congr 1; funext s'; exact ih s')

theorem aligned_calls (n : Nat) (ops : List TOp) (k : Nat) :
    FlushesAligned n k (ops.map .call) := by
  induction ops generalizing k with
  | nil => trivial
  | cons op ops ih => exact ih _

theorem finputOf_calls (ops : List TOp) : finputOf (ops.map .call) = inputOf ops := by
  simp [finputOf, inputOf, FOp.input, Function.comp_def]

/-- C68 is false of padded decryption: whatever the cipher and the (complete) ciphertext,
`flush` after the last block followed by `finish` raises `Wrong_data_length`. -/
theorem C68_padded_decrypt_flush_then_finish_raises {c : BlockCipher σ} {inv : σ → Prop}
    {f : σ → Bytes → BRes σ} {s : σ}
    (h : Implements c inv f) (hf : Total f) (hs : inv s) {p : PadScheme} {pad : Bytes → Bytes}
    (hp : LibraryPadding.fn pad p c.blocksize)
    (hm : max 256 (2 * c.blocksize) ≤ env.maxLen)
    (ops : List TOp) (hops : ∀ op ∈ ops, op.Legal) (hd : c.blocksize ∣ (inputOf ops).length)
    (hfit : (inputOf ops).length ≤ env.maxLen) :
    ((paddedDecrypt env p c).totalF (ops.map .call ++ [.flush]) (cipherInit env c s)).observe
      = some (.error (.error .wrongDataLength)) := by
  have hc := LibraryPadding.computes h.pos hp
  have ht := (paddedDecrypt_refines env h hc).totalF (padDecSpec_lawful h.pos f p.strip)
    (ops.map .call ++ [.flush])
    (blockRep_init env (s := s) hs hm) (by
      intro op hmem
      simp only [List.mem_append, List.mem_map, List.mem_singleton] at hmem
      rcases hmem with ⟨o, ho, rfl⟩ | rfl
      · exact hops o ho
      · trivial)
  obtain ⟨s', hrun⟩ := runBlocks_blockwise hf (chunks c.blocksize (inputOf ops)) s
  have h1 := blockSpec_runF h.pos (f := f) (fin := blockFlush c.blocksize f)
    (ops.map .call) (s, []) 0 (by simp) (aligned_calls _ _ _) (.inr blockFlush_stable)
    (padDecSpec c.blocksize f p.strip) rfl rfl
  simp only [List.nil_append] at h1
  rw [finputOf_calls, lazy_flush_dvd h.pos _ _ hd, hrun] at h1
  have h2 : ((padDecSpec c.blocksize f p.strip).runF (s, []) (ops.map .call ++ [.flush])).andThen
      (padDecSpec c.blocksize f p.strip).finish
      = .err (blockwise f s (chunks c.blocksize (inputOf ops))).flatten (.error .wrongDataLength) := by
    rw [XSpec.runF_append]
    have h3 : ∀ s', (padDecSpec c.blocksize f p.strip).runF s' [.flush] = blockFlush c.blocksize f s' := by
      intro s'; simp only [XSpec.runF]; exact SRes.andThen_ok_id _
    simp only [h3]
    rw [h1]
    simp only [SRes.andThen, padDecSpec, padDecFinish]
    have := h.pos
    rw [if_neg (by simp; omega)]
    simp
  rw [h2] at ht
  obtain ⟨t', ht'⟩ := ht (by
    rw [blockwise_length (f := f) h.out_len h.inv_step _ s hs
      (chunks_length_of_dvd h.pos _ hd), chunks_flatten h.pos]
    exact hfit)
  rw [ht']; rfl

/-! ### Non-vacuity -/

section
open Example

/-- The toy cipher pair meets the hypotheses of `C05_round_trip`. -/
example (bs : List Bytes) (hb : ∀ b ∈ bs, b.length = 4) :
    blockwise (fun (s : Bytes) b => (⟨toyD key b, s, none⟩ : BRes Bytes)) key
      (blockwise (fun (s : Bytes) b => (⟨toyE key b, s, none⟩ : BRes Bytes)) key bs) = bs := by
  induction bs with
  | nil => rfl
  | cons b bs ih =>
    simp only [blockwise, toy_inverse b (hb b (by simp))]
    rw [ih (fun b' h => hb b' (by simp [h]))]

example : LibraryPadding Padding.length toyEnc.blocksize := .inl ⟨rfl, by decide⟩
example : LibraryPadding Padding._8000 toyEnc.blocksize := .inr rfl

/-- a concrete padded encryption: 8 bytes give three blocks, the last one all padding -/
example : ((paddedEncrypt env64 Padding.length toyEnc).total ops
    (cipherInit env64 toyEnc key)).observe
    = some (.ok (toyE key [1, 2, 3, 4] ++ toyE key [5, 6, 7, 8] ++ toyE key [4, 4, 4, 4])) := by
  have := C05_padded_encrypt (env := env64) toyEnc_pure (fun _ _ => rfl) rfl
    (p := Padding.length) (pad := Spec.padLength 4) (.inl ⟨rfl, by decide, rfl⟩) (by decide) ops
    ops_legal (by rw [ops_input]; decide)
  rw [this, ops_input, show toyEnc.blocksize = 4 from rfl]
  simp [chunks, blockwise, Spec.padMessage, Spec.padLength, List.replicate]

/-- a concrete witness that C68 fails for padded decryption: without the flush the same
ciphertext decrypts -/
example :
    ((paddedDecrypt env64 Padding.length toyDec).total [.putString (toyE key [7, 3, 3, 3])]
      (cipherInit env64 toyDec key)).observe = some (.ok [7]) ∧
    ((paddedDecrypt env64 Padding.length toyDec).totalF
      [.call (.putString (toyE key [7, 3, 3, 3])), .flush]
      (cipherInit env64 toyDec key)).observe = some (.error (.error .wrongDataLength)) := by
  constructor
  · have := (C06_padded_decrypt (env := env64) toyDec_pure (fun _ _ => rfl) rfl
      (p := Padding.length) (pad := Spec.padLength 4) (.inl ⟨rfl, by decide, rfl⟩) (by decide)
      [.putString (toyE key [7, 3, 3, 3])] (by simp [TOp.Legal]) (by decide)).good
      (by decide) (by decide) [7] (by decide)
    rw [this]
    · rfl
    · simp [inputOf, TOp.input, show toyDec.blocksize = 4 from rfl, toyE, key, chunks, blockwise, toyD,
        Spec.padLength, List.replicate]
  · exact C68_padded_decrypt_flush_then_finish_raises (env := env64) toyDec_pure (fun _ _ => rfl) rfl
      (p := Padding.length) (pad := Spec.padLength 4) (.inl ⟨rfl, by decide, rfl⟩) (by decide)
      [.putString (toyE key [7, 3, 3, 3])] (by simp [TOp.Legal]) (by decide) (by decide)
end

end Verif
