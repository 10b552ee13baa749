import Verif.Proof.BlockRun
import Verif.Props.Example
/-
C02 Block-cipher transforms do not depend on how input is cut.
C03 Wrong_data_length is raised exactly on incomplete blocks.
C68 Flushing does not change what a transform means.

`Implements c inv f` (Spec/Cipher) says that the block-cipher object `c` computes the
block function `f`; `Total f` that `f` never raises. Histories, their input and
`Transform.total` are in Spec/History; `blockwise f s` applies `f` to successive blocks.
-/
namespace Verif

variable {σ : Type} {env : Env} {c : BlockCipher σ} {inv : σ → Prop} {f : σ → Bytes → BRes σ}
  {s : σ}

theorem block_out_length (h : Implements c inv f) (hs : inv s) (m : Bytes)
    (hd : c.blocksize ∣ m.length) :
    (blockwise f s (chunks c.blocksize m)).flatten.length = m.length := by
  rw [blockwise_length (f := f) h.out_len h.inv_step _ s hs (chunks_length_of_dvd h.pos m hd),
    chunks_flatten h.pos]

/-- C02, and the positive half of C03: whatever the history of put and get calls, the
output is the block function applied to the successive blocks of the input. -/
theorem C02_output_is_blockwise (h : Implements c inv f) (hf : Total f) (hs : inv s)
    (hm : max 256 (2 * c.blocksize) ≤ env.maxLen)
    (ops : List TOp) (hops : ∀ op ∈ ops, op.Legal)
    (hd : c.blocksize ∣ (inputOf ops).length) (hfit : (inputOf ops).length ≤ env.maxLen) :
    ((blockTransform env c).total ops (cipherInit env c s)).observe
      = some (.ok (blockwise f s (chunks c.blocksize (inputOf ops))).flatten) := by
  obtain ⟨s', hrun⟩ := runBlocks_blockwise hf (chunks c.blocksize (inputOf ops)) s
  obtain ⟨t', h1, _⟩ := blockTransform_total_dvd h hs hm ops hops hd hrun
    (by rw [block_out_length h hs _ hd]; exact hfit)
  rw [h1]; rfl

/-- C02: two histories with the same input have the same observable result (output, or
exception), also when the block function raises or the input is incomplete. `houtput`
bounds the output one of them would produce by the maximal string length. -/
theorem C02_cut_irrelevant (h : Implements c inv f) (hs : inv s)
    (hm : max 256 (2 * c.blocksize) ≤ env.maxLen)
    (ops₁ ops₂ : List TOp) (h₁ : ∀ op ∈ ops₁, op.Legal) (h₂ : ∀ op ∈ ops₂, op.Legal)
    (hin : inputOf ops₁ = inputOf ops₂) (hfit : (inputOf ops₁).length ≤ env.maxLen) :
    ((blockTransform env c).total ops₁ (cipherInit env c s)).observe
      = ((blockTransform env c).total ops₂ (cipherInit env c s)).observe := by
  have t1 := blockTransform_total (env := env) h hs hm ops₁ h₁
  have t2 := blockTransform_total (env := env) h hs hm ops₂ h₂
  rw [← hin] at t2
  have hlen := lazyFlush_out_le h hs (inputOf ops₁)
  cases hr : (lazyBlocks c.blocksize f s (inputOf ops₁)).andThen (blockFlush c.blocksize f) with
  | ok out s' =>
    rw [hr] at t1 t2 hlen
    simp only at hlen
    obtain ⟨x, hx, _⟩ := t1 (by omega)
    obtain ⟨y, hy, _⟩ := t2 (by omega)
    rw [hx, hy]; rfl
  | err out e =>
    rw [hr] at t1 t2 hlen
    simp only at hlen
    obtain ⟨x, hx⟩ := t1 (by omega)
    obtain ⟨y, hy⟩ := t2 (by omega)
    rw [hx, hy]; rfl

/-- C03, `finish`. -/
theorem C03_finish_wrong_data_length_iff (h : Implements c inv f) (hf : Total f) (hs : inv s)
    (hm : max 256 (2 * c.blocksize) ≤ env.maxLen)
    (ops : List TOp) (hops : ∀ op ∈ ops, op.Legal) (hfit : (inputOf ops).length ≤ env.maxLen) :
    ((blockTransform env c).total ops (cipherInit env c s)).observe
      = some (if c.blocksize ∣ (inputOf ops).length
          then .ok (blockwise f s (chunks c.blocksize (inputOf ops))).flatten
          else .error (.error .wrongDataLength)) := by
  split
  · rename_i hd
    exact C02_output_is_blockwise h hf hs hm ops hops hd hfit
  · rename_i hd
    obtain ⟨o, ho, hr⟩ := lazy_flush_ndvd h.pos hf h.out_len h.inv_step (inputOf ops) s hs hd
    have := blockTransform_total (env := env) h hs hm ops hops
    rw [hr] at this
    obtain ⟨t', ht'⟩ := this (by omega)
    rw [ht']; rfl

/-- C03, `flush`: the history, then `flush`, then reading the output. -/
theorem C03_flush_wrong_data_length_iff (h : Implements c inv f) (hf : Total f) (hs : inv s)
    (hm : max 256 (2 * c.blocksize) ≤ env.maxLen)
    (ops : List TOp) (hops : ∀ op ∈ ops, op.Legal) (hfit : (inputOf ops).length ≤ env.maxLen) :
    ((do let x ← (blockTransform env c).calls ops
         (blockTransform env c).flush
         let y ← (blockTransform env c).getString
         pure (x ++ y) : M (CipherSt σ) Bytes) (cipherInit env c s)).observe
      = some (if c.blocksize ∣ (inputOf ops).length
          then .ok (blockwise f s (chunks c.blocksize (inputOf ops))).flatten
          else .error (.error .wrongDataLength)) :=
  C03_finish_wrong_data_length_iff h hf hs hm ops hops hfit

/-- C68: flushes at block boundaries do not change the total output. -/
theorem C68_flush_neutral (h : Implements c inv f) (hf : Total f) (hs : inv s)
    (hm : max 256 (2 * c.blocksize) ≤ env.maxLen)
    (ops : List FOp) (hops : ∀ op ∈ ops, op.Legal) (hal : FlushesAligned c.blocksize 0 ops)
    (hd : c.blocksize ∣ (finputOf ops).length) (hfit : (finputOf ops).length ≤ env.maxLen) :
    ((blockTransform env c).totalF ops (cipherInit env c s)).observe
      = some (.ok (blockwise f s (chunks c.blocksize (finputOf ops))).flatten) := by
  have ht := (blockTransform_refines env h).totalF (blockSpec_lawful h.pos f) ops
    (blockRep_init env (s := s) hs hm) hops
  obtain ⟨s', hrun⟩ := runBlocks_blockwise hf (chunks c.blocksize (finputOf ops)) s
  have h1 := blockSpec_runF h.pos (f := f) ops (s, []) 0 (by simp) hal (.inr blockFlush_stable)
    (blockSpec c.blocksize f) rfl rfl
  simp only [List.nil_append] at h1
  rw [lazy_flush_dvd h.pos _ _ hd, hrun] at h1
  have h2 : ((blockSpec c.blocksize f).runF (s, []) ops).andThen (blockSpec c.blocksize f).finish
      = _ := h1
  rw [h2] at ht
  obtain ⟨t', ht', _⟩ := ht (by rw [block_out_length h hs _ hd]; exact hfit)
  rw [ht']; rfl

/-! ### Non-vacuity -/

open Example in
/-- the hypotheses hold of a concrete cipher and history, and the result is as expected -/
example : ((blockTransform env64 toyEnc).total ops (cipherInit env64 toyEnc key)).observe
    = some (.ok (toyE key [1, 2, 3, 4] ++ toyE key [5, 6, 7, 8])) := by
  have := C02_output_is_blockwise (env := env64) toyEnc_pure (fun _ _ => rfl) rfl (by decide) ops
    ops_legal (by rw [ops_input]; decide) (by rw [ops_input]; decide)
  rw [this, ops_input, show toyEnc.blocksize = 4 from rfl]
  simp [chunks, blockwise]

open Example in
example : ((blockTransform env64 toyEnc).total [.putString [1, 2, 3, 4, 5]]
    (cipherInit env64 toyEnc key)).observe = some (.error (.error .wrongDataLength)) := by
  have := C03_finish_wrong_data_length_iff (env := env64) toyEnc_pure (fun _ _ => rfl) rfl
    (by decide) [.putString [1, 2, 3, 4, 5]] (by simp [TOp.Legal]) (by decide)
  rw [this, if_neg (by decide)]

open Example in
example : FlushesAligned toyEnc.blocksize 0
    [.call (.putString [1, 2, 3]), .call (.putChar 4), .flush, .call (.putString [5, 6, 7, 8]),
     .flush, .flush] := by
  simp [FlushesAligned, TOp.input, show toyEnc.blocksize = 4 from rfl]

end Verif
