import Verif.Proof.InterruptGcm
import Verif.Proof.GcmAuth
import Verif.Props.C115_InterruptAead
import Verif.Props.C116_InterruptCtr
import Verif.Props.C67_Cipher
/-
C116 for AES-GCM, which calls the same `increment_counter`. There a counter block used twice reveals not
only messages but also the mask of the tag.
-/
namespace Verif

open Spec Cipher

/-- The block transformation inside the object of `AEAD.aes_gcm` (`enc_wrapped` or `dec_wrapped`). -/
def Spec.gcmBlocks [Ticking κ] (aes : BlockCipher κ) : Dir → BlockCipher (GcmSt κ)
  | .encrypt => gcmEncWrappedI aes
  | .decrypt => gcmDecWrappedI aes

/-- C116 for AES-GCM, in part: over any history of blocks, interrupted at any points but not when the last
byte of the counter is 0xFF, no two blocks are masked with the encryption of the same counter block,
and none with the mask `e0` of the tag, for up to 2^32 - 1 blocks, completed or not. (The mask of
the tag counts here as the ciphertext of a block of zeroes.) Missing: a block interrupted while a carry is
due (`C116_gcm_reuse`). -/
theorem C116_gcm_partial {κ : Type} {aes : BlockCipher κ} {k : κ} {E : Bytes → Bytes} {env : Env}
    (h : PureCipher aes k E) (hb : aes.blocksize = 16) {pclmul : Bool} {header iv : Bytes} {sched : Sched}
    {dir : Dir} {t : CipherSt (GcmSt (Sched × κ))} {s' : Sched × κ}
    (hi : aesGcmInit env pclmul aes.atomic (sched, k) header iv = .ok t s')
    {blocks : List (Bytes × Bytes)} {n : Nat}
    (hc : Calls (Spec.gcmBlocks aes.atomic dir) (fun st => st.ctr.getLast? ≠ some 0xFF) t.c blocks n)
    (hn : n < 2 ^ 32) : DistinctMasks E 16 ((List.replicate 16 0, t.c.e0) :: blocks) := by
  obtain ⟨s, e1, hinv, e2, e3, -⟩ := gcmInit_ok env pclmul (atomic_pure h sched) hb header iv
  unfold aesGcmInit at hi
  rw [e1] at hi
  cases hi
  change Calls _ _ s blocks n at hc
  change DistinctMasks E 16 ((_, s.e0) :: blocks)
  have hJ : (GCM.J0 E iv).length = 16 := by rw [← e2]; exact hinv.ctr
  have hz := counterBlock_zero (GCM.J0 E iv) 4 (by rw [hJ]; decide)
  have hw : GcmCall (Spec.gcmBlocks aes.atomic dir) k E := by
    cases dir with
    | encrypt => exact gcmEncI_call h hb
    | decrypt => exact gcmDecI_call h hb
  obtain ⟨is, p1, p2, p3, p4⟩ := gcmI_calls h hb hw hJ hc 0
    ⟨congrArg Prod.snd hinv.aes, hinv.buf, hinv.mac⟩ (e2.trans hz.symm)
  have hl : ∀ i, (counterBlock (GCM.J0 E iv) 4 i).length = 16 := fun i => by
    rw [counterBlock_length _ _ _ (by omega), hJ]
  refine ⟨(0 :: is).map (counterBlock (GCM.J0 E iv) 4), ?_, by simp [p3], ?_⟩
  · rw [List.Nodup, List.pairwise_map]
    have hp : (0 :: is).Pairwise (· < ·) :=
      List.pairwise_cons.2 ⟨fun i hi => by have := p2 i hi; omega, p1⟩
    have hr : ∀ i ∈ 0 :: is, i < 2 ^ 32 := by
      intro i hi
      rcases List.mem_cons.1 hi with rfl | hi
      · decide
      · have := p2 i hi; omega
    refine hp.imp_of_mem ?_
    intro i j hi hj hij he
    have := counterBlock_inj (m := 4) (hr i hi) (hr j hj) he
    omega
  · intro p x hp
    rw [List.map_cons, List.zip_cons_cons] at hp
    rcases List.mem_cons.1 hp with hp | hp
    · cases hp
      refine ⟨hl 0, ?_⟩
      simp only
      rw [hz, e3]
      rw [xorb_comm, xorb_zeros (pure_len h hb hJ)]
    · rw [List.zip_map_right, List.mem_map] at hp
      obtain ⟨⟨p', i⟩, hm, he⟩ := hp
      cases he
      exact ⟨hl i, p4 _ _ hm⟩

/-! ### Non-vacuity -/

/-- Four calls on the blocks of AES-GCM, one of which is interrupted. -/
def Example.gcmHistory : Option (List (Bytes × Bytes)) :=
  match Cipher.aesBlock (.table (List.replicate 61 0)) .encrypt Example.aesKey with
  | some (.ok b) =>
    match aesGcmInit Example.env64 false b.c.atomic (Example.breakAt 20, b.s) [] (List.replicate 12 1) with
    | .ok t _ =>
      Example.history (Spec.gcmBlocks b.c.atomic .encrypt) (fun st => decide (st.ctr.getLast? ≠ some 0xFF))
        (List.replicate 16 7) 4 t.c
    | _ => none
  | _ => none

/-- The hypotheses of `C116_gcm_partial` are met with AES by a history of four calls, the third of which is
interrupted. -/
example : ∃ b t s' blocks, Cipher.aesBlock (.table (List.replicate 61 0)) .encrypt Example.aesKey = some (.ok b) ∧
    aesGcmInit Example.env64 false b.c.atomic (Example.breakAt 20, b.s) [] (List.replicate 12 1) = .ok t s' ∧
    Calls (Spec.gcmBlocks b.c.atomic .encrypt) (fun st => st.ctr.getLast? ≠ some 0xFF) t.c blocks 4 ∧
    blocks.length = 3 ∧
    DistinctMasks (Spec.Aes.encrypt Example.aesKey) 16 ((List.replicate 16 0, t.c.e0) :: blocks) := by
  have h : Example.gcmHistory.map List.length = some 3 := by decide +kernel
  rw [Option.map_eq_some_iff] at h
  obtain ⟨l, h1, h2⟩ := h
  unfold Example.gcmHistory at h1
  split at h1
  · next b hb =>
    split at h1
    · next t s' ht =>
      have hc := Example.history_calls (by rfl) h1
      simp only [decide_eq_true_eq] at hc
      obtain ⟨b', hb', hn, hp⟩ := aesBlock_enc (key := Example.aesKey) (.table (List.replicate 61 0)) (.inl (by decide))
      rw [hb] at hb'
      cases hb'
      exact ⟨b, t, s', l, hb, ht, hc, h2, C116_gcm_partial hp hn ht hc (by decide)⟩
    · cases h1
  · cases h1

end Verif
