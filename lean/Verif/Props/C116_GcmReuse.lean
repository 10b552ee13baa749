import Verif.Props.C115_InterruptAead
/-
C116 for AES-GCM: the counter blocks are used again after an interruption.
-/
namespace Verif

open Spec Cipher

/-! ### The carry of the counter is lost -/

/-- Feed up to `n` blocks of zeroes one at a time, until a call raises an exception: what was read after each
call, behind `l`, and the transform. -/
def Example.feedA (A : AEAD.AnyAuth) : Nat → List Bytes → A.τ → List Bytes × Option A.τ
  | 0, l, t => (l, some t)
  | n + 1, l, t =>
    match A.T.base.putString (List.replicate 16 0) t with
    | .ok () t =>
      match A.T.base.getString t with
      | .ok o t => feedA A n (l ++ [o]) t
      | _ => (l, none)
    | .exn _ t => (l, some t)
    | _ => (l, none)

/-- `AEAD.aes_gcm` with a fixed key and IV, without header. -/
def Example.gcmAt (sched : Sched) : Option (Except Exn AEAD.AnyAuth) :=
  AEAD.aesGcmI Example.env64 (.table (List.replicate 61 0)) true none (List.replicate 12 1) Example.aesKey
    .encrypt sched

/-- The run of `C116_gcm_reuse`. -/
def Example.gcmReuse : Bool :=
  match Example.gcmAt (Example.breakAt 5854), Example.gcmAt [] with
  | some (.ok A), some (.ok B) =>
    match Example.feedA A 1000 [] A.t with
    | (l, some t) =>
      match Example.feedA A 2 [] t, B.T.finishAndGetTag B.t with
      | ([b0, b1], some _), .ok tag _ =>
        decide (l.length = 255 ∧ b1.length = 16 ∧ l[1]? = some b1 ∧ b0 = tag)
      | _, _ => false
    | _ => false
  | _, _ => false

set_option maxRecDepth 4000 in
theorem Example.gcmReuse_true : Example.gcmReuse = true := by decide +kernel

/-- C116 is false of AES-GCM: blocks of zeroes are encrypted one by one; a signal arrives during the 256th
call, while the carry of the counter is being propagated, and its handler raises an exception. The
program goes on. The next block `b0` is masked with the mask of the tag: it is the tag of the empty message,
with the same key and IV, and shows the mask to whoever knows the message. The block after it is encrypted
exactly as the first one was (a block is encrypted when more data comes, so the first one is read after the
second call). -/
theorem C116_gcm_reuse : ∃ (A B : AEAD.AnyAuth) (t t' : A.τ) (u : B.τ) (l : List Bytes) (b0 b1 : Bytes),
    Example.gcmAt (Example.breakAt 5854) = some (.ok A) ∧ Example.gcmAt [] = some (.ok B) ∧
    Example.feedA A 1000 [] A.t = (l, some t) ∧ l.length = 255 ∧
    Example.feedA A 2 [] t = ([b0, b1], some t') ∧ b1.length = 16 ∧ l[1]? = some b1 ∧
    B.T.finishAndGetTag B.t = .ok b0 u := by
  have h := Example.gcmReuse_true
  unfold Example.gcmReuse at h
  split at h
  · next A B hA hB =>
    split at h
    · next l t hf =>
      split at h
      · next b0 b1 t' tag u hg ht =>
        have := of_decide_eq_true h
        obtain ⟨h1, h2, h3, rfl⟩ := this
        exact ⟨A, B, t, t', u, l, b0, b1, hA, hB, hf, h1, hg, h2, h3, ht⟩
      · cases h
    · cases h
  · cases h

end Verif
