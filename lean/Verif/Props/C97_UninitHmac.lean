import Verif.Props.C97_UninitHash
import Verif.Model.Md5
/-
C97 for HMAC: the hash objects created along the way have contexts of their own, all with unknown contents.
-/
namespace Verif

open Spec

variable {τ : Type}

/-- `new hmac key`, on the object `s` created by `new H.h`. -/
def Spec.hmacObject (h : HashObj τ) (blocksize : Nat) (fresh : Nat → τ) (key : Bytes) (s : τ) :
    Option (Except Exn AnyHash) :=
  match hmacNew h blocksize fresh key s with
  | .ok _ t => some (.ok ⟨hmac h blocksize fresh key, t⟩)
  | .exn e _ => some (.error e)
  | .ub => none
  | .loop => none

theorem isolate_sim {σ σ' τ' α : Type} {Q : α → τ → τ' → Prop} {E : τ → τ' → Prop} {L : σ → σ' → Prop} {m : M τ α}
    {m' : M τ' α} {t : τ} {t' : τ'} {s : σ} {s' : σ'} (h : Sim Q E (m t) (m' t')) (hs : L s s') :
    Sim (fun _ => L) L (M.isolate t m s) (M.isolate t' m' s') := by
  unfold M.isolate
  cases h1 : m t <;> cases h2 : m' t' <;> rw [h1, h2] at h <;> first
    | exact h.elim
    | exact ⟨h.1, hs⟩
    | trivial

section
variable {h : HashObj τ} {L : τ → τ → Prop} {fresh fresh' : Nat → τ} {n : Nat} {key : Bytes}

theorem hmacPad_keep (hadd : ∀ op, Keep L (h.call op) (h.call op)) (hres : Keep L h.result h.result)
    (hw : ∀ t, ∃ t', h.wipe t = .ok () t') {f f' : τ} (hf : L f f') (b : Byte) :
    Keep L (hmacPad h n f key b) (hmacPad h n f' key b) := by
  intro t t' ht
  unfold hmacPad
  have tail : ∀ key : Bytes, ∀ t t', L t t' →
      Sim (fun _ => L) L ((M.orUB (xorC (.other key) 0 (List.replicate n b) 0 key.length) : M τ Bytes) t)
        ((M.orUB (xorC (.other key) 0 (List.replicate n b) 0 key.length) : M τ Bytes) t') := by
    intro key t t' ht
    cases xorC (.other key) 0 (List.replicate n b) 0 key.length with
    | none => trivial
    | some x => exact ⟨rfl, ht⟩
  by_cases hk : key.length > n
  · simp only [if_pos hk]
    refine Sim.bind (isolate_sim (Q := fun _ _ _ => True) (E := L) ?_ ht) fun k t t' ht => tail k t t' ht
    refine Sim.bind (hadd (.addString key) f f' hf) fun _ t t' ht => ?_
    refine Sim.bind (hres t t' ht) fun r t t' _ => ?_
    obtain ⟨u, e⟩ := hw t
    obtain ⟨u', e'⟩ := hw t'
    rw [M.bind_ok e, M.bind_ok e']
    exact ⟨rfl, trivial⟩
  · simp only [if_neg hk]
    exact tail key t t' ht

theorem hmac_same (hadd : ∀ op, Keep L (h.call op) (h.call op)) (hres : Keep L h.result h.result)
    (hw : ∀ t, ∃ t', h.wipe t = .ok () t') (hf : ∀ i, L (fresh i) (fresh' i)) {s s' : τ} (hs : L s s') :
    SameResult SameHash (hmacObject h n fresh key s) (hmacObject h n fresh' key s') := by
  have h0 : Keep L (hmacNew h n fresh key) (hmacNew h n fresh' key) := fun t t' ht =>
    Sim.bind (hmacPad_keep hadd hres hw (hf 0) _ t t' ht) fun b t t' ht => hadd (.addSubstring b 0 b.length) t t' ht
  have hk : ∀ x, Keep L (performHash (hmac h n fresh key) x) (performHash (hmac h n fresh' key) x) := by
    intro x
    cases x with
    | add op =>
      refine Keep.unit ?_
      have := hadd op
      cases op <;> exact this
    | result =>
      intro t t' ht
      refine Sim.bind (hmacPad_keep hadd hres hw (hf 1) _ t t' ht) fun b t t' ht => ?_
      refine Sim.bind (hres t t' ht) fun r t t' ht => isolate_sim (Q := fun _ _ _ => True) (E := L) ?_ ht
      refine Sim.bind (hadd (.addSubstring b 0 b.length) _ _ (hf 2)) fun _ t t' ht => ?_
      refine Sim.bind (hadd (.addString r) t t' ht) fun _ t t' ht => ?_
      refine Sim.bind (hres t t' ht) fun r t t' _ => ?_
      obtain ⟨u, e⟩ := hw t
      obtain ⟨u', e'⟩ := hw t'
      rw [M.bind_ok e, M.bind_ok e']
      exact ⟨rfl, trivial⟩
  have h1 := h0 s s' hs
  unfold hmacObject
  cases e1 : hmacNew h n fresh key s <;> cases e2 : hmacNew h n fresh' key s' <;> rw [e1, e2] at h1 <;> first
    | exact h1.elim
    | exact h1.1
    | exact fun cs => traceBy_keep hk cs h1.2
    | trivial

theorem add_of_perform {op : HOp} (hp : Keep L (performHash h (.add op)) (performHash h (.add op))) :
    Keep L (h.call op) (h.call op) := by
  intro t t' ht
  have a := hp t t' ht
  simp only [performHash, M.bind_def] at a
  cases h1 : h.call op t <;> cases h2 : h.call op t' <;> rw [h1, h2] at a <;> first
    | exact a
    | exact ⟨rfl, a.2⟩

theorem hmac_same' (hp : ∀ x, Keep L (performHash h x) (performHash h x))
    (hw : ∀ t, ∃ t', h.wipe t = .ok () t') (hf : ∀ i, L (fresh i) (fresh' i)) {s s' : τ} (hs : L s s') :
    SameResult SameHash (hmacObject h n fresh key s) (hmacObject h n fresh' key s') :=
  hmac_same (fun op => add_of_perform (hp (.add op))) (hp .result) hw hf hs

end

section
variable (key : Bytes) {junk junk' : Nat → Bytes}

/-- C97, `MAC.hmac_sha1`: four hash objects at most, whose buffers hold anything. -/
theorem C97_hmac_sha1 (h : ∀ i, (junk i).length = 64) (h' : ∀ i, (junk' i).length = 64) :
    SameResult SameHash (hmacObject sha1 64 (fun i => sha1Init (junk i)) key (sha1Init (junk 3)))
      (hmacObject sha1 64 (fun i => sha1Init (junk' i)) key (sha1Init (junk' 3))) := by
  have hi : ∀ i, SameSha1 (sha1Init (junk i)) (sha1Init (junk' i)) := fun i => ⟨sameCtx_init _ (h i) (h' i), rfl, rfl⟩
  exact hmac_same' sha1_keep (fun t => ⟨_, rfl⟩) hi (hi 3)

/-- C97, `MAC.hmac_ripemd160`. -/
theorem C97_hmac_ripemd160 (h : ∀ i, (junk i).length = 64) (h' : ∀ i, (junk' i).length = 64) :
    SameResult SameHash (hmacObject ripemd160 64 (fun i => rmdInit (junk i)) key (rmdInit (junk 3)))
      (hmacObject ripemd160 64 (fun i => rmdInit (junk' i)) key (rmdInit (junk' 3))) := by
  have hi : ∀ i, SameSha1 (rmdInit (junk i)) (rmdInit (junk' i)) := fun i => ⟨sameCtx_init _ (h i) (h' i), rfl, rfl⟩
  exact hmac_same' ripemd_keep (fun t => ⟨_, rfl⟩) hi (hi 3)

/-- C97, `MAC.hmac_sha256`. -/
theorem C97_hmac_sha256 (h : ∀ i, (junk i).length = 64) (h' : ∀ i, (junk' i).length = 64) :
    SameResult SameHash (hmacObject sha256 64 (fun i => sha256Init (junk i)) key (sha256Init (junk 3)))
      (hmacObject sha256 64 (fun i => sha256Init (junk' i)) key (sha256Init (junk' 3))) := by
  have hi : ∀ i, SameSha2 (16 * sha256Code.wordBytes) (sha256Init (junk i)) (sha256Init (junk' i)) := fun i =>
    ⟨sameCtx_init (n := 64) _ (h i) (h' i), rfl, rfl⟩
  exact hmac_same' (sha2_keep (p := sha256Code) (by decide)) (fun t => ⟨_, rfl⟩) hi (hi 3)

/-- C97, `MAC.hmac_sha384`. -/
theorem C97_hmac_sha384 (h : ∀ i, (junk i).length = 128) (h' : ∀ i, (junk' i).length = 128) :
    SameResult SameHash (hmacObject sha384 128 (fun i => sha384Init (junk i)) key (sha384Init (junk 3)))
      (hmacObject sha384 128 (fun i => sha384Init (junk' i)) key (sha384Init (junk' 3))) := by
  have hi : ∀ i, SameSha2 (16 * sha512Code.wordBytes) (sha384Init (junk i)) (sha384Init (junk' i)) := fun i =>
    ⟨sameCtx_init (n := 128) _ (h i) (h' i), rfl, rfl⟩
  exact hmac_same' (sha2_keep (p := sha512Code) (by decide)) (fun t => ⟨_, rfl⟩) hi (hi 3)

/-- C97, `MAC.hmac_sha512`. -/
theorem C97_hmac_sha512 (h : ∀ i, (junk i).length = 128) (h' : ∀ i, (junk' i).length = 128) :
    SameResult SameHash (hmacObject sha512 128 (fun i => sha512Init (junk i)) key (sha512Init (junk 3)))
      (hmacObject sha512 128 (fun i => sha512Init (junk' i)) key (sha512Init (junk' 3))) := by
  have hi : ∀ i, SameSha2 (16 * sha512Code.wordBytes) (sha512Init (junk i)) (sha512Init (junk' i)) := fun i =>
    ⟨sameCtx_init (n := 128) _ (h i) (h' i), rfl, rfl⟩
  exact hmac_same' (sha2_keep (p := sha512Code) (by decide)) (fun t => ⟨_, rfl⟩) hi (hi 3)

end
example := And.intro (C97_hmac_sha1 (key := [1, 2, 3]) (junk := fun i => List.replicate 64 (BitVec.ofNat 8 i))
    (junk' := fun _ => List.replicate 64 0xA5) (fun _ => by simp) (fun _ => by simp))
  (And.intro (C97_hmac_ripemd160 (key := List.replicate 65 1) (junk := fun i => List.replicate 64 (BitVec.ofNat 8 i))
    (junk' := fun _ => List.replicate 64 0xA5) (fun _ => by simp) (fun _ => by simp))
  (And.intro (C97_hmac_sha256 (key := List.replicate 65 1) (junk := fun i => List.replicate 64 (BitVec.ofNat 8 i))
    (junk' := fun _ => List.replicate 64 0xA5) (fun _ => by simp) (fun _ => by simp))
  (And.intro (C97_hmac_sha384 (key := List.replicate 129 1) (junk := fun i => List.replicate 128 (BitVec.ofNat 8 i))
    (junk' := fun _ => List.replicate 128 0xA5) (fun _ => by simp) (fun _ => by simp))
    (C97_hmac_sha512 (key := []) (junk := fun i => List.replicate 128 (BitVec.ofNat 8 i))
    (junk' := fun _ => List.replicate 128 0xA5) (fun _ => by simp) (fun _ => by simp)))))

end Verif
