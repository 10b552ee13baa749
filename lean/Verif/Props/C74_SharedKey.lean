import Verif.Model.SharedKey
import Verif.Props.C31_Hmac
/-
C74: the caller may erase the key once the object is created. False of HMAC objects, which read the
key string again when the result is asked for.
-/
namespace Verif

/-- Create an HMAC object, add data, let the caller run `between`, add data, get the result. -/
def Spec.hmacSession (h : HashObj τ) (B : Nat) (fresh : Nat → τ) (ops1 : List HOp)
    (between : M (Bytes × τ) Unit) (ops2 : List HOp) : M (Bytes × τ) Bytes := do
  hmacSharedNew h B fresh
  (hmacShared h B fresh).calls ops1
  between
  (hmacShared h B fresh).digest ops2

/-- What an HMAC object computes if the key string is `key` when it is created and `key2` when the
result is asked for. With `key2 = key`, this is RFC 2104. -/
def Spec.HMAC2 (H : Bytes → Bytes) (B : Nat) (key key2 text : Bytes) : Bytes :=
  let K k := let k := if k.length > B then H k else k
             k ++ List.replicate (B - k.length) 0
  H (xorb (K key2) (List.replicate B 0x5c) ++ H (xorb (K key) (List.replicate B 0x36) ++ text))

theorem Spec.HMAC2_same (H : Bytes → Bytes) (B : Nat) (key text : Bytes) :
    Spec.HMAC2 H B key key text = Spec.HMAC H B key text := rfl

theorem hmacShared_calls (h : HashObj τ) (B : Nat) (fresh : Nat → τ) (ops : List HOp) (k : Bytes) (s : τ) :
    (hmacShared h B fresh).calls ops (k, s) = withKeyString (fun _ => h.calls ops) (k, s) := by
  induction ops generalizing s with
  | nil => rfl
  | cons op ops ih =>
    have e : (hmacShared h B fresh).call op (k, s) = withKeyString (fun _ => h.call op) (k, s) := by
      cases op <;> rfl
    rw [HashObj.calls, e]
    simp only [withKeyString, HashObj.calls]
    cases h.call op s with
    | ok u t => simp only [ih, withKeyString]
    | exn e t => rfl
    | ub => rfl
    | loop => rfl

theorem hcalls_append (h : HashObj τ) (ops1 ops2 : List HOp) (s : τ) :
    h.calls (ops1 ++ ops2) s = match h.calls ops1 s with
      | .ok () t => h.calls ops2 t
      | .exn e t => .exn e t
      | .ub => .ub
      | .loop => .loop := by
  induction ops1 generalizing s with
  | nil => rfl
  | cons op ops ih =>
    rw [List.cons_append, HashObj.calls, HashObj.calls]
    cases h.call op s with
    | ok u t => simp only [ih]
    | exn e t => rfl
    | ub => rfl
    | loop => rfl

/-- What the session gives, for every operation `between` of the caller that sets the key string
to `key2`. -/
theorem hmac_session (h : HashObj τ) (new : τ → Prop) (H : Bytes → Bytes) (B : Nat)
    (computes : ∀ s, new s → h.Computes s H) (short : ∀ m, (H m).length ≤ B)
    (small : B ≤ maxString) (wipe : ∀ s, ∃ s', h.wipe s = .ok () s')
    (fresh : Nat → τ) (hf : ∀ i, new (fresh i)) (s : τ) (hs : new s)
    {key key2 : Bytes} (hk : key.length ≤ maxString) (hk2 : key2.length ≤ maxString)
    {between : M (Bytes × τ) Unit} (hb : ∀ t, between (key, t) = .ok () (key2, t))
    (ops1 ops2 : List HOp) (h1 : ∀ op ∈ ops1, op.Legal) (h2 : ∀ op ∈ ops2, op.Legal) :
    (Spec.hmacSession h B fresh ops1 between ops2 (key, s)).observe
      = some (.ok (Spec.HMAC2 H B key key2 (hinputOf ops1 ++ hinputOf ops2))) := by
  obtain ⟨s1, e1, e2⟩ := hmac_computesOn₂ (L := HOp.Legal) (key := key) (key2 := key2)
    ⟨computes, short, fun b hb => by simp only [HOp.Legal, InRange]; omega,
      fun m => Nat.le_trans (short m) small, wipe⟩ hf hs (fun _ => hk) (fun _ => hk2)
  have e3 := e2 (ops1 ++ ops2) (by
    intro op ho
    rcases List.mem_append.1 ho with ho | ho
    · exact h1 op ho
    · exact h2 op ho)
  obtain ⟨x, e3⟩ := observe_ok e3
  rw [HashObj.digest, hmac_calls, hcalls_append] at e3
  have n : hmacSharedNew h B fresh (key, s) = .ok () (key, s1) := by
    simp only [hmacSharedNew, withKeyString, e1]
  unfold Spec.hmacSession
  rw [M.bind_ok n]
  cases c1 : h.calls ops1 s1 with
  | exn e t => rw [c1] at e3; cases e3
  | ub => rw [c1] at e3; cases e3
  | loop => rw [c1] at e3; cases e3
  | ok u t =>
    rw [c1] at e3
    simp only at e3
    have c1' : (hmacShared h B fresh).calls ops1 (key, s1) = .ok () (key, t) := by
      simp only [hmacShared_calls, withKeyString, c1]
    erw [M.bind_ok c1']
    erw [M.bind_ok (hb t)]
    rw [HashObj.digest, hmacShared_calls]
    simp only [withKeyString]
    cases c2 : h.calls ops2 t with
    | exn e t => rw [c2] at e3; cases e3
    | ub => rw [c2] at e3; cases e3
    | loop => rw [c2] at e3; cases e3
    | ok u t =>
      rw [c2] at e3
      simp only at e3 ⊢
      show ((withKeyString fun k => (hmac h B fresh k).result) (key2, t)).observe = _
      rw [withKeyString, e3, show hinputOf (ops1 ++ ops2) = hinputOf ops1 ++ hinputOf ops2 by
        simp [hinputOf]]
      rfl

/-- C74 for HMAC, as far as it holds: if the caller leaves the key string alone until the result is
obtained, the result is HMAC. -/
theorem C74_hmac_partial (h : HashObj τ) (new : τ → Prop) (H : Bytes → Bytes) (B : Nat)
    (computes : ∀ s, new s → h.Computes s H) (short : ∀ m, (H m).length ≤ B)
    (small : B ≤ maxString) (wipe : ∀ s, ∃ s', h.wipe s = .ok () s')
    (fresh : Nat → τ) (hf : ∀ i, new (fresh i)) (s : τ) (hs : new s)
    (key : Bytes) (hk : key.length ≤ maxString)
    (ops1 ops2 : List HOp) (h1 : ∀ op ∈ ops1, op.Legal) (h2 : ∀ op ∈ ops2, op.Legal) :
    (Spec.hmacSession h B fresh ops1 (pure ()) ops2 (key, s)).observe
      = some (.ok (Spec.HMAC H B key (hinputOf ops1 ++ hinputOf ops2))) :=
  hmac_session h new H B computes short small wipe fresh hf s hs hk hk (fun _ => rfl) ops1 ops2 h1 h2

/-- C74 is false of HMAC: if the caller erases the key at any time between the creation of the
object and `result`, the outer hash is that of an all-zero key. -/
theorem C74_hmac_erased (h : HashObj τ) (new : τ → Prop) (H : Bytes → Bytes) (B : Nat)
    (computes : ∀ s, new s → h.Computes s H) (short : ∀ m, (H m).length ≤ B)
    (small : B ≤ maxString) (wipe : ∀ s, ∃ s', h.wipe s = .ok () s')
    (fresh : Nat → τ) (hf : ∀ i, new (fresh i)) (s : τ) (hs : new s)
    (key : Bytes) (hk : key.length ≤ maxString)
    (ops1 ops2 : List HOp) (h1 : ∀ op ∈ ops1, op.Legal) (h2 : ∀ op ∈ ops2, op.Legal) :
    (Spec.hmacSession h B fresh ops1 wipeKeyString ops2 (key, s)).observe
      = some (.ok (Spec.HMAC2 H B key (List.replicate key.length 0)
          (hinputOf ops1 ++ hinputOf ops2))) :=
  hmac_session h new H B computes short small wipe fresh hf s hs hk (by simpa using hk)
    (between := wipeKeyString) (fun _ => rfl) ops1 ops2 h1 h2

/-- Such a tag is an unkeyed function of the inner hash: HMAC's outer key is gone. -/
theorem C74_hmac_erased_unkeyed (H : Bytes → Bytes) (B : Nat) (key text : Bytes)
    (hk : key.length ≤ B) :
    Spec.HMAC2 H B key (List.replicate key.length 0) text
      = H (List.replicate B 0x5c
          ++ H (xorb (key ++ List.replicate (B - key.length) 0) (List.replicate B 0x36) ++ text)) := by
  simp only [Spec.HMAC2, List.length_replicate, gt_iff_lt, Nat.not_lt.2 hk, if_false,
    List.replicate_append_replicate]
  rw [show key.length + (B - key.length) = B by omega, zeros_xorb]

open Example in
/-- A session with HMAC-SHA-1 whose caller erases the key: its result is not the HMAC. -/
theorem C74_hmac_sha1_wrong :
    (Spec.hmacSession sha1 64 (fun i => fresh0 (i + 1)) [.addString (ascii "what do ya want ")]
      wipeKeyString [.addString (ascii "for nothing?")] (ascii "Jefe", fresh0 0)).observe
    ≠ some (.ok (Spec.HMAC Spec.SHA1 64 (ascii "Jefe") (ascii "what do ya want for nothing?"))) := by
  rw [hmac_sha1_jefe]
  decide +kernel

namespace Example

/-- The hypotheses of the theorems are met by SHA-1. -/
example := C74_hmac_erased sha1 (fun s => ∃ i, s = fresh0 i) Spec.SHA1 64
    (by rintro _ ⟨i, rfl⟩; exact C22_sha1 _ (by simp)) (fun m => by rw [SHA1_length]; decide)
    (by decide +kernel) (fun _ => ⟨_, rfl⟩) (fun i => fresh0 (i + 1)) (fun i => ⟨i + 1, rfl⟩)
    (fresh0 0) ⟨0, rfl⟩ (ascii "Jefe") (by decide +kernel) hops hops hops_legal hops_legal

/-- With SHA-1 and key "Jefe", erased before `result`: not the value of RFC 2202. -/
example : (Spec.hmacSession sha1 64 (fun i => fresh0 (i + 1)) [.addString (ascii "what do ya want ")]
      wipeKeyString [.addString (ascii "for nothing?")] (ascii "Jefe", fresh0 0)).observe
    = some (.ok (natToBE 20 0x76e8063d20bbd7283d6e6e31356efb758799da96)) := by
  decide +kernel

end Example

end Verif
