import Verif.Model.Hmac
import Verif.Spec.Hmac
import Verif.Proof.Hash
import Verif.Proof.Xor
/-
HMAC over an object that computes a hash function computes HMAC of that function.
-/
namespace Verif

theorem observe_ok {o : Out σ α} {a : α} (h : o.observe = some (.ok a)) : ∃ s, o = .ok a s := by
  cases o with
  | ok b s => simp only [Out.observe, Option.some.injEq, Except.ok.injEq] at h; subst h; exact ⟨s, rfl⟩
  | exn e s => simp [Out.observe] at h
  | ub => simp [Out.observe] at h
  | loop => simp [Out.observe] at h

/-- `Computes`, for the histories made of calls in `L`. -/
def HashObj.ComputesOn (h : HashObj τ) (L : HOp → Prop) (s : τ) (f : Bytes → Bytes) : Prop :=
  ∀ ops : List HOp, (∀ op ∈ ops, L op) → (h.digest ops s).observe = some (.ok (f (hinputOf ops)))

/-- What HMAC needs of the hash class: every new object computes `f`; digests are short; wiping
succeeds. -/
structure HmacHash (L : HOp → Prop) (h : HashObj τ) (new : τ → Prop) (f : Bytes → Bytes) (B : Nat) :
    Prop where
  computes : ∀ s, new s → h.ComputesOn L s f
  short : ∀ m, (f m).length ≤ B
  pad : ∀ b : Bytes, b.length = B → L (.addSubstring b 0 b.length)
  dig : ∀ m, L (.addString (f m))
  wipe : ∀ s, ∃ s', h.wipe s = .ok () s'

/-- RFC 2104's K. -/
def hmacKey (f : Bytes → Bytes) (B : Nat) (key : Bytes) : Bytes :=
  let K := if key.length > B then f key else key
  K ++ List.replicate (B - K.length) 0

theorem hmacKey_length {f : Bytes → Bytes} {B : Nat} (hs : ∀ m, (f m).length ≤ B) (key : Bytes) :
    (hmacKey f B key).length = B := by
  unfold hmacKey
  have := hs key
  simp only [List.length_append, List.length_replicate]
  split <;> omega

theorem zeros_xorb {n : Nat} {x : Byte} :
    xorb (List.replicate n 0) (List.replicate n x) = List.replicate n x := by
  simp [xorb]

/-- Xoring a short key into a constant block is xoring the padded key. -/
theorem xor_pad {K : Bytes} {B : Nat} (h : K.length ≤ B) (byte : Byte) :
    xorC (.other K) 0 (List.replicate B byte) 0 K.length
      = some (xorb (K ++ List.replicate (B - K.length) 0) (List.replicate B byte)) := by
  have := xorC_ok (src := .other K) (so := 0) (dofs := 0) (n := K.length)
    (dst := List.replicate B byte) (by simp) (by simpa using h) trivial
  rw [show (0 : Int) = ((0 : Nat) : Int) by rfl, this]
  congr 1
  obtain ⟨m, rfl⟩ : ∃ m, B = K.length + m := ⟨B - K.length, by omega⟩
  rw [Nat.add_sub_cancel_left, ← List.replicate_append_replicate, xorb_append (by simp)]
  simp [splice, zeros_xorb, xorb_comm, List.take_append, List.drop_append]

theorem hashString_of_computesOn {L : HOp → Prop} {h : HashObj τ} {f : Bytes → Bytes} {s : τ}
    (hc : h.ComputesOn L s f)
    (hw : ∀ s, ∃ s', h.wipe s = .ok () s') {x : Bytes} (hx : L (.addString x)) :
    ∃ s', hashString h x s = .ok (f x) s' := by
  have := hc [.addString x] (by simpa using hx)
  obtain ⟨s1, h1⟩ := observe_ok this
  simp only [HashObj.digest, HashObj.calls, HashObj.call] at h1
  cases h2 : h.addString x s with
  | ok a s2 =>
    rw [h2] at h1
    simp only at h1
    obtain ⟨s3, h3⟩ := hw s1
    refine ⟨s3, ?_⟩
    unfold hashString
    rw [M.bind_ok h2, M.bind_ok h1, M.bind_ok h3]
    simp [hinputOf, HOp.input]
  | exn e s2 => rw [h2] at h1; cases h1
  | ub => rw [h2] at h1; cases h1
  | loop => rw [h2] at h1; cases h1

theorem hashString_of_computes {h : HashObj τ} {f : Bytes → Bytes} {s : τ} (hc : h.Computes s f)
    (hw : ∀ s, ∃ s', h.wipe s = .ok () s') {x : Bytes} (hx : x.length ≤ maxString) :
    ∃ s', hashString h x s = .ok (f x) s' :=
  hashString_of_computesOn (L := HOp.Legal) hc hw hx

variable {L : HOp → Prop} {h : HashObj τ} {new : τ → Prop} {f : Bytes → Bytes} {B : Nat}
  (hh : HmacHash L h new f B)
include hh

theorem hmacPad_ok {fresh : τ} (hf : new fresh) {key : Bytes} (hk : B < key.length → L (.addString key))
    (byte : Byte) (s : σ) :
    hmacPad h B fresh key byte s = .ok (xorb (hmacKey f B key) (List.replicate B byte)) s := by
  unfold hmacPad hmacKey
  by_cases hl : key.length > B
  · obtain ⟨s', hs'⟩ := hashString_of_computesOn (hh.computes _ hf) hh.wipe (hk hl)
    have : (M.isolate fresh (hashString h key) : M σ Bytes) s = .ok (f key) s := by
      simp [M.isolate, hs']
    rw [if_pos hl, if_pos hl, M.bind_ok this]
    show M.orUB (xorC (Src.other (f key)) 0 (List.replicate B byte) 0 (f key).length) s = _
    rw [xor_pad (hh.short key)]
    rfl
  · rw [if_neg hl, if_neg hl, M.bind_ok (M.pure_def key s)]
    show M.orUB (xorC (Src.other key) 0 (List.replicate B byte) 0 key.length) s = _
    rw [xor_pad (by omega)]
    rfl

omit hh in
theorem hmac_calls (fresh : Nat → τ) (key : Bytes) (ops : List HOp) (s : τ) :
    (hmac h B fresh key).calls ops s = h.calls ops s := by
  induction ops generalizing s with
  | nil => rfl
  | cons op ops ih =>
    have : (hmac h B fresh key).call op s = h.call op s := by cases op <;> rfl
    rw [HashObj.calls, HashObj.calls, this]
    cases h.call op s <;> simp [ih]

/-- With `key2` the contents of the key string when `result` is called. -/
theorem hmac_computesOn₂ {fresh : Nat → τ} (hf : ∀ i, new (fresh i)) {s : τ} (hn : new s)
    {key key2 : Bytes}
    (hk : B < key.length → L (.addString key)) (hk2 : B < key2.length → L (.addString key2)) :
    ∃ s1, hmacNew h B fresh key s = .ok () s1 ∧
      (hmac h B fresh key2).ComputesOn L s1 (fun m =>
        f (xorb (hmacKey f B key2) (List.replicate B 0x5c)
          ++ f (xorb (hmacKey f B key) (List.replicate B 0x36) ++ m))) := by
  have legal : ∀ key byte, L (HOp.addSubstring (xorb (hmacKey f B key) (List.replicate B byte)) 0
      (xorb (hmacKey f B key) (List.replicate B byte)).length) := by
    intro key byte
    exact hh.pad _ (by rw [xorb_length, hmacKey_length hh.short key, List.length_replicate, Nat.min_self])
  have inp : ∀ key byte, (HOp.addSubstring (xorb (hmacKey f B key) (List.replicate B byte)) 0
      (xorb (hmacKey f B key) (List.replicate B byte)).length).input
        = xorb (hmacKey f B key) (List.replicate B byte) := by
    intro key byte
    simp only [HOp.input, Int.toNat_natCast]
    exact slice_full _
  -- adding the inner pad succeeds
  have h0 := hh.computes s hn [_] (by
    intro op ho; rw [List.mem_singleton] at ho; rw [ho]; exact legal key 0x36)
  obtain ⟨x0, h0⟩ := observe_ok h0
  simp only [HashObj.digest, HashObj.calls, HashObj.call] at h0
  cases hi : h.addSubstring (xorb (hmacKey f B key) (List.replicate B 0x36)) 0
      (xorb (hmacKey f B key) (List.replicate B 0x36)).length s with
  | exn e s2 => rw [hi] at h0; cases h0
  | ub => rw [hi] at h0; cases h0
  | loop => rw [hi] at h0; cases h0
  | ok u s1 =>
    refine ⟨s1, ?_, ?_⟩
    · unfold hmacNew
      rw [M.bind_ok (hmacPad_ok hh (hf 0) hk 0x36 s), hi]
    · intro ops hops
      -- the inner hash
      have h1 := hh.computes s hn (HOp.addSubstring (xorb (hmacKey f B key) (List.replicate B 0x36)) 0
        (xorb (hmacKey f B key) (List.replicate B 0x36)).length :: ops) (by
          intro op ho
          rcases List.mem_cons.1 ho with rfl | ho
          · exact legal _ _
          · exact hops op ho)
      rw [hinputOf_cons, inp] at h1
      obtain ⟨x1, h1⟩ := observe_ok h1
      simp only [HashObj.digest, HashObj.calls, HashObj.call, hi] at h1
      rw [HashObj.digest, hmac_calls]
      cases hc : h.calls ops s1 with
      | exn e s2 => rw [hc] at h1; cases h1
      | ub => rw [hc] at h1; cases h1
      | loop => rw [hc] at h1; cases h1
      | ok u s2 =>
        rw [hc] at h1
        simp only at h1
        simp only [hmac]
        rw [M.bind_ok (hmacPad_ok hh (hf 1) hk2 0x5c s2), M.bind_ok h1]
        -- the outer hash
        have h2 := hh.computes _ (hf 2) [HOp.addSubstring
          (xorb (hmacKey f B key2) (List.replicate B 0x5c)) 0
          (xorb (hmacKey f B key2) (List.replicate B 0x5c)).length,
          .addString (f (xorb (hmacKey f B key) (List.replicate B 0x36) ++ hinputOf ops))] (by
            intro op ho
            rcases List.mem_cons.1 ho with rfl | ho
            · exact legal _ _
            · rw [List.mem_singleton] at ho
              rw [ho]
              exact hh.dig _)
        rw [hinputOf_cons, inp, hinputOf_cons, hinputOf_nil, List.append_nil] at h2
        obtain ⟨x2, h2⟩ := observe_ok h2
        simp only [HashObj.digest, HashObj.calls, HashObj.call] at h2
        cases ho : h.addSubstring (xorb (hmacKey f B key2) (List.replicate B 0x5c)) 0
            (xorb (hmacKey f B key2) (List.replicate B 0x5c)).length (fresh 2) with
        | exn e s3 => rw [ho] at h2; cases h2
        | ub => rw [ho] at h2; cases h2
        | loop => rw [ho] at h2; cases h2
        | ok u s3 =>
          rw [ho] at h2
          simp only at h2
          cases hs : h.addString (f (xorb (hmacKey f B key) (List.replicate B 0x36) ++ hinputOf ops))
              s3 with
          | exn e s4 => rw [hs] at h2; cases h2
          | ub => rw [hs] at h2; cases h2
          | loop => rw [hs] at h2; cases h2
          | ok u s4 =>
            rw [hs] at h2
            simp only at h2
            obtain ⟨x3, h3⟩ := hh.wipe x2
            simp only [M.isolate]
            rw [M.bind_ok ho, M.bind_ok hs, M.bind_ok h2, M.bind_ok h3]
            rfl

theorem hmac_computesOn {fresh : Nat → τ} (hf : ∀ i, new (fresh i)) {s : τ} (hn : new s)
    {key : Bytes} (hk : B < key.length → L (.addString key)) :
    ∃ s1, hmacNew h B fresh key s = .ok () s1 ∧
      (hmac h B fresh key).ComputesOn L s1 (Spec.HMAC f B key) :=
  hmac_computesOn₂ hh hf hn hk hk

omit hh in
theorem hmac_computes (computes : ∀ s, new s → h.Computes s f) (short : ∀ m, (f m).length ≤ B)
    (small : B ≤ maxString) (wipe : ∀ s, ∃ s', h.wipe s = .ok () s') {fresh : Nat → τ}
    (hf : ∀ i, new (fresh i)) {s : τ} (hn : new s) {key : Bytes} (hk : key.length ≤ maxString) :
    ∃ s1, hmacNew h B fresh key s = .ok () s1 ∧
      (hmac h B fresh key).Computes s1 (Spec.HMAC f B key) :=
  hmac_computesOn (L := HOp.Legal)
    ⟨computes, short, fun b hb => by simp only [HOp.Legal, InRange]; omega,
      fun m => Nat.le_trans (short m) small, wipe⟩ hf hn fun _ => hk

end Verif
