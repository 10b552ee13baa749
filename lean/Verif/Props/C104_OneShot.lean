import Verif.Props.C63_Erase
import Verif.Proof.Rsa
import Verif.Props.C02_C03_C68_BlockTransform
/-
C104: the functions that process a whole string or channel wipe the object before they return.
-/
namespace Verif

namespace Spec

/-- The object is in a state in which its method `wipe` leaves it. -/
def WipedBy (wipe : M τ Unit) (t : τ) : Prop := ∃ t0, wipe t0 = .ok () t

end Spec

open Spec

theorem onFst_ok {m : M τ α} {s s' : τ × κ} {a : α} (h : M.onFst m s = .ok a s') :
    m s.1 = .ok a s'.1 := by
  unfold M.onFst M.zoom at h
  split at h
  · next a' t' h1 => cases h; exact h1
  · cases h
  · cases h
  · cases h

/-- C104: `transform_string`. -/
theorem C104_transform_string (T : Transform τ) (s r : Bytes) (t t' : τ)
    (h : transformString T s t = .ok r t') : WipedBy T.wipe t' := by
  unfold transformString at h
  simp only [m_bind_ok, m_pure_ok] at h
  obtain ⟨_, _, _, _, _, _, _, _, _, _, t1, hw, _, rfl⟩ := h
  exact ⟨_, hw⟩

/-- C104: `transform_channel`, whatever its argument `len` and the behaviour of the channel. -/
theorem C104_transform_channel (env : Env) (T : Transform τ) (sched : Nat → Nat) (len : Option Int)
    (t : τ) (ch : Chan) (st' : τ × Chan) (h : transformChannel env T sched len (t, ch) = .ok () st') :
    WipedBy T.wipe st'.1 := by
  unfold transformChannel at h
  simp only [m_bind_ok] at h
  obtain ⟨_, _, _, _, _, _, _, _, _, _, t1, _, hw⟩ := h
  exact ⟨_, onFst_ok hw⟩

/-- C104: `hash_string`. -/
theorem C104_hash_string (H : HashObj η) (s r : Bytes) (t t' : η) (h : hashString H s t = .ok r t') :
    WipedBy H.wipe t' := by
  unfold hashString at h
  simp only [m_bind_ok, m_pure_ok] at h
  obtain ⟨_, _, _, _, _, _, _, t1, hw, _, rfl⟩ := h
  exact ⟨_, hw⟩

/-- C104: `hash_channel`. -/
theorem C104_hash_channel (env : Env) (H : HashObj η) (sched : Nat → Nat) (len : Option Int)
    (t : η) (ch : Chan) (r : Bytes) (st' : η × Chan) (h : hashChannel env H sched len (t, ch) = .ok r st') :
    WipedBy H.wipe st'.1 := by
  unfold hashChannel at h
  simp only [m_bind_ok, m_pure_ok] at h
  obtain ⟨_, _, _, _, _, _, _, _, _, _, t1, hw, _, rfl⟩ := h
  exact ⟨_, onFst_ok hw⟩

/-- C104: `auth_transform_string_detached`. -/
theorem C104_auth_transform_string_detached (T : AuthTransform τ) (s : Bytes) (r : Bytes × Bytes) (t t' : τ)
    (h : authTransformStringDetached T s t = .ok r t') : WipedBy T.base.wipe t' := by
  unfold authTransformStringDetached at h
  simp only [m_bind_ok, m_pure_ok] at h
  obtain ⟨_, _, _, _, _, _, _, _, _, _, t1, hw, _, rfl⟩ := h
  exact ⟨_, hw⟩

/-- C104: `auth_transform_string`. -/
theorem C104_auth_transform_string (T : AuthTransform τ) (s r : Bytes) (t t' : τ)
    (h : authTransformString T s t = .ok r t') : WipedBy T.base.wipe t' := by
  unfold authTransformString at h
  simp only [m_bind_ok] at h
  obtain ⟨p, t1, h1, h2⟩ := h
  simp only [m_pure_ok] at h2
  rw [← h2.2]
  exact C104_auth_transform_string_detached T s p t t1 h1

/-- C104: `auth_check_transform_string`, whether the tag is that expected or not. -/
theorem C104_auth_check_transform_string (T : AuthTransform τ) (s : Bytes) (r : Option Bytes) (t t' : τ)
    (h : authCheckTransformString T s t = .ok r t') : WipedBy T.base.wipe t' := by
  unfold authCheckTransformString at h
  simp only at h
  have last : ∀ {f : M τ (Option Bytes)} {t0 : τ}, (f >>= fun res => T.base.wipe >>= fun _ => pure res) t0 = .ok r t' →
      WipedBy T.base.wipe t' := by
    intro f t0 h
    simp only [m_bind_ok, m_pure_ok] at h
    obtain ⟨_, _, _, _, t1, hw, _, rfl⟩ := h
    exact ⟨_, hw⟩
  split at h
  · simp only [m_bind_ok] at h
    obtain ⟨_, _, h1, _⟩ := h
    cases h1
  · simp only [m_bind_ok] at h
    obtain ⟨_, _, _, _, _, _, _, _, _, _, _, _, p, s1, _, h2⟩ := h
    split at h2
    · exact last h2
    · exact last h2

/-! ### What that means for each object -/

theorem wipedBy_zero {w : M τ Unit} {Z : τ → Prop} (hZ : ∀ t, ∃ t', w t = .ok () t' ∧ Z t') {t : τ}
    (h : WipedBy w t) : Z t := by
  obtain ⟨t0, h0⟩ := h
  obtain ⟨t1, h1, h2⟩ := hZ t0
  rw [h0] at h1
  cases h1
  exact h2

/-- C104, block ciphers: after `transform_string` or `transform_channel`, the key schedule has been
erased (it is in `Z`, see `C63_key_schedules_partial` and `C63_modes`), and the buffers contain only
zeroes. -/
theorem C104_block_cipher (env : Env) (c : BlockCipher σ) (Z : σ → Prop) (hZ : ∀ s, Z (c.wipe s))
    (p : PadScheme) (T : Transform (CipherSt σ))
    (hT : T = blockTransform env c ∨ T = paddedEncrypt env p c ∨ T = paddedDecrypt env p c) :
    (∀ s r t t', transformString T s t = .ok r t' → Z t'.c ∧ Zeroed t'.ibuf ∧ ZeroOut t'.ob)
    ∧ ∀ sched len t ch t' ch', transformChannel env T sched len (t, ch) = .ok () (t', ch') →
      Z t'.c ∧ Zeroed t'.ibuf ∧ ZeroOut t'.ob :=
  ⟨fun s r t t' h => wipedBy_zero (Z := fun t' => Z t'.c ∧ Zeroed t'.ibuf ∧ ZeroOut t'.ob)
      (C63_block_transform env c Z hZ p T hT) (C104_transform_string T s r t t' h),
    fun sched len t ch t' ch' h => wipedBy_zero (Z := fun t' => Z t'.c ∧ Zeroed t'.ibuf ∧ ZeroOut t'.ob)
      (C63_block_transform env c Z hZ p T hT) (C104_transform_channel env T sched len t ch _ h)⟩

/-- C104, stream ciphers. -/
theorem C104_stream_cipher (env : Env) (c : StreamCipher σ) (Z : σ → Prop) (hZ : ∀ s, Z (c.wipe s)) :
    (∀ s r t t', transformString (streamTransform env c) s t = .ok r t' →
      Z t'.c ∧ Zeroed t'.charbuf ∧ ZeroOut t'.ob)
    ∧ ∀ sched len t ch t' ch', transformChannel env (streamTransform env c) sched len (t, ch) = .ok () (t', ch') →
      Z t'.c ∧ Zeroed t'.charbuf ∧ ZeroOut t'.ob :=
  ⟨fun s r t t' h => wipedBy_zero (Z := fun t' => Z t'.c ∧ Zeroed t'.charbuf ∧ ZeroOut t'.ob)
      (C63_stream_transform env c Z hZ) (C104_transform_string _ s r t t' h),
    fun sched len t ch t' ch' h => wipedBy_zero (Z := fun t' => Z t'.c ∧ Zeroed t'.charbuf ∧ ZeroOut t'.ob)
      (C63_stream_transform env c Z hZ) (C104_transform_channel env _ sched len t ch _ h)⟩

/-- C104, `AEAD.chacha20_poly1305`: the keys and the buffers are erased, even if the tag was wrong. -/
theorem C104_chapoly (env : Env) (n : Nat) (dir : Dir) (s : Bytes) (t t' : StreamSt ChaPolySt)
    (h : (∃ r, authTransformString (chacha20Poly1305 env n dir) s t = .ok r t')
      ∨ ∃ r, authCheckTransformString (chacha20Poly1305 env n dir) s t = .ok r t') :
    ZeroChaCha t'.c.cha ∧ ZeroPoly t'.c.h ∧ Zeroed t'.charbuf ∧ ZeroOut t'.ob := by
  have hw : WipedBy (chacha20Poly1305 env n dir).base.wipe t' := by
    rcases h with ⟨r, h⟩ | ⟨r, h⟩
    · exact C104_auth_transform_string _ s r t t' h
    · exact C104_auth_check_transform_string _ s r t t' h
  exact wipedBy_zero (Z := fun t' => ZeroChaCha t'.c.cha ∧ ZeroPoly t'.c.h ∧ Zeroed t'.charbuf ∧ ZeroOut t'.ob)
    (C63_chapoly env n dir) hw

/-- C104, CBC-MACs and CMAC: after `hash_string`, nothing is left of the key and of the data. -/
theorem C104_macs (c : BlockCipher σ) (Z : σ → Prop) (hZ : ∀ s, Z (c.wipe s)) (pad : Option PadScheme)
    (s r : Bytes) :
    (∀ t t', hashString (mac c pad) s t = .ok r t' → Z t'.c ∧ Zeroed t'.buffer ∧ Zeroed t'.iv)
    ∧ ∀ t t', hashString (cmac c) s t = .ok r t' →
      Z t'.m.c ∧ Zeroed t'.m.buffer ∧ Zeroed t'.m.iv ∧ Zeroed t'.k1 ∧ Zeroed t'.k2 := by
  have h63 := C63_macs c Z hZ c Z hZ c Z hZ pad
  exact ⟨fun t t' h => wipedBy_zero (Z := fun t' => Z t'.c ∧ Zeroed t'.buffer ∧ Zeroed t'.iv)
      h63.1 (C104_hash_string _ s r t t' h),
    fun t t' h => wipedBy_zero (Z := fun t' => Z t'.m.c ∧ Zeroed t'.m.buffer ∧ Zeroed t'.m.iv ∧ Zeroed t'.k1 ∧ Zeroed t'.k2)
      h63.2.2 (C104_hash_string _ s r t t' h)⟩

/-! ### When they raise -/

/-- Nothing of this holds if an exception is raised: `transform_string` on a string shorter than a block
raises `Wrong_data_length`, and leaves in the object the key schedule and the data. -/
theorem C104_exception_keeps_key (env : Env) (c : BlockCipher σ) (k : σ) (s : Bytes) (h0 : s ≠ [])
    (hl : s.length < c.blocksize) :
    ∃ t', transformString (blockTransform env c) s (cipherInit env c k) = .exn (.error .wrongDataLength) t'
      ∧ t'.c = k ∧ t'.ibuf.take s.length = s := by
  have hpos := List.length_pos_iff.2 h0
  have hb : bytesBlit s 0 (env.create c.blocksize) 0 s.length = some (splice (env.create c.blocksize) 0 s) := by
    unfold bytesBlit
    rw [if_pos]
    · simp [slice]
    · refine ⟨⟨?_, ?_, ?_⟩, ?_, ?_, ?_⟩ <;> (try rw [Env.create_length]) <;> omega
  have hput : cipherPutSubstring env c s 0 s.length (cipherInit env c k)
      = .ok () { cipherInit env c k with ibuf := splice (env.create c.blocksize) 0 s, used := 0 + (s.length : Int).toNat } := by
    rw [cipherPutSubstring, if_neg (by omega), if_pos (by show (0 : Int) + _ ≤ _; omega)]
    show (match bytesBlit s 0 (env.create c.blocksize) ((0 : Nat) : Int) s.length with
      | none => _
      | some ib => _) = _
    rw [show ((0 : Nat) : Int) = 0 from rfl, hb]
    rfl
  refine ⟨{ cipherInit env c k with ibuf := splice (env.create c.blocksize) 0 s, used := 0 + (s.length : Int).toNat },
    ?_, rfl, ?_⟩
  · unfold transformString
    have h1 : (blockTransform env c).putString s (cipherInit env c k) = _ := hput
    rw [M.bind_ok h1, M.bind_def]
    have h2 : (blockTransform env c).finish
        { cipherInit env c k with ibuf := splice (env.create c.blocksize) 0 s, used := 0 + (s.length : Int).toNat }
        = .exn (.error .wrongDataLength)
        { cipherInit env c k with ibuf := splice (env.create c.blocksize) 0 s, used := 0 + (s.length : Int).toNat } := by
      show cipherFlush env c _ = _
      unfold cipherFlush
      rw [if_neg (by show ¬ (0 + (s.length : Int).toNat = 0); omega),
        if_neg (by show ¬ (0 + (s.length : Int).toNat = c.blocksize); omega)]
    rw [h2]
  · show (splice (env.create c.blocksize) 0 s).take s.length = s
    simp [splice]

/-! ### Non-vacuity -/

namespace Example

/-- The toy cipher with a `wipe` that erases its key. -/
def wipeToy : BlockCipher Bytes := checkedCipher 4 (fun k b => some (toyE k b)) (fun _ => []) fun _ => []

/-- `transform_string` returns and leaves an empty key and buffers of zeroes. -/
example : ∃ r t', transformString (blockTransform env64 wipeToy) [1, 2, 3, 4] (cipherInit env64 wipeToy key) = .ok r t'
    ∧ t'.c = [] ∧ Zeroed t'.ibuf ∧ ZeroOut t'.ob := by
  have h : (transformString (blockTransform env64 wipeToy) [1, 2, 3, 4] (cipherInit env64 wipeToy key)).observe
      = some (.ok [0, 0x9a, 0x28, 0x16]) := by decide +kernel
  cases hr : transformString (blockTransform env64 wipeToy) [1, 2, 3, 4] (cipherInit env64 wipeToy key) with
  | ok r t' =>
    exact ⟨r, t', rfl, (C104_block_cipher env64 wipeToy (· = []) (fun _ => rfl) Padding.length _ (.inl rfl)).1 _ _ _ _ hr⟩
  | exn e t' => rw [hr] at h; cases h
  | ub => rw [hr] at h; cases h
  | loop => rw [hr] at h; cases h

/-- The same string without its last byte: the key stays. -/
example : ∃ t', transformString (blockTransform env64 wipeToy) [1, 2, 3] (cipherInit env64 wipeToy key)
    = .exn (.error .wrongDataLength) t' ∧ t'.c = key ∧ t'.ibuf.take 3 = [1, 2, 3] :=
  C104_exception_keeps_key env64 wipeToy key [1, 2, 3] (by decide) (by decide)

end Example

end Verif
