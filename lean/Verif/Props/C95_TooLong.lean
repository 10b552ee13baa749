import Verif.Props.C34_Gcm
import Verif.Props.C35_ChaPoly
import Verif.Props.C86_Inert
import Verif.Spec.Released
/-
C95 Authenticated encryption reveals nothing past the maximal length of a message: once
`Message_too_long` is raised, no ciphertext past the limit and no tag can be obtained.

True of the methods other than `finish_and_get_tag`, even if the exceptions are caught and the object
is used on (`C95_gcm_output_partial`, `C95_chapoly_output_partial`). False of `finish_and_get_tag`: that
of AES-GCM appends ciphertext before it raises the exception, and does so again when it is called
again, with the block that masks the tag (`C95_gcm_reveals_mask`); both return a tag after a put method
has raised the exception (`C95_gcm_tag_after_error`, `C95_chapoly_tag_after_error`).
-/
namespace Verif

open Spec Spec.GCM

variable {κ : Type} {aes : BlockCipher κ} {k : κ} {E : Bytes → Bytes}

/-! ### AES-GCM -/

theorem lazyBlocks_last {n : Nat} (hn : 0 < n) {f : σ → Bytes → BRes σ} (a b : Bytes) (s : σ)
    (ha : a.length % n = 0) (hb : 0 < b.length) (hbn : b.length ≤ n) :
    lazyBlocks n f s (a ++ b) = (runBlocks f s (chunks n a)).andThen (fun p => .ok [] (p.1, b)) := by
  induction h : a.length using Nat.strongRecOn generalizing a s with
  | _ m ih =>
    by_cases h0 : a.length = 0
    · have : a = [] := List.length_eq_zero_iff.1 h0
      subst this
      rw [List.nil_append, lazyBlocks_le hbn, chunks_nil]
      rfl
    · have hna : n ≤ a.length := by
        rcases Nat.lt_or_ge a.length n with hlt | hge
        · rw [Nat.mod_eq_of_lt hlt] at ha; omega
        · exact hge
      have hne : a ≠ [] := by intro h; subst h; simp at h0
      rw [lazyBlocks_gt hn (by rw [List.length_append]; omega), chunks_cons hn hne]
      have ih' := ih (a.drop n).length (by rw [List.length_drop]; omega) (a.drop n) (f s (a.take n)).st
        (by rw [List.length_drop, ← Nat.mod_eq_sub_mod hna]; exact ha) rfl
      rw [List.take_append_of_le_length hna, List.drop_append_of_le_length hna]
      simp only [runBlocks, oneBlock]
      cases hexn : (f s (a.take n)).exn with
      | some e => rfl
      | none => simp only [SRes.andThen_assoc]; simp only [SRes.andThen] at ih' ⊢; rw [ih']

theorem runBlocks_state (h : PureCipher aes k E) (hb : aes.blocksize = 16) {H : Bytes} (bs : List Bytes)
    (hbs : ∀ b ∈ bs, b.length ≤ 16) :
    ∀ {s s' : GcmSt κ} {o p : Bytes}, GcmInv k H s → runBlocks (gcmEncF E H) s bs = .ok o (s', p) →
      s'.ctr = inc32^[bs.length] s.ctr ∧ GcmInv k H s' := by
  induction bs with
  | nil => intro s s' o p hs h; cases h; exact ⟨rfl, hs⟩
  | cons b bs ih =>
    intro s s' o p hs hr
    simp only [runBlocks, oneBlock] at hr
    cases hexn : (gcmEncF E H s b).exn with
    | some e => rw [hexn] at hr; cases hr
    | none =>
      rw [hexn] at hr
      simp only [SRes.andThen] at hr
      cases hr2 : runBlocks (gcmEncF E H) (gcmEncF E H s b).st bs with
      | err o' e => rw [hr2] at hr; cases hr
      | ok o' p' =>
        rw [hr2] at hr
        cases hr
        obtain ⟨e1, e2⟩ := ih (fun x hx => hbs x (List.mem_cons_of_mem _ hx))
          (gcmEncF_inv h hb hs (hbs b List.mem_cons_self)).1 hr2
        refine ⟨?_, e2⟩
        rw [e1, List.length_cons, Function.iterate_succ_apply]
        rfl

theorem inc32_cycle {x : Bytes} (hx : x.length = 16) {n : Nat} (hn : n = 2 ^ 32) : inc32^[n] x = x := by
  obtain ⟨h1, h2, h3⟩ := inc32_iter x hx n
  have h4 := beNat_lt (x.drop 12)
  rw [List.length_drop, hx] at h4
  rw [hn, Nat.add_mod_right, Nat.mod_eq_of_lt (by omega), ← hn] at h3
  rw [← List.take_append_drop 12 (inc32^[n] x), h2]
  conv => rhs; rw [← List.take_append_drop 12 x]
  congr 1
  have e1 := natToBE_beNat ((inc32^[n] x).drop 12)
  have e2 := natToBE_beNat (x.drop 12)
  rw [h3] at e1
  rw [List.length_drop, h1] at e1
  rw [List.length_drop, hx] at e2
  rw [← e1]
  exact e2

theorem gctr_append (E : Bytes → Bytes) (a b : List Bytes) : ∀ cb,
    gctr E cb (a ++ b) = gctr E cb a ++ gctr E (inc32^[a.length] cb) b := by
  induction a with
  | nil => intro cb; rfl
  | cons x a ih =>
    intro cb
    simp only [List.cons_append, gctr, ih, List.length_cons, Function.iterate_succ_apply, List.append_assoc]

theorem crypt_last (E : Bytes → Bytes) (iv m last : Bytes) (hm : m.length % 16 = 0) (h0 : 0 < last.length)
    (hl : last.length ≤ 16) :
    crypt E iv (m ++ last) = crypt E iv m ++ xorb last (E (inc32 (inc32^[m.length / 16] (J0 E iv)))) := by
  have hd : 16 ∣ m.length := Nat.dvd_of_mod_eq_zero hm
  have hne : last ≠ [] := List.ne_nil_of_length_pos h0
  unfold crypt
  rw [chunks_append_dvd (by decide) _ _ hd, gctr_append, chunks_length (by decide),
    chunks_cons (n := 16) (by decide) hne, List.take_of_length_le hl, List.drop_of_length_le hl, chunks_nil]
  simp only [gctr, List.append_nil]
  rw [← Function.iterate_succ_apply' inc32, Function.iterate_succ_apply,
    show (m.length + 16 - 1) / 16 = m.length / 16 by omega]

theorem toInt_small {n : Nat} (h : n < 2 ^ 63) : (BitVec.ofNat 64 n).toInt = (n : Int) := by
  rw [BitVec.toInt_eq_toNat_of_lt, BitVec.toNat_ofNat, Nat.mod_eq_of_lt (by omega)]
  rw [BitVec.toNat_ofNat, Nat.mod_eq_of_lt (by omega)]; omega

theorem gcmEncF_exn {H : Bytes} {s : GcmSt κ} {n : Nat} (hn : s.cipherlen = BitVec.ofNat 64 n) (b : Bytes)
    (h63 : n + b.length < 2 ^ 63) :
    (gcmEncF E H s b).exn = if maxPlaintext < n + b.length then some (.error .messageTooLong) else none := by
  have hmx : maxPlaintext = 0xfffffffe0 := by decide
  simp only [gcmEncF, hn, ← BitVec.ofNat_add, toInt_small h63]
  by_cases hgt : maxPlaintext < n + b.length
  · rw [if_pos hgt, if_pos (by omega)]
  · rw [if_neg hgt, if_neg (by omega)]

/-- The state once the longest message and some more bytes, at most a block, have been put. -/
theorem gcm_at_limit (env : Env) (h : PureCipher aes k E) (hb : aes.blocksize = 16) (iv : Bytes)
    {s : GcmSt κ} (hs : GcmInv k (subkey E) s) (e1 : s.ctr = J0 E iv) (e5 : s.cipherlen = 0)
    {t : CipherSt (GcmSt κ)} (hR : BlockRep env (gcmEncWrapped aes) (GcmInv k (subkey E)) t (s, []) [])
    (m last : Bytes) (hm : m.length ≤ maxPlaintext) (hm16 : m.length % 16 = 0) (hl0 : 0 < last.length)
    (hl : last.length ≤ 16) (hfit : m.length ≤ env.maxLen) :
    ∃ t1 s1, (aesGcm env aes .encrypt).base.putString (m ++ last) t = .ok () t1 ∧
      BlockRep env (gcmEncWrapped aes) (GcmInv k (subkey E)) t1 (s1, last) (crypt E iv m) ∧
      s1.ctr = inc32^[m.length / 16] (J0 E iv) ∧ s1.cipherlen = BitVec.ofNat 64 m.length ∧
      s1.mac = absorb (subkey E) s.mac (gctrBlocks E (inc32 s.ctr) (chunks 16 m)) ∧
      s1.headerlen = s.headerlen ∧ s1.e0 = s.e0 := by
  have hr := runBlocks_enc h hb (chunks 16 m) (chunks_mem_length (by decide) m) s 0 hs e5 (by decide)
  rw [chunks_flat, Nat.zero_add, if_pos hm] at hr
  obtain ⟨s1, r1, r2, r3, r4, r5⟩ := hr
  obtain ⟨c1, c2⟩ := runBlocks_state h hb (chunks 16 m) (chunks_mem_length (by decide) m) hs r1
  have hp : (blockSpec 16 (gcmEncF E (subkey E))).put (s, []) (m ++ last)
      = .ok (crypt E iv m) (s1, last) := by
    have hne : m ++ last ≠ [] := by intro h; rw [(List.append_eq_nil_iff.1 h).2] at hl0; simp at hl0
    simp only [blockSpec]
    rw [if_neg hne, List.nil_append, lazyBlocks_last (by decide) m last s hm16 hl0 hl, r1]
    simp only [SRes.andThen, List.append_nil, crypt, e1]
  have hb' := (gcmEnc_refines env h hb (subkey E)).base.putString (b := m ++ last) hR
  rw [hp] at hb'
  obtain ⟨t1, h1, h2⟩ := hb' (by rw [crypt_length h hb]; simpa using hfit)
  refine ⟨t1, s1, h1, by simpa using h2, ?_, r3, r2, r4, r5⟩
  rw [c1, e1, chunks_length (by decide)]
  congr 1
  omega

theorem gcm_finish_raises (env : Env) (h : PureCipher aes k E) (hb : aes.blocksize = 16) {H : Bytes}
    {t : CipherSt (GcmSt κ)} {s : GcmSt κ} {last q : Bytes} {n : Nat}
    (hR : BlockRep env (gcmEncWrapped aes) (GcmInv k H) t (s, last) q) (h0 : 0 < last.length)
    (hn : s.cipherlen = BitVec.ofNat 64 n) (hlim : maxPlaintext < n + last.length)
    (h63 : n + last.length < 2 ^ 63) (hfit : q.length + last.length ≤ env.maxLen) :
    ∃ t', (aesGcm env aes .encrypt).finishAndGetTag t = .exn (.error .messageTooLong) t' ∧
      BlockRep env (gcmEncWrapped aes) (GcmInv k H) t' ((gcmEncF E H s last).st, last)
        (q ++ xorb last (E (inc32 s.ctr))) := by
  have HH := gcmEncLast_ok h hb hR (show last.length ≠ 0 by omega) hfit
  have hst : t.c = s := hR.st
  have hle : last.length ≤ 16 := hR.le
  have hi := (gcmEncF_inv h hb hR.inv hle).1
  simp only at HH
  rw [hst] at HH hi
  rw [gcmEncF_exn hn last h63, if_pos hlim] at HH
  obtain ⟨t', f1, f2, f3, f4, f5⟩ := HH
  refine ⟨t', M.bind_exn f1, ?_⟩
  exact { inv := by rw [f2]; exact hi, st := f2, ilen := by rw [f3]; exact hR.ilen,
          used := by rw [f4]; exact hR.used, le := hR.le, pend := by rw [f3, f4]; exact hR.pend, ob := f5 }

/-- The property C95 is false of AES-GCM: when `finish_and_get_tag` raises `Message_too_long`, the last bytes
have been encrypted and can be retrieved. If `finish_and_get_tag` is called again, it raises the exception again,
but it has encrypted these bytes a second time, and the counter is back to its first value: what can be
retrieved then, combined with the last bytes of the message (up to 16), is the block that masks the tag. -/
theorem C95_gcm_reveals_mask (env : Env) (pclmul : Bool) (h : PureCipher aes k E) (hb : aes.blocksize = 16)
    (header iv : Bytes) (m last : Bytes) (hm : m.length = maxPlaintext) (hl0 : 0 < last.length)
    (hl : last.length ≤ 16) (hmax : maxPlaintext + 32 ≤ env.maxLen) :
    ∃ t t1 t2 t3 t4, aesGcmInit env pclmul aes k header iv = .ok t k ∧
      (aesGcm env aes .encrypt).base.putString (m ++ last) t = .ok () t1 ∧
      (aesGcm env aes .encrypt).finishAndGetTag t1 = .exn (.error .messageTooLong) t2 ∧
      (aesGcm env aes .encrypt).finishAndGetTag t2 = .exn (.error .messageTooLong) t3 ∧
      (aesGcm env aes .encrypt).base.getString t3
        = .ok (crypt E iv (m ++ last) ++ xorb last (E (J0 E iv))) t4 := by
  obtain ⟨s, e0, hs, e1, e2, e3, e4, e5⟩ := gcmInit_ok env pclmul h hb header iv
  have hmx : maxPlaintext = 0xfffffffe0 := by decide
  have hR := blockRep_init (c := gcmEncWrapped aes) (inv := GcmInv k (subkey E)) env hs
    (by rw [show (gcmEncWrapped aes).blocksize = 16 from rfl]; omega)
  obtain ⟨t1, s1, p1, p2, p3, p4, _⟩ := gcm_at_limit env h hb iv hs e1 e5 hR m last (Nat.le_of_eq hm) (by omega) hl0 hl
    (by omega)
  have hcl := crypt_length h hb iv m
  have hE : ∀ x : Bytes, x.length = 16 → (E x).length = 16 := fun x hx => pure_len h hb hx
  obtain ⟨t2, f1, f2⟩ := gcm_finish_raises env h hb p2 hl0 p4 (by omega) (by omega) (by omega)
  have hic : s1.ctr.length = 16 := by rw [p3]; exact (inc32_iter _ (J0_length E iv) _).1
  have hxl : (xorb last (E (inc32 s1.ctr))).length = last.length := by
    rw [xorb_length, hE _ (inc32_length hic)]; omega
  obtain ⟨t3, g1, g2⟩ := gcm_finish_raises (n := m.length + last.length) env h hb f2 hl0
    (by show s1.cipherlen + BitVec.ofNat 64 last.length = _; rw [p4, BitVec.ofNat_add]) (by omega) (by omega)
    (by rw [List.length_append, hxl]; omega)
  obtain ⟨t4, g3, _⟩ := (gcmEnc_refines env h hb (subkey E)).base.getString g2
  refine ⟨_, t1, t2, t3, t4, by simp only [aesGcmInit, e0], p1, f1, g1, ?_⟩
  rw [g3]
  congr 1
  rw [crypt_last E iv m last (by omega) hl0 hl, ← p3]
  congr 2
  show E (inc32 (inc32 s1.ctr)) = _
  rw [p3, ← Function.iterate_succ_apply' inc32, ← Function.iterate_succ_apply' inc32, hm, hmx]
  exact congrArg E (inc32_cycle (J0_length E iv) (by decide))

theorem gcm_blit {t : CipherSt (GcmSt κ)} {p : GcmSt κ × Bytes} {q : Bytes} {H : Bytes} {env : Env}
    (hR : BlockRep env (gcmEncWrapped aes) (GcmInv k H) t p q) {src : Bytes} {ofs : Nat}
    (h : ofs + (16 - p.2.length) ≤ src.length) :
    bytesBlit src ofs t.ibuf t.used ((16 : Int) - t.used) = some (p.2 ++ slice src ofs (16 - p.2.length)) := by
  have hle : p.2.length ≤ 16 := hR.le
  have hu := hR.used
  obtain ⟨ib, hb1, hb2, hb3⟩ := blit_ibuf (m := 16 - p.2.length) (src := src) (ofs := ofs)
    hR.ilen hR.pend hR.used (by show t.used + _ ≤ 16; omega) (by omega)
  have hb2' : ib.length = 16 := hb2
  rw [List.take_of_length_le (by rw [hb2', hu]; omega)] at hb3
  rw [hu] at hb1 ⊢
  rw [show (16 : Int) - p.2.length = ((16 - p.2.length : Nat) : Int) by omega, hb1, hb3]

/-- The property C95 is false of AES-GCM: after `put_string` has raised `Message_too_long`,
`finish_and_get_tag` may still return a tag: that of a message of 16 bytes more than the limit. -/
theorem C95_gcm_tag_after_error (env : Env) (pclmul : Bool) (h : PureCipher aes k E) (hb : aes.blocksize = 16)
    (header iv : Bytes) (m x : Bytes) (hm : m.length = maxPlaintext) (hx : 16 < x.length)
    (hmax : maxPlaintext + 16 ≤ env.maxLen) :
    ∃ t t1 t2 t3 t4, aesGcmInit env pclmul aes k header iv = .ok t k ∧
      (aesGcm env aes .encrypt).base.putString m t = .ok () t1 ∧
      (aesGcm env aes .encrypt).base.putString x t1 = .exn (.error .messageTooLong) t2 ∧
      (aesGcm env aes .encrypt).finishAndGetTag t2
        = .ok (tag E iv header (crypt E iv (m ++ x.take 16))) t3 ∧
      (aesGcm env aes .encrypt).base.getString t3 = .ok (crypt E iv m) t4 := by
  obtain ⟨s, e0, hs, e1, e2, e3, e4, e5⟩ := gcmInit_ok env pclmul h hb header iv
  have hmx : maxPlaintext = 0xfffffffe0 := by decide
  have hR := blockRep_init (c := gcmEncWrapped aes) (inv := GcmInv k (subkey E)) env hs
    (by rw [show (gcmEncWrapped aes).blocksize = 16 from rfl]; omega)
  have hcr := gcmEnc_implements h hb (subkey E)
  -- the message, whose last block is pending
  have hml : (m.take (m.length - 16)).length = m.length - 16 := by rw [List.length_take]; omega
  have hll : (m.drop (m.length - 16)).length = 16 := by rw [List.length_drop]; omega
  obtain ⟨t1, s1, p1, p2, p3, p4, p5, p6, p7⟩ := gcm_at_limit env h hb iv hs e1 e5 hR
    (m.take (m.length - 16)) (m.drop (m.length - 16))
    (by omega) (by omega) (by omega) (by omega) (by omega)
  rw [List.take_append_drop] at p1
  generalize hlast : m.drop (m.length - 16) = last at *
  generalize hpre : m.take (m.length - 16) = pre at *
  have hmpl : m = pre ++ last := by rw [← hpre, ← hlast, List.take_append_drop]
  -- this block
  have hst1 : t1.c = s1 := p2.st
  have hu1 : t1.used = 16 := by rw [p2.used, hll]
  have hb1 : bytesBlit x (0 : Int) t1.ibuf t1.used ((16 : Int) - t1.used) = some last := by
    have := gcm_blit p2 (src := x) (ofs := 0) (by simp only [hll]; omega)
    simp only [hll, Nat.sub_self, slice, List.take_zero, List.append_nil] at this
    exact this
  have hcl := crypt_length h hb iv pre
  have hpush1 := pushBlock_settled (env := env) hcr (t := { t1 with ibuf := last }) p2.inv hll p2.ob
  rw [if_pos (show _ + (gcmEncWrapped aes).blocksize ≤ env.maxLen by rw [show (gcmEncWrapped aes).blocksize = 16 from rfl]; omega)] at hpush1
  simp only [hst1] at hpush1
  rw [gcmEncF_exn p4 last (by omega), if_neg (by omega)] at hpush1
  obtain ⟨ob1, q1, q2⟩ := hpush1
  rw [← hst1] at q1
  have hi1 := (gcmEncF_inv h hb (hst1 ▸ p2.inv) (b := last) (by omega)).1
  have put1 := put_full_ok (env := env) (c := gcmEncWrapped aes) (src := x) (ofs := 0) (len := x.length) (t := t1)
    (by omega) (by rw [hu1]; show ¬ (16 : Int) + _ ≤ 16; omega) (show 0 < 16 by decide) hb1 q1
  -- the next one, which is too much
  have hR2 : BlockRep env (gcmEncWrapped aes) (GcmInv k (subkey E))
      { ({ t1 with ibuf := last, c := (gcmEncF E (subkey E) s1 last).st, ob := ob1 } : CipherSt (GcmSt κ)) with used := 0 }
      ((gcmEncF E (subkey E) s1 last).st, []) (crypt E iv pre ++ (gcmEncF E (subkey E) s1 last).out) :=
    { inv := hi1, st := rfl, ilen := hll, used := rfl, le := by simp, pend := by simp, ob := q2 }
  have hb2 := gcm_blit hR2 (src := x) (ofs := 0) (by simp only [List.length_nil]; omega)
  simp only [List.length_nil, Nat.sub_zero, List.nil_append, slice, List.drop_zero] at hb2
  have hxt : (x.take 16).length = 16 := by rw [List.length_take]; omega
  have hol := (gcmEncF_inv h hb (hst1 ▸ p2.inv) (b := last) (by omega)).2
  have hpush2 := pushBlock_settled (env := env) hcr (t := { t1 with
    ibuf := x.take 16, c := (gcmEncF E (subkey E) s1 last).st, ob := ob1, used := 0 }) hi1 hxt q2
  have p4' : (gcmEncF E (subkey E) s1 last).st.cipherlen = BitVec.ofNat 64 m.length := by
    show s1.cipherlen + BitVec.ofNat 64 last.length = _
    rw [p4, ← BitVec.ofNat_add, hmpl, List.length_append]
  rw [if_pos (show _ + (gcmEncWrapped aes).blocksize ≤ env.maxLen by rw [show (gcmEncWrapped aes).blocksize = 16 from rfl]; rw [List.length_append, hol]; omega)] at hpush2
  simp only at hpush2
  rw [gcmEncF_exn p4' (x.take 16) (by omega), if_pos (by omega)] at hpush2
  obtain ⟨ob2, w1, w2⟩ := hpush2
  have put2 := put_full_exn (env := env) (c := gcmEncWrapped aes) (src := x) (ofs := 0) (len := x.length)
    (t := { t1 with ibuf := last, c := (gcmEncF E (subkey E) s1 last).st, ob := ob1, used := 0 })
    (by omega) (by show ¬ ((0 : Nat) : Int) + _ ≤ 16; omega) hb2 w1
  have hi2 := (gcmEncF_inv h hb hi1 (b := x.take 16) (by omega)).1
  have hR3 : BlockRep env (gcmEncWrapped aes) (GcmInv k (subkey E))
      { t1 with ibuf := x.take 16, c := (gcmEncF E (subkey E) (gcmEncF E (subkey E) s1 last).st (x.take 16)).st, ob := ob2, used := 0 }
      ((gcmEncF E (subkey E) (gcmEncF E (subkey E) s1 last).st (x.take 16)).st, [])
      (crypt E iv pre ++ (gcmEncF E (subkey E) s1 last).out) :=
    { inv := hi2, st := rfl, ilen := hxt, used := rfl, le := by simp, pend := by simp, ob := w2 }
  have hfin := gcmEncFinish_ok h hb hR3
  simp only [gcmFin, lastBlock, List.length_nil, if_true, SRes.andThen] at hfin
  obtain ⟨t3, p', f1, f2⟩ := hfin (by
    show _ + 0 ≤ _
    rw [List.length_append, hol]; omega)
  simp only [List.append_nil] at f2
  obtain ⟨t4, g1, _⟩ := (gcmEnc_refines env h hb (subkey E)).base.getString f2
  -- the ciphertext and the tag
  have hout : crypt E iv m = crypt E iv pre ++ (gcmEncF E (subkey E) s1 last).out := by
    rw [hmpl, crypt_last E iv pre last (by omega) (by omega) (by omega), ← p3]
    rfl
  have hc2 : crypt E iv (m ++ x.take 16) = crypt E iv m
      ++ (gcmEncF E (subkey E) (gcmEncF E (subkey E) s1 last).st (x.take 16)).out := by
    have hctr : inc32^[m.length / 16] (J0 E iv) = inc32 s1.ctr := by
      rw [p3, ← Function.iterate_succ_apply' inc32, hml,
        show Nat.succ ((m.length - 16) / 16) = m.length / 16 by omega]
    rw [crypt_last E iv m (x.take 16) (by omega) (by omega) (by omega), hctr]
    rfl
  have hE : ∀ x : Bytes, x.length = 16 → (E x).length = 16 := fun x hx => pure_len h hb hx
  have hol2 := (gcmEncF_inv h hb hi1 (b := x.take 16) (by omega)).2
  have htag : tagOf (subkey E) (gcmEncF E (subkey E) (gcmEncF E (subkey E) s1 last).st (x.take 16)).st
      = tag E iv header (crypt E iv (m ++ x.take 16)) := by
    apply tagOf_eq
    · exact p7.trans e2
    · exact p6.trans e4
    · show (gcmEncF E (subkey E) s1 last).st.cipherlen + BitVec.ofNat 64 (x.take 16).length = _
      rw [p4', ← BitVec.ofNat_add, crypt_length h hb, List.length_append]
    · rw [hc2, hout, List.append_assoc,
        chunks_append_dvd (by decide) _ _ (by rw [hcl]; exact Nat.dvd_of_mod_eq_zero (by omega)),
        chunks_append_dvd (by decide) _ _ (by rw [hol, hll]),
        chunks_one (by decide) (hol.trans hll), chunks_one (by decide) (hol2.trans hxt), crypt,
        chunks_gctr hE _ _ (inc32_length (J0_length E iv)), ← e3, ← e1]
      simp only [absorb] at p5 ⊢
      rw [List.foldl_append, ← p5]
      rfl
  refine ⟨_, t1, _, t3, t4, by simp only [aesGcmInit, e0], p1, ?_, by rw [← htag]; exact f1, by rw [hout]; exact g1⟩
  rw [show (aesGcm env aes .encrypt).base.putString x t1
    = cipherPutSubstring env (gcmEncWrapped aes) x 0 x.length t1 from rfl, put1]
  simp only [hu1, hst1]
  rw [show (0 : Int) + (((gcmEncWrapped aes).blocksize : Int) - ((16 : Nat) : Int)) = 0 by
      show (0 : Int) + (16 - 16) = 0; decide,
    show ((gcmEncWrapped aes).blocksize : Int) - ((16 : Nat) : Int) = 0 by
      show (16 - 16 : Int) = 0; decide, Int.sub_zero]
  exact put2

/-! The put methods release no output past the limit. -/

/-- If `J n r` says that `n` bounds what the object was given and `r` is the number of bytes released, and
every call keeps it, then what is released is bounded. -/
theorem released_bound {τ : Type} {T : Transform τ} {J : Nat → Nat → τ → Prop} {N L : Nat}
    (hL : ∀ n r t, J n r t → r ≤ L)
    (hok : ∀ n r t c x t', n + (c.given + 16) ≤ N → J n r t → perform T c t = .ok x t' →
      J (n + (c.given + 16)) (r + x.length) t')
    (hexn : ∀ n r t c e t', n + (c.given + 16) ≤ N → J n r t → perform T c t = .exn e t' →
      J (n + (c.given + 16)) r t')
    (cs : List Call) : ∀ n r t, n + (given cs + 16 * cs.length) ≤ N → J n r t →
      r + (released (trace T cs t)).length ≤ L := by
  induction cs with
  | nil => intro n r t _ hJ; exact hL n r t hJ
  | cons c cs ih =>
    intro n r t hn hJ
    have hg : given (c :: cs) = c.given + given cs := by simp [given]
    rw [hg, List.length_cons] at hn
    cases hp : perform T c t with
    | ok x t' =>
      simp only [trace, hp, released, List.length_append]
      have := ih _ _ t' (by omega) (hok n r t c x t' (by omega) hJ hp)
      omega
    | exn e t' =>
      simp only [trace, hp, released]
      exact ih _ _ t' (by omega) (hexn n r t c e t' (by omega) hJ hp)
    | ub => simp only [trace, hp, released]; exact hL n r t hJ
    | loop => simp only [trace, hp, released]; exact hL n r t hJ

/-- `m` bytes have been encrypted, at most `n` with those that are pending, `r` bytes have been released. -/
def GcmLim (env : Env) (k : κ) (H : Bytes) (n r : Nat) (t : CipherSt (GcmSt κ)) : Prop :=
  ∃ q m, GcmInv k H t.c ∧ t.ibuf.length = 16 ∧ t.used ≤ 16 ∧ OBuf.Rep env t.ob q ∧
    t.c.cipherlen = BitVec.ofNat 64 m ∧ m + t.used ≤ n ∧ r + q.length ≤ m ∧ r + q.length ≤ maxPlaintext

theorem gcm_push_lim (env : Env) (h : PureCipher aes k E) (hb : aes.blocksize = 16) {H : Bytes} {n r : Nat}
    {t : CipherSt (GcmSt κ)} (hn : n + 16 < 2 ^ 63) (hJ : GcmLim env k H n r t) :
    (∃ t', CipherSt.pushBlock env (gcmEncWrapped aes) t = .ok () t' ∧ t'.used = t.used ∧
      ∀ u ≤ 16, GcmLim env k H (n + (16 - t.used) + u) r { t' with used := u })
    ∨ ∃ e t', CipherSt.pushBlock env (gcmEncWrapped aes) t = .exn e t' ∧ t'.used = t.used ∧
        GcmLim env k H (n + 16) r t' := by
  obtain ⟨q, m, j1, j2, j3, j4, j5, j6, j7, j8⟩ := hJ
  have hp := pushBlock_settled (env := env) (gcmEnc_implements h hb H) (t := t) j1 j2 j4
  obtain ⟨i1, i2⟩ := gcmEncF_inv h hb j1 (b := t.ibuf) (by omega)
  have hc : (gcmEncF E H t.c t.ibuf).st.cipherlen = BitVec.ofNat 64 (m + 16) := by
    show t.c.cipherlen + BitVec.ofNat 64 t.ibuf.length = _
    rw [j5, j2, BitVec.ofNat_add]
  split at hp
  · rw [gcmEncF_exn j5 t.ibuf (by omega)] at hp
    by_cases hlim : maxPlaintext < m + t.ibuf.length
    · rw [if_pos hlim] at hp
      obtain ⟨ob', e1, e2⟩ := hp
      exact .inr ⟨_, _, e1, rfl, q, m + 16, i1, j2, j3, e2, hc, by show m + 16 + t.used ≤ _; omega, by omega, j8⟩
    · rw [if_neg hlim] at hp
      obtain ⟨ob', e1, e2⟩ := hp
      refine .inl ⟨_, e1, rfl, fun u hu => ⟨_, m + 16, i1, j2, hu, e2, hc, ?_, ?_, ?_⟩⟩
      · show m + 16 + u ≤ _; omega
      · rw [List.length_append, i2]; omega
      · rw [List.length_append, i2]; omega
  · exact .inr ⟨_, _, hp, rfl, q, m, j1, j2, j3, j4, j5, by omega, j7, j8⟩

theorem gcm_ibuf_lim {env : Env} {H : Bytes} {n r : Nat} {t : CipherSt (GcmSt κ)} (hJ : GcmLim env k H n r t)
    {ib : Bytes} (hi : ib.length = 16) {u : Nat} (hu : u ≤ 16) :
    GcmLim env k H (n + (u - t.used)) r { t with ibuf := ib, used := u } := by
  obtain ⟨q, m, j1, j2, j3, j4, j5, j6, j7, j8⟩ := hJ
  exact ⟨q, m, j1, hi, hu, j4, j5, by show m + u ≤ _; omega, j7, j8⟩

theorem gcm_mono_lim {env : Env} {H : Bytes} {n n' r : Nat} {t : CipherSt (GcmSt κ)} (hJ : GcmLim env k H n r t)
    (hn : n ≤ n') : GcmLim env k H n' r t := by
  obtain ⟨q, m, j1, j2, j3, j4, j5, j6, j7, j8⟩ := hJ
  exact ⟨q, m, j1, j2, j3, j4, j5, by omega, j7, j8⟩

/-- The object after a method that returns or raises. -/
def Out.Leaves (o : Out τ α) (P : τ → Prop) : Prop :=
  (∃ a t', o = .ok a t' ∧ P t') ∨ ∃ e t', o = .exn e t' ∧ P t'

theorem blit_range {src dst b : Bytes} {so dofs n : Int} (h : bytesBlit src so dst dofs n = some b) :
    InRange src so n := by
  by_cases hr : InRange src so n
  · exact hr
  · rw [bytesBlit_bad_src hr] at h; cases h

theorem gcm_put_lim (env : Env) (h : PureCipher aes k E) (hb : aes.blocksize = 16) {H : Bytes} {r : Nat}
    (src : Bytes) : ∀ (m n : Nat) (ofs len : Int) (t : CipherSt (GcmSt κ)),
    len.toNat * 2 + (if t.used = 0 then 0 else 1) = m → n + (src.length - ofs.toNat) + 16 < 2 ^ 63 →
    GcmLim env k H n r t →
    (cipherPutSubstring env (gcmEncWrapped aes) src ofs len t).Leaves
      (GcmLim env k H (n + (src.length - ofs.toNat) + 16) r) := by
  intro m
  induction m using Nat.strongRecOn with
  | _ m ih =>
    intro n ofs len t hm hn hJ
    have hJ' := hJ
    obtain ⟨q, l, j1, j2, j3, j4, j5, j6, j7, j8⟩ := hJ'
    by_cases hlen : len ≤ 0
    · exact .inl ⟨(), t, by rw [cipherPutSubstring, if_pos hlen], gcm_mono_lim hJ (by omega)⟩
    by_cases hfit : (t.used : Int) + len ≤ (gcmEncWrapped aes).blocksize
    · have hfit' : (t.used : Int) + len ≤ 16 := hfit
      cases hbl : bytesBlit src ofs t.ibuf t.used len with
      | none =>
        exact .inr ⟨_, t, by rw [cipherPutSubstring, if_neg hlen, if_pos hfit, hbl], gcm_mono_lim hJ (by omega)⟩
      | some ib =>
        refine .inl ⟨(), _, by rw [cipherPutSubstring, if_neg hlen, if_pos hfit, hbl], ?_⟩
        obtain ⟨hr, hl⟩ : InRange src ofs len ∧ ib.length = 16 :=
          ⟨blit_range hbl, (bytesBlit_length hbl).trans j2⟩
        have := gcm_ibuf_lim hJ hl (u := t.used + len.toNat) (by omega)
        exact gcm_mono_lim this (by have := hr.2.2; omega)
    · have hfit' : ¬ (t.used : Int) + len ≤ 16 := hfit
      cases hbl : bytesBlit src ofs t.ibuf t.used (((gcmEncWrapped aes).blocksize : Int) - t.used) with
      | none =>
        exact .inr ⟨_, t, put_blit_none hlen hfit hbl, gcm_mono_lim hJ (by omega)⟩
      | some ib =>
        obtain ⟨hr, hl⟩ : InRange src ofs (((gcmEncWrapped aes).blocksize : Int) - t.used) ∧ ib.length = 16 :=
          ⟨blit_range hbl, (bytesBlit_length hbl).trans j2⟩
        have h3 : ofs ≤ (src.length : Int) - (16 - t.used) := hr.2.2
        have h2 := hr.2.1
        have hJ2 := gcm_ibuf_lim hJ hl (u := t.used) j3
        rw [Nat.sub_self, Nat.add_zero] at hJ2
        rcases gcm_push_lim env h hb (by omega) hJ2 with ⟨t', e1, e2, e3⟩ | ⟨e, t', e1, e2, e3⟩
        · rw [put_full_ok hlen hfit (show 0 < 16 by decide) hbl e1]
          have hrec := ih ((len - (16 - t.used)).toNat * 2) (by rw [← hm]; split <;> omega)
            (n + (16 - t.used)) (ofs + (16 - t.used)) (len - (16 - t.used)) { t' with used := 0 }
            (by simp) (by omega) (e3 0 (by omega))
          rw [show n + (16 - t.used) + (src.length - (ofs + (16 - t.used : Int)).toNat) + 16
            = n + (src.length - ofs.toNat) + 16 by omega] at hrec
          exact hrec
        · exact .inr ⟨e, t', put_full_exn hlen hfit hbl e1, gcm_mono_lim e3 (by omega)⟩

theorem gcm_putChar_lim (env : Env) (h : PureCipher aes k E) (hb : aes.blocksize = 16) {H : Bytes} {n r : Nat}
    (ch : Byte) {t : CipherSt (GcmSt κ)} (hn : n + 17 < 2 ^ 63) (hJ : GcmLim env k H n r t) :
    (cipherPutChar env (gcmEncWrapped aes) ch t).Leaves (GcmLim env k H (n + 17) r) := by
  have hJ' := hJ
  obtain ⟨q, l, j1, j2, j3, j4, j5, j6, j7, j8⟩ := hJ'
  by_cases hlt : t.used < (gcmEncWrapped aes).blocksize
  · have hlt' : t.used < 16 := hlt
    have hs := bytesSet_ok (b := t.ibuf) (i := t.used) (c := ch) (by omega)
    refine .inl ⟨(), _, by rw [cipherPutChar, if_pos hlt, hs], ?_⟩
    exact gcm_mono_lim (gcm_ibuf_lim hJ (by rw [List.length_set]; exact j2) (u := t.used + 1) (by omega)) (by omega)
  · have hlt' : ¬ t.used < 16 := hlt
    rcases gcm_push_lim env h hb (by omega) hJ with ⟨t', e1, e2, e3⟩ | ⟨e, t', e1, e2, e3⟩
    · have h1 := e3 1 (by omega)
      have hil : t'.ibuf.length = 16 := by obtain ⟨_, _, _, h2, _⟩ := h1; exact h2
      have hs := bytesSet_ok (b := t'.ibuf) (i := 0) (c := ch) (by omega)
      rw [Int.natCast_zero] at hs
      refine .inl ⟨(), { t' with ibuf := t'.ibuf.set 0 ch, used := 1 }, ?_, ?_⟩
      · rw [cipherPutChar, if_neg hlt]
        simp only [M.bind_def, e1, M.get_def, hs, M.orRaise_some, M.modify_def]
      · have := gcm_ibuf_lim h1 (ib := t'.ibuf.set 0 ch) (by rw [List.length_set]; exact hil) (u := 1) (by omega)
        exact gcm_mono_lim this (by simp only; omega)
    · exact .inr ⟨e, t', by rw [cipherPutChar, if_neg hlt, M.bind_exn e1], gcm_mono_lim e3 (by omega)⟩

theorem gcm_flush_lim (env : Env) (h : PureCipher aes k E) (hb : aes.blocksize = 16) {H : Bytes} {n r : Nat}
    {t : CipherSt (GcmSt κ)} (hn : n + 16 < 2 ^ 63) (hJ : GcmLim env k H n r t) :
    (cipherFlush env (gcmEncWrapped aes) t).Leaves (GcmLim env k H (n + 16) r) := by
  by_cases h0 : t.used = 0
  · exact .inl ⟨(), t, by rw [cipherFlush, if_pos h0], gcm_mono_lim hJ (by omega)⟩
  by_cases hfull : t.used = (gcmEncWrapped aes).blocksize
  · have hfull' : t.used = 16 := hfull
    rcases gcm_push_lim env h hb hn hJ with ⟨t', e1, e2, e3⟩ | ⟨e, t', e1, e2, e3⟩
    · refine .inl ⟨(), { t' with used := 0 }, ?_, gcm_mono_lim (e3 0 (by omega)) (by omega)⟩
      rw [cipherFlush, if_neg h0, if_pos hfull, M.bind_ok e1]; rfl
    · exact .inr ⟨e, t', by rw [cipherFlush, if_neg h0, if_pos hfull, M.bind_exn e1], e3⟩
  · exact .inr ⟨_, t, by rw [cipherFlush, if_neg h0, if_neg hfull], gcm_mono_lim hJ (by omega)⟩

theorem Out.Leaves.unit {m : M τ Unit} {t : τ} {P : τ → Prop} (h : (m t).Leaves P) :
    (∃ t', (do m; pure ([] : Bytes) : M τ Bytes) t = .ok [] t' ∧ P t')
    ∨ ∃ e t', (do m; pure ([] : Bytes) : M τ Bytes) t = .exn e t' ∧ P t' := by
  rcases h with ⟨a, t', h1, h2⟩ | ⟨e, t', h1, h2⟩
  · exact .inl ⟨t', M.bind_ok h1, h2⟩
  · exact .inr ⟨e, t', M.bind_exn h1, h2⟩

theorem gcm_mono_leaves {env : Env} {H : Bytes} {n n' r : Nat} {o : Out (CipherSt (GcmSt κ)) α}
    (hJ : o.Leaves (GcmLim env k H n r)) (hn : n ≤ n') : o.Leaves (GcmLim env k H n' r) := by
  rcases hJ with ⟨a, t', h1, h2⟩ | ⟨e, t', h1, h2⟩
  · exact .inl ⟨a, t', h1, gcm_mono_lim h2 hn⟩
  · exact .inr ⟨e, t', h1, gcm_mono_lim h2 hn⟩

theorem gcm_perform_lim (env : Env) (h : PureCipher aes k E) (hb : aes.blocksize = 16) {H : Bytes} {n r : Nat}
    (c : Call) {t : CipherSt (GcmSt κ)} (hn : n + (c.given + 16) < 2 ^ 63) (hJ : GcmLim env k H n r t) :
    (∃ x t', perform (aesGcm env aes .encrypt).base c t = .ok x t' ∧
      GcmLim env k H (n + (c.given + 16)) (r + x.length) t')
    ∨ ∃ e t', perform (aesGcm env aes .encrypt).base c t = .exn e t' ∧
      GcmLim env k H (n + (c.given + 16)) r t' := by
  have put : ∀ {m : M (CipherSt (GcmSt κ)) Unit},
      (m t).Leaves (GcmLim env k H (n + (c.given + 16)) r) →
      (∃ x t', (do m; pure ([] : Bytes) : M _ Bytes) t = .ok x t' ∧
        GcmLim env k H (n + (c.given + 16)) (r + x.length) t')
      ∨ ∃ e t', (do m; pure ([] : Bytes) : M _ Bytes) t = .exn e t' ∧
        GcmLim env k H (n + (c.given + 16)) r t' := by
    intro m hm
    rcases hm.unit with ⟨t', h1, h2⟩ | ⟨e, t', h1, h2⟩
    · exact .inl ⟨[], t', h1, by simpa using h2⟩
    · exact .inr ⟨e, t', h1, h2⟩
  have get : ∀ {o : TOp}, c = .op o → IsGet o → o.input = [] → o.Legal →
      ∃ x t', perform (aesGcm env aes .encrypt).base c t = .ok x t' ∧
        GcmLim env k H (n + (c.given + 16)) (r + x.length) t' := by
    intro o hc ho hi hl
    obtain ⟨q, m, j1, j2, j3, j4, j5, j6, j7, j8⟩ := hJ
    have hR : BlockRep env (gcmEncWrapped aes) (GcmInv k H) t (t.c, t.ibuf.take t.used) q :=
      { inv := j1, st := rfl, ilen := j2, used := by rw [List.length_take]; omega
        le := by rw [List.length_take]; show _ ≤ 16; omega, pend := rfl, ob := j4 }
    have hcall := (gcmEnc_refines env h hb H).base.call (blockSpec_lawful (by decide) _) hR o hl
    rw [hi] at hcall
    simp only [blockSpec, if_true] at hcall
    obtain ⟨x, t', q', e1, e2, e3⟩ := hcall (by have := j4.max; have := j4.length; have := j4.bound; simp; omega)
    refine ⟨x, t', by rw [hc]; exact e1, q', m, e2.inv, e2.ilen, ?_, e2.ob, ?_, ?_, ?_, ?_⟩
    · rw [e2.used]; exact e2.le
    · rw [e2.st]; exact j5
    · have h1 := e2.used
      simp only [List.length_take] at h1
      omega
    · have := congrArg List.length e3; simp at this; omega
    · have := congrArg List.length e3; simp at this; omega
  cases c with
  | flush => exact put (gcm_mono_leaves (gcm_flush_lim env h hb (by simp only [Call.given] at hn; omega) hJ) (by omega))
  | finish => exact put (gcm_mono_leaves (gcm_flush_lim env h hb (by simp only [Call.given] at hn; omega) hJ) (by omega))
  | op o =>
    cases o with
    | putSubstring b ofs len =>
      simp only [Call.given] at hn
      exact put (gcm_mono_leaves (gcm_put_lim env h hb b _ n ofs len t rfl (by omega) hJ)
        (by simp only [Call.given]; omega))
    | putString b =>
      simp only [Call.given] at hn
      exact put (gcm_mono_leaves (gcm_put_lim env h hb b _ n 0 b.length t rfl (by omega) hJ)
        (by simp only [Call.given]; omega))
    | putChar ch =>
      simp only [Call.given] at hn
      exact put (gcm_mono_leaves (gcm_putChar_lim env h hb ch (by omega) hJ) (by simp only [Call.given]; omega))
    | putByte ch =>
      simp only [Call.given] at hn
      exact put (gcm_mono_leaves (gcm_putChar_lim env h hb _ (by omega) hJ) (by simp only [Call.given]; omega))
    | getString | getSubstring | getChar | getByte | available => exact .inl (get rfl trivial rfl trivial)

/-- C95, AES-GCM, the part that holds: whatever methods other than `finish_and_get_tag` are called, with any
arguments and even if exceptions are ignored, no more output than the limit can be retrieved. (The bound
on what the object is given in total, about 2^63 bytes, is that of the count of bytes.) -/
theorem C95_gcm_output_partial (env : Env) (pclmul : Bool) (h : PureCipher aes k E) (hb : aes.blocksize = 16)
    (header iv : Bytes) (h256 : 256 ≤ env.maxLen) (cs : List Call) (hcs : given cs + 16 * cs.length < 2 ^ 63) :
    ∃ t, aesGcmInit env pclmul aes k header iv = .ok t k ∧
      (released (trace (aesGcm env aes .encrypt).base cs t)).length ≤ maxPlaintext := by
  obtain ⟨s, e0, hs, e1, e2, e3, e4, e5⟩ := gcmInit_ok env pclmul h hb header iv
  refine ⟨cipherInit env (gcmEncWrapped aes) s, by simp only [aesGcmInit, e0], ?_⟩
  have hR := blockRep_init (c := gcmEncWrapped aes) (inv := GcmInv k (subkey E)) env hs h256
  have := released_bound (J := GcmLim env k (subkey E)) (T := (aesGcm env aes .encrypt).base)
    (N := 2 ^ 63 - 1) (L := maxPlaintext) (fun n r t ⟨q, m, _, _, _, _, _, _, _, h8⟩ => by omega)
    (fun n r t c x t' hn hJ hp => by
      rcases gcm_perform_lim env h hb c (by omega) hJ with ⟨x', t'', p1, p2⟩ | ⟨e, t'', p1, p2⟩
      · rw [p1] at hp; cases hp; exact p2
      · rw [p1] at hp; cases hp)
    (fun n r t c e t' hn hJ hp => by
      rcases gcm_perform_lim env h hb c (by omega) hJ with ⟨x', t'', p1, p2⟩ | ⟨e, t'', p1, p2⟩
      · rw [p1] at hp; cases hp
      · rw [p1] at hp; cases hp; exact p2)
    cs 0 0 _ (by omega)
    ⟨[], 0, hs, hR.ilen, Nat.zero_le _, hR.ob, by exact e5, by exact Nat.le_refl 0, by simp, by simp⟩
  rw [Nat.zero_add] at this
  exact this

/-! ### ChaCha20-Poly1305 with a 12-byte IV -/

section ChaPoly

variable {key iv header : Bytes} (hk : key.length = 16 ∨ key.length = 32) (hiv : iv.length = 12)
include hk hiv

/-- `transform`, even past the limit. -/
theorem chapoly_step {st : ChaPolySt} {ct : Bytes} (hA : ChaPolyAt key iv header st ct) {src dst : Bytes}
    {so dofs n : Nat} (hs : so + n ≤ src.length) (hd : dofs + n ≤ dst.length) (h63 : ct.length + n < 2 ^ 63) :
    ∃ st', ChaPolyAt key iv header st'
        (ct ++ xorKeystream (ChaCha20.keystream key iv 1) ct.length (slice src so n)) ∧
      (chapolyEnc 12).transform (.other src) so dofs n (st, dst)
        = if 2 ^ 38 < ct.length + n then
            .exn (.error .messageTooLong) (st',
              splice dst dofs (xorKeystream (ChaCha20.keystream key iv 1) ct.length (slice src so n)))
          else .ok () (st',
              splice dst dofs (xorKeystream (ChaCha20.keystream key iv 1) ct.length (slice src so n))) := by
  have hsl : (slice src so n).length = n := slice_length_of_le hs
  obtain ⟨cha', e1, c1⟩ := chapolyCha_ok hk (.inr hiv) hA.cha (dst := dst) (dofs := dofs) hs hd
  generalize hO : xorKeystream (ChaCha20.keystream key iv 1) ct.length (slice src so n) = O at *
  have hOl : O.length = n := by rw [← hO, xorKeystream_length, hsl]
  have hdl : (splice dst dofs O).length = dst.length := splice_length (by omega)
  obtain ⟨h', e2, p2⟩ := hA.h.update (b := splice dst dofs O) (ofs := dofs) (n := n) (by omega)
  rw [slice_splice_same' hOl (by omega)] at p2
  have hcl : st.cipherlen + BitVec.ofInt 64 (n : Int) = BitVec.ofNat 64 (ct.length + n) := by
    rw [hA.cipherlen, BitVec.ofInt_natCast, BitVec.ofNat_add]
  refine ⟨⟨cha', h', st.headerlen, BitVec.ofNat 64 (ct.length + n)⟩,
    ⟨by rw [List.length_append, hOl]; exact c1, p2, hA.headerlen, by rw [List.length_append, hOl]⟩, ?_⟩
  simp only [chapolyEnc, M.bind_def, e1, M.get_def, chapolyHash, e2, M.orUB_some, M.modify_def,
    chapolyCount, hcl]
  rw [toInt_small h63, chapolyMaxlen, if_pos rfl]
  by_cases hc : 2 ^ 38 < ct.length + n
  · rw [if_pos hc, if_pos (by omega)]; rfl
  · rw [if_neg hc, if_neg (by omega)]; rfl

/-- `put_substring`, with valid arguments. -/
theorem chapoly_put_legal (env : Env) {t : StreamSt ChaPolySt} {ct q : Bytes}
    (hA : ChaPolyAt key iv header t.c ct) (hob : OBuf.Rep env t.ob q)
    {b : Bytes} {ofs len : Nat} (hr : ofs + len ≤ b.length) (hfit : q.length + len ≤ env.maxLen)
    (h63 : ct.length + len < 2 ^ 63) {O : Bytes}
    (hO : xorKeystream (ChaCha20.keystream key iv 1) ct.length (slice b ofs len) = O) :
    ∃ t', ChaPolyAt key iv header t'.c (ct ++ O) ∧ t'.charbuf = t.charbuf ∧
      if 2 ^ 38 < ct.length + len then
        streamPut env (chapolyEnc 12) b ofs len t = .exn (.error .messageTooLong) t' ∧ OBuf.Rep env t'.ob q
      else streamPut env (chapolyEnc 12) b ofs len t = .ok () t' ∧ OBuf.Rep env t'.ob (q ++ O) := by
  obtain ⟨o', h1, h2, h3'⟩ := OBuf.ensureCapacity_ok hob len (by omega)
  have hsl : (slice b ofs len).length = len := slice_length_of_le (by omega)
  obtain ⟨st', s1, s2⟩ := chapoly_step hk hiv hA (src := b) (dst := o'.obuf) (so := ofs) (dofs := o'.oend)
    (n := len) (by omega) h3' (by omega)
  rw [hO] at s1 s2
  have hOl : O.length = len := by rw [← hO, xorKeystream_length, hsl]
  by_cases hlim : 2 ^ 38 < ct.length + len
  · rw [if_pos hlim] at s2
    refine ⟨{ t with c := st', ob := { o' with obuf := splice o'.obuf o'.oend O } }, s1, rfl, ?_⟩
    rw [if_pos hlim]
    refine ⟨?_, h2.scratch (by omega)⟩
    simp only [streamPut, bind, M.bind, M.zoom, h1, s2]
  · rw [if_neg hlim] at s2
    have hw := h2.write (x := O) (by omega)
    rw [hOl] at hw
    refine ⟨{ t with c := st', ob := { o' with obuf := splice o'.obuf o'.oend O, oend := o'.oend + len } },
      s1, rfl, ?_⟩
    rw [if_neg hlim]
    refine ⟨?_, hw⟩
    simp only [streamPut, bind, M.bind, M.zoom, h1, s2, M.modify_def, Int.toNat_natCast]

/-- `put_substring`, with any arguments. -/
theorem chapoly_put_any (env : Env) {t : StreamSt ChaPolySt} {ct q : Bytes}
    (hA : ChaPolyAt key iv header t.c ct) (hob : OBuf.Rep env t.ob q)
    (b : Bytes) (ofs len : Int) (h63 : ct.length + b.length < 2 ^ 63) :
    (∃ t' x, streamPut env (chapolyEnc 12) b ofs len t = .ok () t' ∧ ChaPolyAt key iv header t'.c (ct ++ x) ∧
      t'.charbuf = t.charbuf ∧ OBuf.Rep env t'.ob (q ++ x) ∧ x.length ≤ b.length ∧ ct.length + x.length ≤ 2 ^ 38)
    ∨ ∃ e t' x, streamPut env (chapolyEnc 12) b ofs len t = .exn e t' ∧ ChaPolyAt key iv header t'.c (ct ++ x) ∧
      t'.charbuf = t.charbuf ∧ OBuf.Rep env t'.ob q ∧ x.length ≤ b.length := by
  by_cases hfit : len < 0 ∨ (q.length : Int) + len ≤ env.maxLen
  · by_cases hr : InRange b ofs len
    · obtain ⟨h1, h2, h3⟩ := hr
      obtain ⟨ofs, rfl⟩ := Int.eq_ofNat_of_zero_le h2
      obtain ⟨len, rfl⟩ := Int.eq_ofNat_of_zero_le h1
      have hsl : (slice b ofs len).length = len := slice_length_of_le (by omega)
      have hOl := xorKeystream_length (ChaCha20.keystream key iv 1) ct.length (slice b ofs len)
      obtain ⟨t', s1, s2, s3⟩ := chapoly_put_legal hk hiv env hA hob (b := b) (ofs := ofs) (len := len)
        (by omega) (by omega) (by omega) rfl
      by_cases hlim : 2 ^ 38 < ct.length + len
      · rw [if_pos hlim] at s3
        exact .inr ⟨_, t', _, s3.1, s1, s2, s3.2, by omega⟩
      · rw [if_neg hlim] at s3
        exact .inl ⟨t', _, s3.1, s1, s2, s3.2, by omega, by omega⟩
    · obtain ⟨o', e1, r1⟩ := ensureCapacity_any hob len hfit
      refine .inr ⟨.invalidArg, { t with ob := o' }, [], ?_, by rw [List.append_nil]; exact hA, rfl, r1, by simp⟩
      have hbad : len < 0 ∨ ofs < 0 ∨ ofs > (b.length : Int) - len
          ∨ ((o'.oend : Int) < 0) ∨ (o'.oend : Int) > (o'.obuf.length : Int) - len := by
        unfold InRange at hr
        omega
      have htr : chacha20.transform (.other b) ofs o'.oend len (t.c.cha, o'.obuf)
          = .exn .invalidArg (t.c.cha, o'.obuf) := by
        simp only [chacha20, checkedStream, M.bind_def, M.get_def]
        rw [if_pos (by exact hbad)]; rfl
      simp only [streamPut, bind, M.bind, M.zoom, e1, chapolyEnc, chapolyCha, htr]
  · obtain ⟨n, rfl⟩ := Int.eq_ofNat_of_zero_le (show 0 ≤ len by omega)
    have := OBuf.ensureCapacity_overflow hob n (by omega)
    refine .inr ⟨.error .outputBufferOverflow, t, [], ?_, by rw [List.append_nil]; exact hA, rfl, hob, by simp⟩
    simp only [streamPut, bind, M.bind, M.zoom, this]

end ChaPoly

/-- The property C95 is false of ChaCha20-Poly1305: after `put_string` has raised `Message_too_long`,
`finish_and_get_tag` returns the tag of the whole message, although the last part of its ciphertext cannot
be retrieved. -/
theorem C95_chapoly_tag_after_error (env : Env) {key iv : Bytes} (hk : key.length = 16 ∨ key.length = 32)
    (hiv : iv.length = 12) (header m x : Bytes) (hm : m.length ≤ 2 ^ 38) (hx : 2 ^ 38 < m.length + x.length)
    (h63 : m.length + x.length < 2 ^ 63) (hmax : m.length + x.length ≤ env.maxLen) :
    ∃ t t1 t2 t3 t4, chacha20Poly1305Init env header iv key = .ok t () ∧
      (chacha20Poly1305 env iv.length .encrypt).base.putString m t = .ok () t1 ∧
      (chacha20Poly1305 env iv.length .encrypt).base.putString x t1 = .exn (.error .messageTooLong) t2 ∧
      (chacha20Poly1305 env iv.length .encrypt).finishAndGetTag t2
        = .ok (ChaPoly.tag key iv header (ChaPoly.crypt key iv (m ++ x))) t3 ∧
      (chacha20Poly1305 env iv.length .encrypt).base.getString t3 = .ok (ChaPoly.crypt key iv m) t4 := by
  obtain ⟨st, e0, hA⟩ := chapolyInit_ok hk (.inr hiv) env header
  have hR := genRep_init (At := ChaPolyAt key iv header) env (by omega) hA
  obtain ⟨t1, a1, a2, a3⟩ := chapoly_put_legal hk hiv env hR.1.1 hR.2 (b := m) (ofs := 0) (len := m.length)
    (by omega) (by simp; omega) (by simp; omega) rfl
  rw [slice_full] at a1 a3
  simp only [List.length_nil, Nat.zero_add, List.nil_append] at a1 a3
  rw [if_neg (by omega)] at a3
  have hcl : (ChaPoly.crypt key iv m).length = m.length := chapoly_crypt_length m
  rw [show xorKeystream (ChaCha20.keystream key iv 1) 0 m = ChaPoly.crypt key iv m from rfl] at a1 a3
  obtain ⟨t2, b1, b2, b3⟩ := chapoly_put_legal hk hiv env a1 a3.2 (b := x) (ofs := 0) (len := x.length)
    (by omega) (by omega) (by omega) rfl
  rw [slice_full] at b1
  rw [if_pos (by omega)] at b3
  have hct : ChaPoly.crypt key iv m ++ xorKeystream (ChaCha20.keystream key iv 1) (ChaPoly.crypt key iv m).length x
      = ChaPoly.crypt key iv (m ++ x) := by
    rw [hcl]
    simp only [ChaPoly.crypt, xorKeystream_append, Nat.zero_add]
  rw [hct] at b1
  obtain ⟨t3, t4, c1, c2⟩ := chapolyFinish_ok (c := chapolyEnc iv.length) (At := ChaPolyAt key iv header) hk
    (.inr hiv) env (fun h => h) ⟨⟨b1, by rw [b2, a2]; exact hR.1.2⟩, b3.2⟩
  rw [List.append_nil] at c2
  refine ⟨_, t1, t2, t3, t4, e0, ?_, ?_, c1, c2⟩
  · rw [hiv]; exact a3.1
  · rw [hiv]; exact b3.1

/-- The state of an object that was given at most `n` bytes and has released `r`. -/
def ChaPolyLim (env : Env) (key iv header : Bytes) (n r : Nat) (t : StreamSt ChaPolySt) : Prop :=
  ∃ ct q, ChaPolyAt key iv header t.c ct ∧ t.charbuf.length = 1 ∧ OBuf.Rep env t.ob q ∧ ct.length ≤ n ∧
    r + q.length ≤ ct.length ∧ r + q.length ≤ 2 ^ 38

theorem chapoly_put_lim (env : Env) {key iv header : Bytes} (hk : key.length = 16 ∨ key.length = 32)
    (hiv : iv.length = 12) {n r : Nat} {t : StreamSt ChaPolySt} (hJ : ChaPolyLim env key iv header n r t)
    (b : Bytes) (ofs len : Int) (hn : n + b.length < 2 ^ 63) :
    (streamPut env (chapolyEnc 12) b ofs len t).Leaves (ChaPolyLim env key iv header (n + b.length) r) := by
  obtain ⟨ct, q, j1, j2, j3, j4, j5, j6⟩ := hJ
  rcases chapoly_put_any hk hiv env j1 j3 b ofs len (by omega) with
    ⟨t', x, p1, p2, p3, p4, p5, p6⟩ | ⟨e, t', x, p1, p2, p3, p4, p5⟩
  · exact .inl ⟨(), t', p1, ct ++ x, q ++ x, p2, by rw [p3]; exact j2, p4, by rw [List.length_append]; omega,
      by rw [List.length_append, List.length_append]; omega, by rw [List.length_append]; omega⟩
  · exact .inr ⟨e, t', p1, ct ++ x, q, p2, by rw [p3]; exact j2, p4, by rw [List.length_append]; omega,
      by rw [List.length_append]; omega, j6⟩

theorem chapoly_putChar_lim (env : Env) {key iv header : Bytes} (hk : key.length = 16 ∨ key.length = 32)
    (hiv : iv.length = 12) {n r : Nat} {t : StreamSt ChaPolySt} (hJ : ChaPolyLim env key iv header n r t)
    (ch : Byte) (hn : n + 1 < 2 ^ 63) :
    (streamPutChar env (chapolyEnc 12) ch t).Leaves (ChaPolyLim env key iv header (n + 1) r) := by
  have hcb : t.charbuf.length = 1 := by obtain ⟨_, _, _, h, _⟩ := hJ; exact h
  have hset := bytesSet_ok (b := t.charbuf) (i := 0) (c := ch) (by omega)
  rw [Int.natCast_zero] at hset
  have hc1 : t.charbuf.set 0 ch = [ch] := by
    match hb : t.charbuf, hcb with
    | [x], _ => rfl
  have hcode : streamPutChar env (chapolyEnc 12) ch t
      = streamPut env (chapolyEnc 12) [ch] 0 1 { t with charbuf := [ch] } := by
    simp only [streamPutChar, M.bind_def, M.get_def, hset, M.orRaise_some, M.modify_def, hc1]
  rw [hcode]
  obtain ⟨ct, q, j1, j2, j3, j4, j5, j6⟩ := hJ
  exact chapoly_put_lim env hk hiv (t := { t with charbuf := [ch] }) ⟨ct, q, j1, rfl, j3, j4, j5, j6⟩ [ch] 0 1 hn

theorem chapoly_mono_lim {env : Env} {key iv header : Bytes} {n n' r : Nat} {t : StreamSt ChaPolySt}
    (hJ : ChaPolyLim env key iv header n r t) (hn : n ≤ n') : ChaPolyLim env key iv header n' r t := by
  obtain ⟨ct, q, j1, j2, j3, j4, j5, j6⟩ := hJ
  exact ⟨ct, q, j1, j2, j3, by omega, j5, j6⟩

theorem chapoly_perform_lim (env : Env) {key iv header : Bytes} (hk : key.length = 16 ∨ key.length = 32)
    (hiv : iv.length = 12) {n r : Nat} {t : StreamSt ChaPolySt} (hJ : ChaPolyLim env key iv header n r t)
    (c : Call) (hn : n + (c.given + 16) < 2 ^ 63) :
    (∃ x t', perform (chacha20Poly1305 env iv.length .encrypt).base c t = .ok x t' ∧
      ChaPolyLim env key iv header (n + (c.given + 16)) (r + x.length) t')
    ∨ ∃ e t', perform (chacha20Poly1305 env iv.length .encrypt).base c t = .exn e t' ∧
      ChaPolyLim env key iv header (n + (c.given + 16)) r t' := by
  have put : ∀ {m : M (StreamSt ChaPolySt) Unit} {d : Nat}, d ≤ c.given + 16 →
      (m t).Leaves (ChaPolyLim env key iv header (n + d) r) →
      (∃ x t', (do m; pure ([] : Bytes) : M _ Bytes) t = .ok x t' ∧
        ChaPolyLim env key iv header (n + (c.given + 16)) (r + x.length) t')
      ∨ ∃ e t', (do m; pure ([] : Bytes) : M _ Bytes) t = .exn e t' ∧
        ChaPolyLim env key iv header (n + (c.given + 16)) r t' := by
    intro m d hd hm
    rcases hm.unit with ⟨t', h1, h2⟩ | ⟨e, t', h1, h2⟩
    · exact .inl ⟨[], t', h1, by simpa using chapoly_mono_lim h2 (by omega)⟩
    · exact .inr ⟨e, t', h1, chapoly_mono_lim h2 (by omega)⟩
  have get : ∀ {o : TOp}, c = .op o → IsGet o → o.input = [] → o.Legal →
      ∃ x t', perform (chacha20Poly1305 env iv.length .encrypt).base c t = .ok x t' ∧
        ChaPolyLim env key iv header (n + (c.given + 16)) (r + x.length) t' := by
    intro o hc ho hi hl
    obtain ⟨ct, q, j1, j2, j3, j4, j5, j6⟩ := hJ
    have hcall := (chapolyDec_refines hk (.inr hiv) env (header := header)).base.call (chapolyDec_lawful key iv)
      ⟨⟨j1, j2⟩, j3⟩ o hl
    rw [hi] at hcall
    simp only [genSpec, chapolyDecF, xorKeystream_nil, List.append_nil] at hcall
    obtain ⟨x, t', q', e1, e2, e3⟩ := hcall (by have := j3.max; have := j3.length; have := j3.bound; simp; omega)
    have hsame : perform (chacha20Poly1305 env iv.length .encrypt).base c t
        = (chacha20Poly1305 env iv.length .decrypt).base.call o t := by
      subst hc
      cases o <;> first | rfl | exact ho.elim
    refine ⟨x, t', hsame.trans e1, ct, q', e2.1.1, e2.1.2, e2.2, by omega, ?_, ?_⟩
    · have := congrArg List.length e3; simp at this; omega
    · have := congrArg List.length e3; simp at this; omega
  have hbase : (chacha20Poly1305 env iv.length .encrypt).base = streamTransform env (chapolyEnc 12) := by
    rw [hiv]; rfl
  rw [hbase] at get ⊢
  cases c with
  | flush => exact put (d := 0) (by omega) (.inl ⟨(), t, rfl, hJ⟩)
  | finish => exact put (d := 0) (by omega) (.inl ⟨(), t, rfl, hJ⟩)
  | op o =>
    cases o with
    | putSubstring b ofs len =>
      simp only [Call.given] at hn
      exact put (by simp only [Call.given]; omega) (chapoly_put_lim env hk hiv hJ b ofs len (by omega))
    | putString b =>
      simp only [Call.given] at hn
      exact put (by simp only [Call.given]; omega) (chapoly_put_lim env hk hiv hJ b 0 b.length (by omega))
    | putChar ch =>
      simp only [Call.given] at hn
      exact put (by simp only [Call.given]; omega) (chapoly_putChar_lim env hk hiv hJ ch (by omega))
    | putByte ch =>
      simp only [Call.given] at hn
      exact put (by simp only [Call.given]; omega) (chapoly_putChar_lim env hk hiv hJ _ (by omega))
    | getString | getSubstring | getChar | getByte | available => exact .inl (get rfl trivial rfl trivial)

/-- C95, ChaCha20-Poly1305 with 12-byte IVs, the part that holds: whatever methods other than
`finish_and_get_tag` are called, with any arguments and even if exceptions are ignored, no more output than
the limit can be retrieved. -/
theorem C95_chapoly_output_partial (env : Env) {key iv : Bytes} (hk : key.length = 16 ∨ key.length = 32)
    (hiv : iv.length = 12) (header : Bytes) (h256 : 256 ≤ env.maxLen) (cs : List Call)
    (hcs : given cs + 16 * cs.length < 2 ^ 63) :
    ∃ t, chacha20Poly1305Init env header iv key = .ok t () ∧
      (released (trace (chacha20Poly1305 env iv.length .encrypt).base cs t)).length ≤ 2 ^ 38 := by
  obtain ⟨st, e0, hA⟩ := chapolyInit_ok hk (.inr hiv) env header
  have hR := genRep_init (At := ChaPolyAt key iv header) env h256 hA
  refine ⟨_, e0, ?_⟩
  have := released_bound (J := ChaPolyLim env key iv header) (T := (chacha20Poly1305 env iv.length .encrypt).base)
    (N := 2 ^ 63 - 1) (L := 2 ^ 38) (fun n r t ⟨ct, q, _, _, _, _, _, h8⟩ => by omega)
    (fun n r t c x t' hn hJ hp => by
      rcases chapoly_perform_lim env hk hiv hJ c (by omega) with ⟨x', t'', p1, p2⟩ | ⟨e, t'', p1, p2⟩
      · rw [p1] at hp; cases hp; exact p2
      · rw [p1] at hp; cases hp)
    (fun n r t c e t' hn hJ hp => by
      rcases chapoly_perform_lim env hk hiv hJ c (by omega) with ⟨x', t'', p1, p2⟩ | ⟨e, t'', p1, p2⟩
      · rw [p1] at hp; cases hp
      · rw [p1] at hp; cases hp; exact p2)
    cs 0 0 _ (by omega) ⟨[], [], hR.1.1, hR.1.2, hR.2, by simp, by simp, by simp⟩
  rw [Nat.zero_add] at this
  exact this

/-! ### The hypotheses are met -/

/-- An environment without a limit that matters. -/
def Example.env63 : Env := ⟨2 ^ 62, fun _ _ => 0⟩

open Example

/-- The longest message and one more byte: the tag mask is revealed. -/
example := C95_gcm_reveals_mask env63 false gcmToyEnc_pure rfl [1] [2] (List.replicate maxPlaintext 0) [7]
  (by rw [List.length_replicate]) (by decide) (by decide) (by decide)

example := C95_gcm_tag_after_error env63 true gcmToyEnc_pure rfl [1] [2] (List.replicate maxPlaintext 0)
  (List.replicate 17 5) (by rw [List.length_replicate]) (by decide) (by decide)

example := C95_gcm_output_partial env63 false gcmToyEnc_pure rfl [1] [2] (by decide)
  [.op (.putString [1, 2, 3]), .op (.putSubstring [4] 0 2), .finish, .op .getString] (by decide)

example := C95_chapoly_tag_after_error env63 (key := List.replicate 32 1) (iv := List.replicate 12 2)
  (.inr (by decide)) (by decide) [3] (List.replicate (2 ^ 38) 0) [1]
  (by rw [List.length_replicate]) (by rw [List.length_replicate]; decide) (by rw [List.length_replicate]; decide)
  (by rw [List.length_replicate]; decide)

example := C95_chapoly_output_partial env63 (key := List.replicate 32 1) (iv := List.replicate 12 2)
  (.inr (by decide)) (by decide) [3] (by decide)
  [.op (.putString [1, 2, 3]), .op (.putSubstring [4] 0 2), .op .getString, .op (.putChar 3), .op .getByte]
  (by decide)

end Verif
