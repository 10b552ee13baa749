import Verif.Spec.Collision
import Verif.Props.C26_Ripemd
import Verif.Props.C69_Md5
/-
C79: a collision of SHA-1, SHA-256, SHA-512, RIPEMD-160 or MD5 objects is a collision of the
compression function (the Merkle-Damgard theorem).
-/
namespace Verif

open Spec

theorem md_flatten {n : Nat} (hn : 0 < n) (c : γ → Bytes → γ) (iv : γ) {L : List Bytes}
    (h : ∀ b ∈ L, b.length = n) : merkleDamgard n c iv L.flatten = L.foldl c iv := by
  rw [merkleDamgard, chunks_of_flatten hn L h]

theorem flatten_dvd {n : Nat} {L : List Bytes} (h : ∀ b ∈ L, b.length = n) :
    n ∣ L.flatten.length := by
  induction L with
  | nil => simp
  | cons b L ih =>
    simp only [List.flatten_cons, List.length_append, h b List.mem_cons_self]
    exact Nat.dvd_add (Nat.dvd_refl n) (ih fun b hb => h b (List.mem_cons_of_mem _ hb))

theorem exists_snoc {l : List α} (h : l ≠ []) : ∃ p a, l = p ++ [a] :=
  ⟨l.dropLast, l.getLast h, (List.dropLast_append_getLast h).symm⟩

/-- The iteration on lists of blocks: equal results of different lists, of the same number of
blocks or different in their last block, come from a collision. -/
theorem blocks_collision {n : Nat} (hn : 0 < n) (c : γ → Bytes → γ) (iv : γ) (L L' : List Bytes)
    (hL : ∀ b ∈ L, b.length = n) (hL' : ∀ b ∈ L', b.length = n) (h0 : L ≠ []) (h0' : L' ≠ [])
    (hd : (L.length = L'.length ∧ L ≠ L') ∨ L.getLast h0 ≠ L'.getLast h0')
    (he : L.foldl c iv = L'.foldl c iv) :
    CompressionCollision n c iv L.flatten L'.flatten := by
  induction hk : L.length generalizing L L' with
  | zero => exact absurd (List.length_eq_zero_iff.1 hk) h0
  | succ k ih =>
    obtain ⟨P, b, rfl⟩ := exists_snoc h0
    obtain ⟨P', b', rfl⟩ := exists_snoc h0'
    have hP : ∀ b ∈ P, b.length = n := fun x hx => hL x (List.mem_append_left _ hx)
    have hP' : ∀ b ∈ P', b.length = n := fun x hx => hL' x (List.mem_append_left _ hx)
    have hb : b.length = n := hL b (by simp)
    have hb' : b'.length = n := hL' b' (by simp)
    simp only [List.foldl_append, List.foldl_cons, List.foldl_nil] at he
    simp only [List.getLast_append_singleton] at hd
    rcases Classical.em ((P.foldl c iv, b) = (P'.foldl c iv, b')) with heq | hne
    · obtain ⟨e1, rfl⟩ := Prod.mk.inj heq
      rcases hd with ⟨hl, hne⟩ | hne
      · have hne' : P ≠ P' := fun e => hne (by rw [e])
        simp only [List.length_append, List.length_singleton] at hl hk
        have hp0 : P ≠ [] := by
          rintro rfl
          exact hne' (List.length_eq_zero_iff.1 (by simp only [List.length_nil] at hl; omega)).symm
        have hp0' : P' ≠ [] := by
          rintro rfl
          exact hne' (List.length_eq_zero_iff.1 (by simp only [List.length_nil] at hl; omega))
        obtain ⟨p, x, q, p', x', q', h1, h2, h3⟩ :=
          ih P P' hP hP' hp0 hp0' (.inl ⟨by omega, hne'⟩) e1 (by omega)
        refine ⟨p, x, q ++ b, p', x', q' ++ b, ?_, ?_, h3⟩
        · simp [h1, List.append_assoc]
        · simp [h2, List.append_assoc]
      · exact absurd rfl hne
    · refine ⟨P.flatten, b, [], P'.flatten, b', [], by simp, by simp, flatten_dvd hP, hb,
        flatten_dvd hP', hb', ?_, ?_⟩
      · rw [md_flatten hn c iv hP, md_flatten hn c iv hP']; exact hne
      · rw [md_flatten hn c iv hP, md_flatten hn c iv hP']; exact he

theorem getLast_ends {n : Nat} {L : List Bytes} (hL : ∀ b ∈ L, b.length = n) (h0 : L ≠ [])
    {pre len : Bytes} (h : L.flatten = pre ++ len) (hl : len.length ≤ n) :
    (L.getLast h0).drop (n - len.length) = len := by
  obtain ⟨P, b, rfl⟩ := exists_snoc h0
  have hb : b.length = n := hL b (by simp)
  rw [List.getLast_append_singleton]
  rw [List.flatten_append, List.flatten_singleton] at h
  have e : b = b.take (n - len.length) ++ b.drop (n - len.length) := (List.take_append_drop _ _).symm
  rw [e, ← List.append_assoc] at h
  exact (List.append_inj' h (by rw [List.length_drop]; omega)).2

/-- The Merkle-Damgard theorem, for any encoding of lengths in at most one block. -/
theorem md_collision {n : Nat} (hn : 0 < n) (c : γ → Bytes → γ) (iv : γ) (enc : Nat → Bytes)
    {k : Nat} (hk : k ≤ n) (hlen : ∀ x, (enc x).length = k) {m m' : Bytes} (hm : m ≠ m')
    (hinj : enc m.length = enc m'.length → m.length = m'.length)
    (he : merkleDamgard n c iv (mdPad n m (enc m.length))
      = merkleDamgard n c iv (mdPad n m' (enc m'.length))) :
    CompressionCollision n c iv (mdPad n m (enc m.length)) (mdPad n m' (enc m'.length)) := by
  have f := chunks_flatten hn (mdPad n m (enc m.length))
  have f' := chunks_flatten hn (mdPad n m' (enc m'.length))
  have l := chunks_length_of_dvd hn _ (mdPad_dvd hn m (enc m.length))
  have l' := chunks_length_of_dvd hn _ (mdPad_dvd hn m' (enc m'.length))
  have z : chunks n (mdPad n m (enc m.length)) ≠ [] := by
    intro e
    rw [e] at f
    have := congrArg List.length f
    simp [mdPad] at this
  have z' : chunks n (mdPad n m' (enc m'.length)) ≠ [] := by
    intro e
    rw [e] at f'
    have := congrArg List.length f'
    simp [mdPad] at this
  have := blocks_collision hn c iv _ _ l l' z z' ?_ he
  · rw [f, f'] at this
    exact this
  · rcases Classical.em (m.length = m'.length) with hl | hl
    · left
      refine ⟨?_, ?_⟩
      · rw [chunks_length hn, chunks_length hn]
        simp [mdPad, hl]
      · intro e
        rw [e, f'] at f
        apply hm
        simp only [mdPad, List.append_assoc] at f
        exact ((List.append_inj f hl.symm).1).symm
    · right
      intro e
      apply hl
      apply hinj
      have g := getLast_ends l z (pre := m ++ [0x80] ++ _) (len := enc m.length) f
        (by rw [hlen]; exact hk)
      have g' := getLast_ends l' z' (pre := m' ++ [0x80] ++ _) (len := enc m'.length) f'
        (by rw [hlen]; exact hk)
      rw [← g, ← g', e, hlen, hlen]

theorem natToBE_inj {k x y : Nat} (hx : x < 256 ^ k) (hy : y < 256 ^ k)
    (h : natToBE k x = natToBE k y) : x = y := by
  have := congrArg beNat h
  rwa [beNat_natToBE, beNat_natToBE, Nat.mod_eq_of_lt hx, Nat.mod_eq_of_lt hy] at this

theorem natToLE_inj' {k x y : Nat} (hx : x < 256 ^ k) (hy : y < 256 ^ k)
    (h : natToLE k x = natToLE k y) : x = y := by
  have := congrArg leNat h
  rwa [leNat_natToLE, leNat_natToLE, Nat.mod_eq_of_lt hx, Nat.mod_eq_of_lt hy] at this

theorem words_inj {f : α → Bytes} {k : Nat} (hl : ∀ x, (f x).length = k)
    (hi : ∀ x y, f x = f y → x = y) {a b : List α} (hab : a.length = b.length)
    (h : (a.map f).flatten = (b.map f).flatten) : a = b := by
  induction a generalizing b with
  | nil => exact (List.length_eq_zero_iff.1 hab.symm).symm
  | cons x a ih =>
    cases b with
    | nil => simp at hab
    | cons y b =>
      simp only [List.map_cons, List.flatten_cons] at h
      obtain ⟨h1, h2⟩ := List.append_inj h (by rw [hl, hl])
      rw [hi x y h1, ih (by simpa using hab) h2]

theorem wordBE_inj {k w : Nat} (hw : 2 ^ w = 256 ^ k) (x y : BitVec w)
    (h : natToBE k x.toNat = natToBE k y.toNat) : x = y :=
  BitVec.eq_of_toNat_eq (natToBE_inj (hw ▸ x.isLt) (hw ▸ y.isLt) h)

theorem wordLE_inj {k w : Nat} (hw : 2 ^ w = 256 ^ k) (x y : BitVec w)
    (h : natToLE k x.toNat = natToLE k y.toNat) : x = y :=
  BitVec.eq_of_toNat_eq (natToLE_inj' (hw ▸ x.isLt) (hw ▸ y.isLt) h)

theorem same_digest {f : Bytes → Bytes} {τ τ' : Type} {o : Out τ Bytes} {o' : Out τ' Bytes}
    {m m' : Bytes} (h : o.observe = some (.ok (f m))) (h' : o'.observe = some (.ok (f m')))
    (he : o.observe = o'.observe) : f m = f m' := by
  rw [h, h'] at he
  simpa using he

theorem h5_inj {f : BitVec 32 → Bytes} (hl : ∀ x, (f x).length = 4)
    (hi : ∀ x y, f x = f y → x = y) {x y : H5}
    (h : ([x.a, x.b, x.c, x.d, x.e].map f).flatten = ([y.a, y.b, y.c, y.d, y.e].map f).flatten) :
    x = y := by
  have := words_inj (a := [x.a, x.b, x.c, x.d, x.e])
    (b := [y.a, y.b, y.c, y.d, y.e]) hl hi rfl h
  cases x; cases y
  simpa using this

theorem h8_inj {w k : Nat} {f : BitVec w → Bytes} (hl : ∀ x, (f x).length = k)
    (hi : ∀ x y, f x = f y → x = y) {x y : H8 w}
    (h : ([x.a, x.b, x.c, x.d, x.e, x.f, x.g, x.h].map f).flatten
      = ([y.a, y.b, y.c, y.d, y.e, y.f, y.g, y.h].map f).flatten) :
    x = y := by
  have := words_inj (a := [x.a, x.b, x.c, x.d, x.e, x.f, x.g, x.h])
    (b := [y.a, y.b, y.c, y.d, y.e, y.f, y.g, y.h]) hl hi rfl h
  cases x; cases y
  simpa using this

theorem md5_inj {f : BitVec 32 → Bytes} (hl : ∀ x, (f x).length = 4)
    (hi : ∀ x y, f x = f y → x = y) {x y : Md5.State}
    (h : ([x.a, x.b, x.c, x.d].map f).flatten = ([y.a, y.b, y.c, y.d].map f).flatten) :
    x = y := by
  have := words_inj (a := [x.a, x.b, x.c, x.d])
    (b := [y.a, y.b, y.c, y.d]) hl hi rfl h
  cases x; cases y
  simpa using this

/-- C79, `Hash.sha1`: if two histories of calls, of less than 2^61 bytes, give the same result
although the data differ, the compression function has a collision in the computation. -/
theorem C79_sha1 (buf0 buf0' : Bytes) (h : buf0.length = 64) (h' : buf0'.length = 64)
    (ops ops' : List HOp) (hl : ∀ op ∈ ops, op.Legal) (hl' : ∀ op ∈ ops', op.Legal)
    (hs : (hinputOf ops).length < 2 ^ 61) (hs' : (hinputOf ops').length < 2 ^ 61)
    (hne : hinputOf ops ≠ hinputOf ops')
    (he : (sha1.digest ops (sha1Init buf0)).observe
      = (sha1.digest ops' (sha1Init buf0')).observe) :
    CompressionCollision 64 sha1Compress sha1IV
      (mdPad 64 (hinputOf ops) (natToBE 8 (8 * (hinputOf ops).length)))
      (mdPad 64 (hinputOf ops') (natToBE 8 (8 * (hinputOf ops').length))) := by
  have e := same_digest (f := SHA1) (C22_sha1 buf0 h ops hl) (C22_sha1 buf0' h' ops' hl') he
  refine md_collision (by decide) sha1Compress sha1IV (fun x => natToBE 8 (8 * x)) (k := 8)
    (by decide) (fun x => natToBE_length _ _) hne (fun e => ?_) ?_
  · have := natToBE_inj (by omega) (by omega) e
    omega
  · exact h5_inj (f := fun x => natToBE 4 x.toNat) (fun x => natToBE_length _ _)
      (fun x y => wordBE_inj (by decide) x y) e

/-- C79, `Hash.sha256`. -/
theorem C79_sha256 (buf0 buf0' : Bytes) (h : buf0.length = 64) (h' : buf0'.length = 64)
    (ops ops' : List HOp) (hl : ∀ op ∈ ops, op.Legal) (hl' : ∀ op ∈ ops', op.Legal)
    (hs : (hinputOf ops).length < 2 ^ 61) (hs' : (hinputOf ops').length < 2 ^ 61)
    (hne : hinputOf ops ≠ hinputOf ops')
    (he : (sha256.digest ops (sha256Init buf0)).observe
      = (sha256.digest ops' (sha256Init buf0')).observe) :
    CompressionCollision 64 (sha2Compress params256 4) IV256
      (mdPad 64 (hinputOf ops) (natToBE 8 (8 * (hinputOf ops).length)))
      (mdPad 64 (hinputOf ops') (natToBE 8 (8 * (hinputOf ops').length))) := by
  have e := same_digest (f := SHA256) (C23_sha256 buf0 h ops hl) (C23_sha256 buf0' h' ops' hl') he
  refine md_collision (by decide) (sha2Compress params256 4) IV256 (fun x => natToBE 8 (8 * x)) (k := 8)
    (by decide) (fun x => natToBE_length _ _) hne (fun e => ?_) ?_
  · have := natToBE_inj (by omega) (by omega) e
    omega
  · exact h8_inj (f := fun x => natToBE 4 x.toNat) (fun x => natToBE_length _ _)
      (fun x y => wordBE_inj (by decide) x y) e

/-- C79, `Hash.sha512`; the limit is 2^125 bytes. -/
theorem C79_sha512 (buf0 buf0' : Bytes) (h : buf0.length = 128) (h' : buf0'.length = 128)
    (ops ops' : List HOp) (hl : ∀ op ∈ ops, op.Legal) (hl' : ∀ op ∈ ops', op.Legal)
    (hs : (hinputOf ops).length < 2 ^ 125) (hs' : (hinputOf ops').length < 2 ^ 125)
    (hne : hinputOf ops ≠ hinputOf ops')
    (he : (sha512.digest ops (sha512Init buf0)).observe
      = (sha512.digest ops' (sha512Init buf0')).observe) :
    CompressionCollision 128 (sha2Compress params512 8) IV512
      (mdPad 128 (hinputOf ops) (natToBE 16 (8 * (hinputOf ops).length)))
      (mdPad 128 (hinputOf ops') (natToBE 16 (8 * (hinputOf ops').length))) := by
  have e := same_digest (f := SHA512) (C24_sha512 buf0 h ops hl) (C24_sha512 buf0' h' ops' hl') he
  refine md_collision (by decide) (sha2Compress params512 8) IV512 (fun x => natToBE 16 (8 * x)) (k := 16)
    (by decide) (fun x => natToBE_length _ _) hne (fun e => ?_) ?_
  · have := natToBE_inj (by omega) (by omega) e
    omega
  · exact h8_inj (f := fun x => natToBE 8 x.toNat) (fun x => natToBE_length _ _)
      (fun x y => wordBE_inj (by decide) x y) e

/-- C79, `Hash.ripemd160`. -/
theorem C79_ripemd160 (buf0 buf0' : Bytes) (h : buf0.length = 64) (h' : buf0'.length = 64)
    (ops ops' : List HOp) (hl : ∀ op ∈ ops, op.Legal) (hl' : ∀ op ∈ ops', op.Legal)
    (hs : (hinputOf ops).length < 2 ^ 61) (hs' : (hinputOf ops').length < 2 ^ 61)
    (hne : hinputOf ops ≠ hinputOf ops')
    (he : (ripemd160.digest ops (rmdInit buf0)).observe
      = (ripemd160.digest ops' (rmdInit buf0')).observe) :
    CompressionCollision 64 Ripemd.compress sha1IV
      (mdPad 64 (hinputOf ops) (natToLE 8 (8 * (hinputOf ops).length)))
      (mdPad 64 (hinputOf ops') (natToLE 8 (8 * (hinputOf ops').length))) := by
  have e := same_digest (f := RIPEMD160) (C26_ripemd160 buf0 h ops hl) (C26_ripemd160 buf0' h' ops' hl') he
  refine md_collision (by decide) Ripemd.compress sha1IV (fun x => natToLE 8 (8 * x)) (k := 8)
    (by decide) (fun x => natToLE_length _ _) hne (fun e => ?_) ?_
  · have := natToLE_inj' (by omega) (by omega) e
    omega
  · exact h5_inj (f := fun x => natToLE 4 x.toNat) (fun x => natToLE_length _ _)
      (fun x y => wordLE_inj (by decide) x y) e

/-- The initial value of MD5, RFC 1321 section 3.3. -/
def Spec.md5IV : Md5.State := ⟨0x67452301, 0xefcdab89, 0x98badcfe, 0x10325476⟩

/-- C79, `Hash.md5`, when no call adds 4 GiB or more. -/
theorem C79_md5 (E : Md5Engine γ) (hE : E.Correct) (ops ops' : List HOp)
    (hl : ∀ op ∈ ops, op.Legal) (hl' : ∀ op ∈ ops', op.Legal)
    (small : ∀ op ∈ ops, op.input.length < 2 ^ 32) (small' : ∀ op ∈ ops', op.input.length < 2 ^ 32)
    (hs : (hinputOf ops).length < 2 ^ 61) (hs' : (hinputOf ops').length < 2 ^ 61)
    (hne : hinputOf ops ≠ hinputOf ops')
    (he : ((md5 E).digest ops (md5Init E)).observe = ((md5 E).digest ops' (md5Init E)).observe) :
    CompressionCollision 64 Md5.compress md5IV
      (mdPad 64 (hinputOf ops) (natToLE 8 (8 * (hinputOf ops).length)))
      (mdPad 64 (hinputOf ops') (natToLE 8 (8 * (hinputOf ops').length))) := by
  have e := same_digest (f := MD5) (C69_md5_partial E hE ops hl small)
    (C69_md5_partial E hE ops' hl' small') he
  refine md_collision (by decide) Md5.compress md5IV (fun x => natToLE 8 (8 * x)) (k := 8)
    (by decide) (fun x => natToLE_length _ _) hne (fun e => ?_) ?_
  · have := natToLE_inj' (by omega) (by omega) e
    omega
  · exact md5_inj (f := fun x => natToLE 4 x.toNat) (fun x => natToLE_length _ _)
      (fun x y => wordLE_inj (by decide) x y) e

namespace Example

/-- Two messages with the same MD5 digest (X. Wang, D. Feng, X. Lai, H. Yu, 2004). No such messages
are known for SHA-256, SHA-512 and RIPEMD-160, and none should be. -/
def wang : Bytes :=
  natToBE 32 0xd131dd02c5e6eec4693d9a0698aff95c2fcab58712467eab4004583eb8fb7f89 ++
  natToBE 32 0x55ad340609f4b30283e488832571415a085125e8f7cdc99fd91dbdf280373c5b ++
  natToBE 32 0xd8823e3156348f5bae6dacd436c919c6dd53e2b487da03fd02396306d248cda0 ++
  natToBE 32 0xe99f33420f577ee8ce54b67080a80d1ec69821bcb6a8839396f9652b6ff72a70
def wang' : Bytes :=
  natToBE 32 0xd131dd02c5e6eec4693d9a0698aff95c2fcab50712467eab4004583eb8fb7f89 ++
  natToBE 32 0x55ad340609f4b30283e4888325f1415a085125e8f7cdc99fd91dbd7280373c5b ++
  natToBE 32 0xd8823e3156348f5bae6dacd436c919c6dd53e23487da03fd02396306d248cda0 ++
  natToBE 32 0xe99f33420f577ee8ce54b67080280d1ec69821bcb6a8839396f965ab6ff72a70

theorem wang_collide : Spec.MD5 wang = Spec.MD5 wang' := by decide +kernel

theorem one_legal {s : Bytes} (h : s.length = 128) : ∀ op ∈ [HOp.addString s], op.Legal := by
  intro op ho
  rw [List.mem_singleton.1 ho]
  show s.length ≤ maxString
  rw [h]; decide +kernel

theorem one_small {s : Bytes} (h : s.length = 128) :
    ∀ op ∈ [HOp.addString s], op.input.length < 2 ^ 32 := by
  intro op ho
  rw [List.mem_singleton.1 ho]
  show s.length < 2 ^ 32
  rw [h]; decide

theorem wang_length : wang.length = 128 := by decide +kernel
theorem wang'_length : wang'.length = 128 := by decide +kernel

/-- The theorem applies to these messages, and finds the collision of the compression function. -/
example : CompressionCollision 64 Md5.compress md5IV (mdPad 64 wang (natToLE 8 1024))
    (mdPad 64 wang' (natToLE 8 1024)) := by
  have i : ∀ s : Bytes, hinputOf [.addString s] = s := fun s => by simp [hinputOf, HOp.input]
  have := C79_md5 refMd5 refMd5_correct [.addString wang] [.addString wang']
    (one_legal wang_length) (one_legal wang'_length) (one_small wang_length)
    (one_small wang'_length) (by rw [i, wang_length]; decide) (by rw [i, wang'_length]; decide)
    (by rw [i, i]; decide +kernel)
    (by rw [C69_md5_partial refMd5 refMd5_correct _ (one_legal wang_length) (one_small wang_length),
          C69_md5_partial refMd5 refMd5_correct _ (one_legal wang'_length) (one_small wang'_length),
          i, i, wang_collide])
  rw [i, i, wang_length, wang'_length] at this
  exact this

end Example

end Verif
