import Verif.Proof.Mac
import Verif.Proof.Block
/-
CMAC: subkeys and final block.
-/
namespace Verif

theorem beNat_xorb {a b : Bytes} (h : a.length = b.length) :
    beNat (xorb a b) = beNat a ^^^ beNat b := by
  induction a generalizing b with
  | nil => cases b with
    | nil => rfl
    | cons _ _ => simp at h
  | cons x a ih => cases b with
    | nil => simp at h
    | cons y b =>
      have hl : a.length = b.length := by simpa using h
      have ih := ih hl
      simp only [xorb, List.zipWith_cons_cons, beNat] at ih ⊢
      rw [ih]
      have hlen : (List.zipWith (fun x1 x2 => x1 ^^^ x2) a b).length = a.length := by simp [hl]
      rw [hlen, ← hl]
      have ha := beNat_lt a
      have hb := beNat_lt b
      rw [← hl] at hb
      rw [show (256 : Nat) = 2 ^ 8 by rfl, ← Nat.pow_mul] at ha hb ⊢
      apply Nat.eq_of_testBit_eq
      intro i
      have e : ∀ (u v : Nat), v < 2 ^ (8 * a.length) →
          (u * 2 ^ (8 * a.length) + v).testBit i
            = if i < 8 * a.length then v.testBit i else u.testBit (i - 8 * a.length) := by
        intro u v hv
        rw [Nat.mul_comm, Nat.testBit_two_pow_mul_add _ hv]
      rw [Nat.testBit_xor, e _ _ (Nat.xor_lt_two_pow ha hb), e _ _ ha, e _ _ hb, Nat.testBit_xor,
        BitVec.toNat_xor, Nat.testBit_xor]
      split <;> rfl

theorem natToBE_xor (n x y : Nat) : natToBE n (x ^^^ y) = xorb (natToBE n x) (natToBE n y) := by
  have h1 := beNat_xorb (a := natToBE n x) (b := natToBE n y) (by simp)
  rw [beNat_natToBE, beNat_natToBE] at h1
  have h2 := natToBE_beNat (xorb (natToBE n x) (natToBE n y))
  rw [h1] at h2
  simp only [xorb_length, natToBE_length, Nat.min_self] at h2
  rw [← h2, show (256 : Nat) = 2 ^ 8 by rfl, ← Nat.pow_mul, ← Nat.xor_mod_two_pow, Nat.pow_mul,
    show (2 ^ 8 : Nat) = 256 by rfl, natToBE_mod]

theorem shl_or_carry (x : Byte) (c : Nat) (hc : c ≤ 1) :
    (x.toNat <<< 1) ||| c = 2 * x.toNat + c := by
  rcases Nat.le_one_iff_eq_zero_or_eq_one.1 hc with rfl | rfl
  · simp [Nat.shiftLeft_eq]; omega
  · rw [← Nat.shiftLeft_add_eq_or_of_lt (by decide)]
    rw [Nat.shiftLeft_eq]; omega

theorem natToBE_snoc (n x : Nat) : natToBE (n + 1) x = natToBE n (x / 256) ++ [BitVec.ofNat 8 x] := by
  rw [natToBE_append n 1 x]
  simp [natToBE]

/-- The left shift loop. -/
theorem shl1Loop_ok (i : Nat) : ∀ (src dst : Bytes) (c : Nat), c ≤ 1 → i ≤ src.length →
    i ≤ dst.length →
    shl1Loop src dst c i = some (natToBE i (2 * beNat (src.take i) + c) ++ dst.drop i) := by
  induction i with
  | zero => intro src dst c _ _ _; simp [shl1Loop, natToBE]
  | succ i ih =>
    intro src dst c hc hs hd
    rw [shl1Loop, List.getElem?_eq_getElem (by omega)]
    simp only
    rw [if_pos (by omega), ih _ _ _ ?_ (by omega) (by simp; omega)]
    · congr 1
      have hx := (src[i]'(by omega)).isLt
      have hsplit : src.take (i + 1) = src.take i ++ [src[i]'(by omega)] := by
        rw [List.take_succ_eq_append_getElem (by omega)]
      have hb : beNat (src.take (i + 1)) = beNat (src.take i) * 256 + (src[i]'(by omega)).toNat := by
        rw [hsplit, beNat_append]
        simp [beNat]
      rw [natToBE_snoc, hb, shl_or_carry _ _ hc]
      have e1 : (2 * (beNat (src.take i) * 256 + (src[i]'(by omega)).toNat) + c) / 256
          = 2 * beNat (src.take i) + (src[i]'(by omega)).toNat >>> 7 := by
        rw [Nat.shiftRight_eq_div_pow]; omega
      have e2 : BitVec.ofNat 8 (2 * (beNat (src.take i) * 256 + (src[i]'(by omega)).toNat) + c)
          = BitVec.ofNat 8 (2 * (src[i]'(by omega)).toNat + c) := by
        apply BitVec.eq_of_toNat_eq
        simp only [BitVec.toNat_ofNat]
        omega
      rw [e1, e2, List.append_assoc]
      congr 1
      rw [List.drop_eq_getElem_cons (by simp; omega)]
      simp [List.drop_set]
    · have hx := (src[i]'(by omega)).isLt
      rw [Nat.shiftRight_eq_div_pow]; omega

theorem toBits_msb {l : Bytes} (h : l.length = 16) {b : Byte} {r : Bytes} (hl : l = b :: r) :
    (Spec.toBits l).msb = decide (b.toNat &&& 0x80 > 0) := by
  subst hl
  have hr : r.length = 15 := by simpa using h
  have hlt := beNat_lt r
  have hb := b.isLt
  rw [hr] at hlt
  have hv : (Spec.toBits (b :: r)).toNat = b.toNat * 2 ^ 120 + beNat r := by
    unfold Spec.toBits
    rw [BitVec.toNat_ofNat, beNat, hr, Nat.mod_eq_of_lt]
    omega
  rw [BitVec.msb_eq_decide, hv]
  have h128 : ∀ x : Byte, decide (x.toNat &&& 0x80 > 0) = decide (128 ≤ x.toNat) := by decide +kernel
  rw [h128]
  congr 1
  simp only [eq_iff_iff]
  omega

theorem cmacSubkey_ok (env : Env) {l : Bytes} (h : l.length = 16) (s : σ) :
    cmacSubkey env (natToBE 16 0x87) l s = .ok (Spec.ofBits (Spec.dbl (Spec.toBits l))) s := by
  cases l with
  | nil => simp at h
  | cons b r =>
    have hlt := beNat_lt (b :: r)
    rw [h] at hlt
    unfold cmacSubkey
    have hs : shl1Bytes (b :: r) (env.create 16) 16 = some (natToBE 16 (2 * beNat (b :: r))) := by
      unfold shl1Bytes
      rw [shl1Loop_ok 16 _ _ 0 (by decide) (by omega) (by simp), List.take_of_length_le (by omega),
        List.drop_eq_nil_of_le (by simp)]
      simp
    rw [hs, M.bind_ok (M.orRaise_some _ _ _)]
    have hg : bytesGet (b :: r) 0 = some b := rfl
    rw [hg, M.bind_ok (M.orRaise_some _ _ _)]
    have hmsb := toBits_msb h rfl
    have hshl : natToBE 16 (2 * beNat (b :: r)) = natToBE 16 ((Spec.toBits (b :: r)) <<< 1).toNat := by
      rw [← natToBE_mod]
      congr 1
      unfold Spec.toBits
      rw [BitVec.toNat_shiftLeft, BitVec.toNat_ofNat, Nat.mod_eq_of_lt hlt, Nat.shiftLeft_eq]
      rw [Nat.mul_comm]
    have hx := xorC_ok (src := .other (natToBE 16 0x87)) (so := 0) (dofs := 0) (n := 16)
      (dst := natToBE 16 (2 * beNat (b :: r))) (by simp) (by simp) trivial
    by_cases hb : b.toNat &&& 0x80 > 0
    · rw [decide_eq_true hb] at hmsb
      rw [if_pos hb]
      rw [show (0 : Int) = ((0 : Nat) : Int) by rfl, show (16 : Int) = ((16 : Nat) : Int) by rfl, hx]
      rw [slice_full' (by simp), Src.read_other, slice_full' (by simp), splice_full (by simp), hshl,
        ← natToBE_xor]
      unfold Spec.dbl Spec.ofBits
      rw [hmsb, if_pos rfl]
      simp only [M.orUB_some]
      congr 2
    · rw [decide_eq_false hb] at hmsb
      rw [if_neg hb]
      unfold Spec.dbl Spec.ofBits
      rw [hmsb, if_neg (by decide), hshl]
      rfl

theorem ofBits_length (x : BitVec 128) : (Spec.ofBits x).length = 16 := by simp [Spec.ofBits]

theorem toBits_ofBits (x : BitVec 128) : Spec.toBits (Spec.ofBits x) = x := by
  unfold Spec.toBits Spec.ofBits
  rw [beNat_natToBE]
  apply BitVec.eq_of_toNat_eq
  rw [BitVec.toNat_ofNat]
  have := x.isLt
  omega

section
variable {c : BlockCipher σ} {k : σ} {E : Bytes → Bytes} (hc : PureCipher c k E)
include hc

theorem aesCmacNew_eq (env : Env) (h16 : c.blocksize = 16) (iv : Option Bytes) :
    aesCmacNew env c k iv = match macInit env c k iv with
      | .ok st => .ok ⟨st, Spec.K1 E, Spec.K2 E⟩ k
      | .error e => .exn e k := by
  have hrun := hc.run (s := k) (src := .other (List.replicate 16 0)) (so := 0) (dofs := 0)
    (dst := env.create 16) rfl (by simp [h16]) (by simp [h16])
  have hl : (E (List.replicate 16 0)).length = 16 := by
    rw [hc.out_len (s := k) rfl (by simp [h16]), h16]
  rw [h16, Src.read_other, slice_full' (by simp)] at hrun
  unfold aesCmacNew
  simp only
  rw [show (0 : Int) = ((0 : Nat) : Int) by rfl, hrun]
  simp only [BRes.toOut]
  rw [splice_full (by rw [hl]; simp)]
  have hb : bytesSet (List.replicate 16 0) 15 0x87 = some (natToBE 16 0x87) := by decide
  rw [hb, M.bind_ok (M.orRaise_some _ _ _), M.bind_ok (cmacSubkey_ok env hl k),
    M.bind_ok (cmacSubkey_ok env (ofBits_length _) k), toBits_ofBits]
  cases macInit env c k iv <;> rfl

theorem aesCmacNew_ok (env : Env) (h16 : c.blocksize = 16) {iv : Option Bytes} {st : MacSt σ}
    (hi : macInit env c k iv = .ok st) :
    aesCmacNew env c k iv = .ok ⟨st, Spec.K1 E, Spec.K2 E⟩ k := by
  rw [aesCmacNew_eq hc env h16, hi]

theorem cmacResult_ok {iv0 m : Bytes} {st : MacSt σ} (h16 : c.blocksize = 16)
    (hr : MacRep c.blocksize E iv0 k m st) :
    ∃ st', cmacResult c (Spec.K1 E) (Spec.K2 E) st = .ok (Spec.CMAC E iv0 m) st' := by
  obtain ⟨hk, hb, hi, bs, rest, he, hbs, hrl, hne, hiv, hu, htk⟩ := hr
  have hm : m.length = 16 * bs.length + rest.length := by
    rw [he, List.length_append, flatten_length_of bs hbs, h16]
  have hsplit : 16 * ((if m.length = 0 then 1 else (m.length + 15) / 16) - 1) = bs.flatten.length := by
    rw [flatten_length_of bs hbs, h16]
    by_cases h0 : m.length = 0
    · rw [if_pos h0]; omega
    · rw [if_neg h0]
      have : rest ≠ [] := by
        by_cases hb0 : bs = []
        · subst hb0
          intro hr0
          rw [hr0] at hm
          exact h0 hm
        · exact hne hb0
      have := List.length_pos_iff.2 this
      omega
  have hfull : (m.length ≠ 0 ∧ 16 ∣ m.length) ↔ rest.length = 16 := by
    constructor
    · rintro ⟨h0, h1⟩
      have : 16 ∣ rest.length := by omega
      by_cases hr0 : rest.length = 0
      · have hb0 : bs = [] := by
          by_cases hb0 : bs = []
          · exact hb0
          · exact absurd (List.length_eq_zero_iff.1 hr0) (hne hb0)
        subst hb0; simp at hm; omega
      · omega
    · intro h; omega
  have hcm : Spec.CMAC E iv0 m = E (xorb (cbcFold E iv0 bs)
      (if rest.length = 16 then xorb (Spec.K1 E) rest else xorb (Spec.K2 E) (Spec.pad8000 16 rest))) := by
    unfold Spec.CMAC
    simp only
    rw [hsplit]
    simp only [hfull]
    rw [he, List.take_left, List.drop_left, Spec.cbcMac, cbcEnc_getLastD, ← h16,
      chunks_of_flatten hc.pos bs hbs]
  rw [hcm]
  have key : ∀ (b K : Bytes) (x : MacSt σ), b.length = c.blocksize → K.length = c.blocksize →
      x.c = k → x.buffer = b → x.iv = st.iv → ∃ st', (do
        let st ← M.get
        macXor c st.iv
        macXor c K
        macCall c
        M.modify fun st => { st with used := 0 }
        let st ← M.get
        pure st.iv : M (MacSt σ) Bytes) x = .ok (E (xorb (cbcFold E iv0 bs) (xorb K b))) st' := by
    intro b K x hbl hKl hxk hxb hxi
    refine ⟨{ c := x.c, iv := E (xorb (cbcFold E iv0 bs) (xorb K b)),
              buffer := xorb (xorb x.buffer x.iv) K, used := 0 }, ?_⟩
    rw [M.bind_ok (M.get_def x), M.bind_ok (macXor_ok (by rw [hxb, hbl]) (by rw [hxi, hi])),
      M.bind_ok (macXor_ok (by simp only [xorb_length, hxb, hxi]; omega) hKl),
      M.bind_ok (macCall_ok (st := ⟨x.c, x.iv, xorb (xorb x.buffer x.iv) K, x.used⟩) hc hxk
        (by simp only [xorb_length, hxb, hxi]; omega) (by simp only [hxi, hi]))]
    simp only [M.bind_def, M.modify_def, M.get_def, M.pure_def, hxb, hxi, hiv]
    have : xorb (xorb b (cbcFold E iv0 bs)) K = xorb (cbcFold E iv0 bs) (xorb K b) := by
      rw [xorb_comm b, xorb_assoc, xorb_comm b]
    rw [this]
  have hK1 : (Spec.K1 E).length = c.blocksize := by rw [h16]; exact ofBits_length _
  have hK2 : (Spec.K2 E).length = c.blocksize := by rw [h16]; exact ofBits_length _
  unfold cmacResult
  rw [M.bind_ok (M.get_def st)]
  by_cases h : rest.length = 16
  · rw [if_pos h, if_pos (by omega)]
    obtain ⟨st', h'⟩ := key st.buffer (Spec.K1 E) st hb hK1 hk rfl rfl
    have hbuf : st.buffer = rest := by rw [← htk, List.take_of_length_le (by omega)]
    rw [hbuf] at h'
    exact ⟨st', by rw [M.bind_ok (M.pure_def _ _)]; exact h'⟩
  · rw [if_neg h, if_neg (by omega)]
    have hpad : Padding._8000.pad st.buffer st.used = .ok (Spec.pad8000 16 rest) := by
      have := pad8000_ok (buffer := st.buffer) (used := st.used) (n := 16) (by omega) (by omega)
      rw [hu, htk] at this
      rw [hu]
      exact this
    obtain ⟨st', h'⟩ := key (Spec.pad8000 16 rest) (Spec.K2 E)
      { st with buffer := Spec.pad8000 16 rest }
      (by rw [Spec.pad8000_length (by omega), h16]) hK2 hk rfl rfl
    refine ⟨st', ?_⟩
    rw [hpad]
    rw [← h']
    rfl

end

end Verif
