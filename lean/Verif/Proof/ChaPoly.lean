import Verif.Proof.StreamGen
import Verif.Proof.ChaCha
import Verif.Proof.Poly1305
import Verif.Proof.Auth
import Verif.Proof.Gcm
import Verif.Spec.Aead
import Verif.Props.C18_C21_Stream
/-
ChaCha20-Poly1305 against RFC 8439 section 2.8.
-/
namespace Verif

open Spec Spec.ChaPoly

/-- The hash has absorbed the padded header and `ct`. -/
def PolyFor (key iv header : Bytes) (h : PolyCtx) (ct : Bytes) : Prop :=
  ∃ buf0, MDRep 16 poly64Block (poly64Init (otk key iv) buf0).h (zeroPad16 header ++ ct) h

theorem polyUpdate_ok {γ0 : Poly64} {h : PolyCtx} {m b : Bytes} {ofs n : Nat}
    (hr : MDRep 16 poly64Block γ0 m h) (ho : ofs + n ≤ b.length) :
    ∃ h', polyUpdate h b ofs n = some h' ∧ MDRep 16 poly64Block γ0 (m ++ slice b ofs n) h' := by
  obtain ⟨h', h1, h2⟩ := mdAdd_rep (via := false) (by decide) hr (slice b ofs n)
  refine ⟨h', ?_, h2⟩
  rw [polyUpdate, if_neg (by omega), Int.toNat_natCast, cRead_ok ho]
  exact h1

theorem polyUpdatePad_ok {γ0 : Poly64} {h : PolyCtx} {m : Bytes} {n : Nat}
    (hr : MDRep 16 poly64Block γ0 m h) (hn : n < 16) :
    ∃ h', polyUpdatePad h n = some h' ∧
      MDRep 16 poly64Block γ0 (m ++ List.replicate ((16 - n) % 16) 0) h' := by
  unfold polyUpdatePad
  simp only
  rw [show (0x10 - n) % 16 = (16 - n) % 16 from rfl]
  by_cases h0 : (16 - n) % 16 > 0
  · rw [if_pos h0]
    have := polyUpdate_ok hr (b := List.replicate ((16 - n) % 16) 0) (ofs := 0)
      (n := (16 - n) % 16) (by simp)
    rw [slice_full' (by simp), Int.natCast_zero] at this
    exact this
  · rw [if_neg h0, show (16 - n) % 16 = 0 by omega]
    exact ⟨h, rfl, by simpa using hr⟩

theorem otk_length {key iv : Bytes} (hk : key.length = 16 ∨ key.length = 32)
    (hiv : iv.length = 8 ∨ iv.length = 12) : (otk key iv).length = 32 := by
  rw [otk, List.length_take, chacha_block_length (state_length hk hiv 0)]; rfl

theorem keystream_zero {key iv : Bytes} (hk : key.length = 16 ∨ key.length = 32)
    (hiv : iv.length = 8 ∨ iv.length = 12) :
    xorKeystream (ChaCha20.keystream key iv 0) 0 (List.replicate 64 0)
      = ChaCha20.block (ChaCha20.state key iv 0) := by
  have hl := chacha_block_length (state_length hk hiv 0)
  apply List.ext_getElem?
  intro i
  simp only [xorKeystream, List.getElem?_mapIdx]
  by_cases hi : i < 64
  · rw [List.getElem?_replicate, if_pos hi, List.getElem?_eq_getElem (by omega)]
    simp only [Option.map_some, Option.some.injEq]
    rw [show (0 : Byte) ^^^ _ = _ from BitVec.zero_xor, ChaCha20.keystream,
      show 0 + (0 + i) / 64 = 0 by omega, show (0 + i) % 64 = i by omega, List.getD_eq_getElem?_getD,
      List.getElem?_eq_getElem (by omega)]
    rfl
  · rw [List.getElem?_replicate, if_neg hi, List.getElem?_eq_none (by omega)]
    rfl

theorem keystream_shift (key iv : Bytes) (p : Nat) (m : Bytes) :
    xorKeystream (ChaCha20.keystream key iv 0) (64 + p) m
      = xorKeystream (ChaCha20.keystream key iv 1) p m := by
  have : ∀ i, ChaCha20.keystream key iv 0 (64 + p + i) = ChaCha20.keystream key iv 1 (p + i) := by
    intro i
    unfold ChaCha20.keystream
    rw [show 0 + (64 + p + i) / 64 = 1 + (p + i) / 64 by omega,
      show (64 + p + i) % 64 = (p + i) % 64 by omega]
  unfold xorKeystream
  simp only [this]

theorem polyInitHash_ok (env : Env) {key iv : Bytes} (hk : key.length = 16 ∨ key.length = 32)
    (hiv : iv.length = 8 ∨ iv.length = 12) (header : Bytes) {cha : ChaCha}
    (hc : ChaCha.At key iv 0 cha 0) :
    ∃ h cha', polyInitHash env header cha = .ok h cha' ∧ ChaCha.At key iv 0 cha' 64
      ∧ PolyFor key iv header h [] := by
  have hz : (List.replicate 64 (0 : Byte)).length = 64 := by simp
  obtain ⟨cha', e1, e2⟩ := (checkedStream_implements (chacha_generates hk hiv 0) ChaCha.wipe).run
    (src := .self) (so := 0) (dofs := 0) (n := 64) (dst := List.replicate 64 0) hc
    (by rw [Src.read_self]; omega) (by omega) (by simp [NoFeedback])
  rw [Src.read_self, slice_full' hz, keystream_zero hk hiv,
    splice_full (by rw [hz]; exact (chacha_block_length (state_length hk hiv 0)).symm), Int.natCast_zero] at e1
  have hi : MDRep 16 poly64Block (poly64Init (otk key iv) (env.create 16)).h []
      (poly64Init (otk key iv) (env.create 16)) := mdRep_init (by decide) _ _ (by simp)
  obtain ⟨h1, e3, r1⟩ := polyUpdate_ok hi (b := header) (ofs := 0) (n := header.length) (by omega)
  rw [slice_full, List.nil_append, Int.natCast_zero] at *
  obtain ⟨h2, e4, r2⟩ := polyUpdatePad_ok r1 (n := header.length % 16) (by omega)
  refine ⟨h2, cha', ?_, by simpa using e2, env.create 16, by simpa [zeroPad16] using r2⟩
  unfold polyInitHash
  have e5 : chachaLocal (List.replicate 64 0) cha
      = .ok (ChaCha20.block (ChaCha20.state key iv 0)) cha' := by
    unfold chachaLocal chacha20
    rw [show ((64 : Nat) : Int) = 64 from rfl] at e1
    rw [e1]
  rw [M.bind_ok e5]
  rw [show (ChaCha20.block (ChaCha20.state key iv 0)).take 32 = otk key iv from rfl, e3,
    M.bind_ok (M.orUB_some _ _), e4]
  rfl

/-- State of an object that has hashed the ciphertext `ct`. -/
structure ChaPolyAt (key iv header : Bytes) (st : ChaPolySt) (ct : Bytes) : Prop where
  cha : ChaCha.At key iv 0 st.cha (64 + ct.length)
  h : PolyFor key iv header st.h ct
  headerlen : st.headerlen = BitVec.ofNat 64 header.length
  cipherlen : st.cipherlen = BitVec.ofNat 64 ct.length

/-- The same, for encryption: the length is within the limit. -/
def ChaPolyEncAt (key iv header : Bytes) (st : ChaPolySt) (ct : Bytes) : Prop :=
  ChaPolyAt key iv header st ct ∧ (iv.length = 12 → ct.length ≤ 2 ^ 38)

/-- Data-level effect of encryption, from the ciphertext produced so far. -/
def chapolyEncF (key iv : Bytes) (ct b : Bytes) : BRes Bytes :=
  ⟨xorKeystream (ChaCha20.keystream key iv 1) ct.length b,
   ct ++ xorKeystream (ChaCha20.keystream key iv 1) ct.length b,
   if iv.length = 12 ∧ ct.length ≤ 2 ^ 38 ∧ ct.length + b.length > 2 ^ 38 then some (.error .messageTooLong) else none⟩

/-- Data-level effect of decryption, from the ciphertext received so far. -/
def chapolyDecF (key iv : Bytes) (ct b : Bytes) : BRes Bytes :=
  ⟨xorKeystream (ChaCha20.keystream key iv 1) ct.length b, ct ++ b, none⟩

theorem PolyFor.update {key iv header ct : Bytes} {h : PolyCtx} (hr : PolyFor key iv header h ct)
    {b : Bytes} {ofs n : Nat} (ho : ofs + n ≤ b.length) :
    ∃ h', polyUpdate h b ofs n = some h' ∧ PolyFor key iv header h' (ct ++ slice b ofs n) := by
  obtain ⟨buf0, hr⟩ := hr
  obtain ⟨h', h1, h2⟩ := polyUpdate_ok hr ho
  exact ⟨h', h1, buf0, by rwa [List.append_assoc] at h2⟩

theorem toLE64_ofNat (n : Nat) : toLE64 (BitVec.ofNat 64 n) = natToLE 8 n := by
  rw [toLE64_eq, BitVec.toNat_ofNat]
  have h1 := natToLE_reverse 8 (n % 2 ^ 64)
  have h2 := natToLE_reverse 8 n
  have h3 := natToBE_mod 8 n
  rw [show 256 ^ 8 = 2 ^ 64 from rfl] at h3
  rw [← List.reverse_reverse (natToLE 8 (n % 2 ^ 64)), h1, h3, ← h2, List.reverse_reverse]

theorem setInt64LE_two (b : Bytes) (hb : b.length = 16) (x y : W64) :
    ∃ b1, setInt64LE b 0 x = some b1 ∧ setInt64LE b1 8 y = some (toLE64 x ++ toLE64 y) := by
  have hx : (toLE64 x).length = 8 := by simp [toLE64]
  have hy : (toLE64 y).length = 8 := by simp [toLE64]
  have h1 := bytesBlit_ok (src := toLE64 x) (so := 0) (dst := b) (dofs := 0) (n := 8) (by omega) (by omega)
  rw [slice_full' hx] at h1
  refine ⟨_, h1, ?_⟩
  have hl : (splice b 0 (toLE64 x)).length = 16 := by rw [splice_length (by omega)]; omega
  have h2 := bytesBlit_ok (src := toLE64 y) (so := 0) (dst := splice b 0 (toLE64 x)) (dofs := 8)
    (n := 8) (by omega) (by omega)
  rw [slice_full' hy] at h2
  rw [setInt64LE]
  refine h2.trans ?_
  congr 1
  apply splice_prefix
  · have := splice_zero_take (b := b) (x := toLE64 x) (by omega)
    rwa [hx] at this
  · omega

section
variable {key iv header : Bytes} (hk : key.length = 16 ∨ key.length = 32)
  (hiv : iv.length = 8 ∨ iv.length = 12)
include hk hiv

theorem chapolyCha_ok {st : ChaPolySt} {p : Nat} (hc : ChaCha.At key iv 0 st.cha (64 + p))
    {src dst : Bytes} {so dofs n : Nat} (hs : so + n ≤ src.length) (hd : dofs + n ≤ dst.length) :
    ∃ cha', chapolyCha (.other src) so dofs n (st, dst)
      = .ok () ({ st with cha := cha' },
          splice dst dofs (xorKeystream (ChaCha20.keystream key iv 1) p (slice src so n)))
      ∧ ChaCha.At key iv 0 cha' (64 + (p + n)) := by
  obtain ⟨cha', e1, e2⟩ := (checkedStream_implements (chacha_generates hk hiv 0) ChaCha.wipe).run
    (src := .other src) (so := so) (dofs := dofs) (n := n) (dst := dst) hc hs hd trivial
  rw [Src.read_other, keystream_shift] at e1
  refine ⟨cha', ?_, by rw [← Nat.add_assoc]; exact e2⟩
  simp only [chapolyCha, M.zoom, chacha20, e1]

theorem chapolyEnc_runs (lim : Nat) (hlim : lim ≤ 2 ^ 62) :
    StreamRuns (chapolyEnc iv.length) (ChaPolyEncAt key iv header) (chapolyEncF key iv) lim where
  out_len := by intro a b; simp [chapolyEncF]
  run := by
    intro st ct src so dofs n dst ⟨hA, hL⟩ hn hs hd
    have hsl : (slice src so n).length = n := slice_length_of_le hs
    obtain ⟨cha', e1, c1⟩ := chapolyCha_ok hk hiv hA.cha (dst := dst) (dofs := dofs) hs hd
    generalize hO : xorKeystream (ChaCha20.keystream key iv 1) ct.length (slice src so n) = O at *
    have hOl : O.length = n := by rw [← hO, xorKeystream_length, hsl]
    have hdl : (splice dst dofs O).length = dst.length := splice_length (by omega)
    obtain ⟨h', e2, p2⟩ := hA.h.update (b := splice dst dofs O) (ofs := dofs) (n := n) (by omega)
    rw [slice_splice_same' hOl (by omega)] at p2
    have hcl : st.cipherlen + BitVec.ofInt 64 (n : Int) = BitVec.ofNat 64 (ct.length + n) := by
      rw [hA.cipherlen, BitVec.ofInt_natCast, BitVec.ofNat_add]
    have hex : (chapolyEncF key iv ct (slice src so n)).exn
        = if iv.length = 12 ∧ ct.length ≤ 2 ^ 38 ∧ ct.length + n > 2 ^ 38 then some (.error .messageTooLong) else none := by
      simp only [chapolyEncF, hsl]
    have hcode : (chapolyEnc iv.length).transform (.other src) so dofs n (st, dst)
        = if (BitVec.ofNat 64 (ct.length + n)).toInt > chapolyMaxlen iv.length then
            .exn (.error .messageTooLong) (⟨cha', h', st.headerlen, BitVec.ofNat 64 (ct.length + n)⟩,
              splice dst dofs O)
          else .ok () (⟨cha', h', st.headerlen, BitVec.ofNat 64 (ct.length + n)⟩, splice dst dofs O) := by
      simp only [chapolyEnc, M.bind_def, e1, M.get_def, chapolyHash, e2, M.orUB_some, M.modify_def,
        chapolyCount, hcl]
      by_cases hc : (BitVec.ofNat 64 (ct.length + n)).toInt > chapolyMaxlen iv.length
      · rw [if_pos hc, if_pos hc]; rfl
      · rw [if_neg hc, if_neg hc]; rfl
    rw [hex, hcode]
    have hout : (chapolyEncF key iv ct (slice src so n)).out = O := hO
    have hst : (chapolyEncF key iv ct (slice src so n)).st = ct ++ O := by
      simp only [chapolyEncF, hO]
    have hA' : ChaPolyAt key iv header ⟨cha', h', st.headerlen, BitVec.ofNat 64 (ct.length + n)⟩
        (ct ++ O) :=
      ⟨by rw [List.length_append, hOl]; exact c1, p2, hA.headerlen, by rw [List.length_append, hOl]⟩
    by_cases h12 : iv.length = 12
    · have hti : (BitVec.ofNat 64 (ct.length + n)).toInt = ((ct.length + n : Nat) : Int) := by
        have := hL h12
        rw [BitVec.toInt_eq_toNat_of_lt, BitVec.toNat_ofNat, Nat.mod_eq_of_lt (by omega)]
        rw [BitVec.toNat_ofNat, Nat.mod_eq_of_lt (by omega)]; omega
      rw [hti, chapolyMaxlen, if_pos h12]
      by_cases hc : ct.length + n > 2 ^ 38
      · rw [if_pos ⟨h12, hL h12, hc⟩, if_pos (by omega)]
        exact ⟨_, rfl⟩
      · rw [if_neg (fun hh => hc hh.2.2), if_neg (by omega)]
        refine ⟨_, by rw [hout], ?_⟩
        rw [hst]
        exact ⟨hA', fun _ => by rw [List.length_append, hOl]; omega⟩
    · have hti : (BitVec.ofNat 64 (ct.length + n)).toInt ≤ 2 ^ 63 - 1 := by
        have := BitVec.toInt_lt (x := BitVec.ofNat 64 (ct.length + n))
        omega
      rw [chapolyMaxlen, if_neg h12, if_neg (fun hh => h12 hh.1), if_neg (by omega)]
      refine ⟨_, by rw [hout], ?_⟩
      rw [hst]
      exact ⟨hA', fun hh => absurd hh h12⟩

theorem chapolyDec_runs (lim : Nat) :
    StreamRuns chapolyDec (ChaPolyAt key iv header) (chapolyDecF key iv) lim where
  out_len := by intro a b; simp [chapolyDecF]
  run := by
    intro st ct src so dofs n dst hA hn hs hd
    have hsl : (slice src so n).length = n := slice_length_of_le hs
    obtain ⟨h', e2, p2⟩ := hA.h.update (b := src) (ofs := so) (n := n) hs
    obtain ⟨cha', e1, c1⟩ := chapolyCha_ok hk hiv (st := { st with h := h' }) hA.cha (dst := dst)
      (dofs := dofs) hs hd
    have hcl : st.cipherlen + BitVec.ofInt 64 (n : Int) = BitVec.ofNat 64 (ct.length + n) := by
      rw [hA.cipherlen, BitVec.ofInt_natCast, BitVec.ofNat_add]
    refine ⟨⟨cha', h', st.headerlen, BitVec.ofNat 64 (ct.length + n)⟩, ?_, ?_, p2, hA.headerlen, ?_⟩
    · simp only [chapolyDec, M.bind_def, M.get_def, chapolyHash, Src.read_other, e2, M.orUB_some,
        M.modify_def, e1, chapolyCount, hcl, chapolyDecF]
    · simp only [chapolyDecF, List.length_append, hsl]; exact c1
    · simp only [chapolyDecF, List.length_append, hsl]

/-- `finish_and_get_tag`. -/
theorem polyFinish_ok (env : Env) {st : ChaPolySt} {ct : Bytes} (hA : ChaPolyAt key iv header st ct) :
    ∃ h', polyFinishAndGetTag env st = .ok (tag key iv header ct) { st with h := h' } := by
  obtain ⟨buf0, hr⟩ := hA.h
  have hn : st.cipherlen.toNat % 16 = ct.length % 16 := by
    rw [hA.cipherlen, BitVec.toNat_ofNat]; omega
  obtain ⟨h1, e1, r1⟩ := polyUpdatePad_ok hr (n := st.cipherlen.toNat % 16) (by omega)
  obtain ⟨b1, e2, e3⟩ := setInt64LE_two (env.create 16) (by simp) st.headerlen st.cipherlen
  have hLl : (toLE64 st.headerlen ++ toLE64 st.cipherlen).length = 16 := by simp [toLE64]
  obtain ⟨h2, e4, r2⟩ := polyUpdate_ok r1 (b := toLE64 st.headerlen ++ toLE64 st.cipherlen)
    (ofs := 0) (n := 16) (by omega)
  rw [slice_full' hLl, hn, hA.headerlen, hA.cipherlen, toLE64_ofNat, toLE64_ofNat] at r2
  obtain ⟨h3, e5⟩ := poly64Final_ok (otk_length hk hiv) r2
  have hmsg : zeroPad16 header ++ ct ++ List.replicate ((16 - ct.length % 16) % 16) 0
        ++ (natToLE 8 header.length ++ natToLE 8 ct.length)
      = zeroPad16 header ++ zeroPad16 ct ++ natToLE 8 header.length ++ natToLE 8 ct.length := by
    simp only [zeroPad16, List.append_assoc]
  rw [hmsg] at e5
  rw [Int.natCast_zero, show ((16 : Nat) : Int) = 16 from rfl] at e4
  refine ⟨h3, ?_⟩
  simp only [polyFinishAndGetTag, M.bind_def, M.get_def, e1, M.orUB_some, e2, M.orRaise_some, e3, e4, e5,
    M.modify_def, M.pure_def]
  rfl

/-- Output and tag at the end: nothing is left to output. -/
def chapolyFin (key iv header : Bytes) (ct : Bytes) : SRes Bytes := .ok [] (tag key iv header ct)

theorem chapolyFinish_ok {At : ChaPolySt → Bytes → Prop} {c : StreamCipher ChaPolySt} (env : Env)
    (hAt : ∀ {s ct}, At s ct → ChaPolyAt key iv header s ct)
    {t : StreamSt ChaPolySt} {ct q : Bytes} (hR : GenPos At t ct ∧ OBuf.Rep env t.ob q) :
    ∃ t' t'', chapolyFinish env t = .ok (tag key iv header ct) t'
      ∧ (streamTransform env c).getString t' = .ok (q ++ []) t'' := by
  obtain ⟨h', e⟩ := polyFinish_ok hk hiv env (hAt hR.1.1)
  have e1 := (OBuf.getString_ok hR.2)
  refine ⟨{ t with c := { t.c with h := h' } },
    { t with c := { t.c with h := h' }, ob := { t.ob with obeg := 0, oend := 0 } },
    by simp only [chapolyFinish, M.zoom, e], ?_⟩
  rw [List.append_nil]
  simp only [streamTransform, inheritBuf, M.zoom, e1]

theorem chapolyEnc_refines (env : Env) (hlim : env.maxLen ≤ 2 ^ 62) :
    AuthRefines (chacha20Poly1305 env iv.length .encrypt) (genSpec (chapolyEncF key iv))
      (chapolyFin key iv header) env.maxLen
      (fun t s q => GenPos (ChaPolyEncAt key iv header) t s ∧ OBuf.Rep env t.ob q) where
  base := genTransform_refines env (chapolyEnc_runs hk hiv env.maxLen hlim)
  tag := fun hR _ => chapolyFinish_ok hk hiv env (fun h => h.1) hR
  wipe := fun _ => ⟨_, rfl⟩

theorem chapolyDec_refines (env : Env) :
    AuthRefines (chacha20Poly1305 env iv.length .decrypt) (genSpec (chapolyDecF key iv))
      (chapolyFin key iv header) env.maxLen
      (fun t s q => GenPos (ChaPolyAt key iv header) t s ∧ OBuf.Rep env t.ob q) where
  base := genTransform_refines env (chapolyDec_runs hk hiv env.maxLen)
  tag := fun hR _ => chapolyFinish_ok hk hiv env (fun h => h) hR
  wipe := fun _ => ⟨_, rfl⟩

theorem chapolyInit_ok (env : Env) (header : Bytes) :
    ∃ st, chacha20Poly1305Init env header iv key = .ok (streamInit env st) ()
      ∧ ChaPolyAt key iv header st [] := by
  have ha : Spec.ChaChaArgs key (some iv) ((none : Option W64).getD 0) :=
    ⟨hk, by rintro _ ⟨⟩; rcases hiv with h | h
            · exact .inl h
            · exact .inr ⟨h, by decide⟩⟩
  have e0 := chacha20Init_ok env ha
  have hc := chachaInit_at env (0 : W64) hk hiv
  obtain ⟨h, cha', e1, e2, e3⟩ := polyInitHash_ok env hk hiv header hc
  refine ⟨⟨cha', h, BitVec.ofNat 64 header.length, 0⟩, ?_, e2, e3, rfl, rfl⟩
  simp only [chacha20Poly1305Init, chapolyInit, e0]
  rw [show chachaInit env key (Spec.chachaIV (some iv)) ((none : Option W64).getD 0)
    = chachaInit env key iv 0 from rfl, e1]

end

theorem chapolyEnc_lawful (key iv : Bytes) : (genSpec (chapolyEncF key iv)).Lawful where
  put_nil := by
    intro s
    simp only [genSpec, chapolyEncF, List.length_nil, Nat.add_zero, xorKeystream_nil, List.append_nil]
    rw [if_neg (by omega)]
  put_append := by
    intro s a b
    simp only [genSpec, chapolyEncF, xorKeystream_append, List.length_append]
    by_cases h1 : iv.length = 12 ∧ s.length ≤ 2 ^ 38 ∧ s.length + a.length > 2 ^ 38
    · rw [if_pos h1, if_pos (by omega)]
      simp [SRes.andThen, SRes.Le]
    · rw [if_neg h1]
      simp only [SRes.andThen, List.length_append, xorKeystream_length]
      by_cases h2 : iv.length = 12 ∧ s.length ≤ 2 ^ 38 ∧ s.length + (a.length + b.length) > 2 ^ 38
      · rw [if_pos h2, if_pos (by omega)]
        simp [SRes.Le]
      · rw [if_neg h2, if_neg (by omega)]
        simp [SRes.Le]

theorem chapolyDec_lawful (key iv : Bytes) : (genSpec (chapolyDecF key iv)).Lawful where
  put_nil := by intro s; simp [genSpec, chapolyDecF]
  put_append := by
    intro s a b
    simp [genSpec, chapolyDecF, xorKeystream_append, SRes.andThen, SRes.Le]

end Verif
