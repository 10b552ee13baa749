import Verif.Proof.Cmac
import Verif.Props.C04_C05_C06_Padding
import Verif.Props.Example
import Verif.Props.C22_C24_SHA
/-
C15-C17: MACs built from block ciphers.
-/
namespace Verif

variable {σ σ2 σ3 : Type}

theorem HashObj.calls_zoom {τ ρ : Type} {h : HashObj ρ} {h' : HashObj τ} {get : τ → ρ}
    {set : ρ → τ → τ} (hg : ∀ r t, get (set r t) = r) (hs : ∀ r r' t, set r' (set r t) = set r' t)
    (hid : ∀ t, set (get t) t = t)
    (hcall : ∀ op, h'.call op = M.zoom get set (h.call op)) (ops : List HOp) (t : τ) :
    h'.calls ops t = M.zoom get set (h.calls ops) t := by
  induction ops generalizing t with
  | nil => simp [HashObj.calls, M.zoom, hid]
  | cons op ops ih =>
    simp only [HashObj.calls, hcall, M.zoom]
    cases h.call op (get t) with
    | ok a r =>
      simp only [ih, M.zoom, hg]
      cases h.calls ops r <;> simp [hs]
    | exn e r => rfl
    | ub => rfl
    | loop => rfl

/-- C15, without padding: the object computes the CBC-MAC of the data, and `result` raises
`Wrong_data_length` exactly when the data is not a whole number of blocks. The initial value is the
IV given, or zeros. -/
theorem C15_mac {c : BlockCipher σ} {k : σ} {E : Bytes → Bytes} (hc : PureCipher c k E) (env : Env)
    (iv : Option Bytes) (st : MacSt σ) (hst : macInit env c k iv = .ok st)
    (ops : List HOp) (hops : ∀ op ∈ ops, op.Legal) :
    ((mac c none).digest ops st).observe
      = some (if c.blocksize ∣ (hinputOf ops).length then
          .ok (Spec.cbcMac E c.blocksize (iv.getD (List.replicate c.blocksize 0)) (hinputOf ops))
        else .error (.error .wrongDataLength)) := by
  obtain ⟨st', h1, h2⟩ := mac_calls_rep (pad := none) hc (macRep_init hst) ops hops
  rw [List.nil_append] at h2
  unfold HashObj.digest
  rw [h1]
  exact macResult_none hc h2

/-- C15, with a padding scheme of the library: the CBC-MAC of the padded data. -/
theorem C15_mac_padded {c : BlockCipher σ} {k : σ} {E : Bytes → Bytes} (hc : PureCipher c k E)
    (env : Env) {p : PadScheme} {pad : Bytes → Bytes} (hp : LibraryPadding.fn pad p c.blocksize)
    (iv : Option Bytes) (st : MacSt σ) (hst : macInit env c k iv = .ok st) :
    (mac c (some p)).Computes st fun m =>
      Spec.cbcMac E c.blocksize (iv.getD (List.replicate c.blocksize 0))
        (Spec.padMessage c.blocksize pad m) := by
  intro ops hops
  obtain ⟨st', h1, h2⟩ := mac_calls_rep (pad := some p) hc (macRep_init hst) ops hops
  rw [List.nil_append] at h2
  unfold HashObj.digest
  rw [h1]
  exact macResult_some hc h2 (LibraryPadding.computes hc.pos hp)

/-- Creating a MAC succeeds exactly when the IV, if given, is one block long; otherwise it raises
`Wrong_IV_size`. -/
theorem C14_mac_iv (env : Env) (c : BlockCipher σ) (s : σ) (iv : Option Bytes) :
    (∃ st, macInit env c s iv = .ok st) ∧ (∀ v, iv = some v → v.length = c.blocksize) ∨
    macInit env c s iv = .error (.error .wrongIVSize) ∧ ∃ v, iv = some v ∧ v.length ≠ c.blocksize := by
  unfold macInit makeInitialIV
  cases iv with
  | none => left; simp
  | some v =>
    by_cases h : v.length = c.blocksize
    · left; simp [h]
    · right; simp [h]

/-- Results of a MAC, followed by the final encryptions. -/
theorem mac3Finish_ok {c2 : BlockCipher σ2} {c3 : BlockCipher σ3} {k2 : σ2} {k3 : σ3}
    {E2 E3 : Bytes → Bytes} (h2 : PureCipher c2 k2 E2) (h3 : PureCipher c3 k3 E3)
    (hb : c3.blocksize = c2.blocksize) {r : Bytes} (hr : r.length = c2.blocksize) (m : MacSt σ) :
    mac3Finish c2 c3 r ⟨m, k2, k3⟩ = .ok (E3 (E2 r)) ⟨m, k2, k3⟩ := by
  have r2 := h2.run (s := k2) (src := .self) (so := 0) (dofs := 0) (dst := r) rfl
    (by simp [hr]) (by omega)
  have hl2 : (E2 r).length = c2.blocksize := h2.out_len (s := k2) rfl hr
  have r3 := h3.run (s := k3) (src := .self) (so := 0) (dofs := 0) (dst := E2 r) rfl
    (by simp [hl2, hb]) (by omega)
  have hl3 : (E3 (E2 r)).length = c3.blocksize := h3.out_len (s := k3) rfl (by omega)
  unfold mac3Finish
  rw [Src.read_self, slice_full' (by omega)] at r2 r3
  rw [show (0 : Int) = ((0 : Nat) : Int) by rfl]
  simp only [r2, BRes.toOut]
  rw [splice_full (by omega)]
  simp only [r3, BRes.toOut]
  rw [splice_full (by omega)]

theorem mac3_calls {c1 : BlockCipher σ} {c2 : BlockCipher σ2} {c3 : BlockCipher σ3}
    {pad : Option PadScheme} (ops : List HOp) {t : Mac3St σ σ2 σ3} {m' : MacSt σ}
    (h : (mac c1 pad).calls ops t.m = .ok () m') :
    (macFinalTriple c1 c2 c3 pad).calls ops t = .ok () { t with m := m' } := by
  rw [HashObj.calls_zoom (h := mac c1 pad) (get := Mac3St.m) (set := fun m t => { t with m := m })
    (fun _ _ => rfl) (fun _ _ _ => rfl) (fun _ => rfl) (by intro op; cases op <;> rfl)]
  simp [M.zoom, h]

theorem mac3_result {c1 : BlockCipher σ} {c2 : BlockCipher σ2} {c3 : BlockCipher σ3}
    {pad : Option PadScheme} {k2 : σ2} {k3 : σ3}
    {E2 E3 : Bytes → Bytes} (h2 : PureCipher c2 k2 E2) (h3 : PureCipher c3 k3 E3)
    (hb : c3.blocksize = c2.blocksize) (m : MacSt σ) {x : Except Exn Bytes}
    (hm : (macResult c1 pad m).observe = some x)
    (hl : ∀ r, x = .ok r → r.length = c2.blocksize) :
    ((macFinalTriple c1 c2 c3 pad).result ⟨m, k2, k3⟩).observe
      = some (x.map fun r => E3 (E2 r)) := by
  show ((Mac3St.onMac (macResult c1 pad) >>= fun r => mac3Finish c2 c3 r) ⟨m, k2, k3⟩).observe = _
  rw [M.bind_def]
  simp only [Mac3St.onMac, M.zoom]
  cases hx : macResult c1 pad m with
  | ok r m' =>
    rw [hx] at hm
    simp only [Out.observe, Option.some.injEq] at hm
    subst hm
    simp only
    rw [mac3Finish_ok h2 h3 hb (hl r rfl)]
    rfl
  | exn e m' =>
    rw [hx] at hm
    simp only [Out.observe, Option.some.injEq] at hm
    subst hm
    rfl
  | ub => rw [hx] at hm; cases hm
  | loop => rw [hx] at hm; cases hm

theorem cbcFold_length {n : Nat} {E : Bytes → Bytes} (hE : ∀ b : Bytes, b.length = n → (E b).length = n)
    (bs : List Bytes) : ∀ iv : Bytes, iv.length = n → (∀ b ∈ bs, b.length = n) →
    (cbcFold E iv bs).length = n := by
  induction bs with
  | nil => intro iv h _; exact h
  | cons b bs ih =>
    intro iv h hb
    simp only [List.mem_cons, forall_eq_or_imp] at hb
    exact ih _ (hE _ (by simp [hb.1, h])) hb.2

theorem cbcMac_length {n : Nat} (hn : 0 < n) {E : Bytes → Bytes}
    (hE : ∀ b : Bytes, b.length = n → (E b).length = n) {iv m : Bytes} (hi : iv.length = n)
    (hm : n ∣ m.length) : (Spec.cbcMac E n iv m).length = n := by
  rw [Spec.cbcMac, cbcEnc_getLastD]
  refine cbcFold_length hE _ _ hi ?_
  exact chunks_length_of_dvd hn _ hm

theorem mac3Init_inv {env : Env} {c1 : BlockCipher σ} {c2 : BlockCipher σ2} {c3 : BlockCipher σ3}
    {k1 : σ} {k2 : σ2} {k3 : σ3} {iv : Option Bytes} {t : Mac3St σ σ2 σ3}
    (h : mac3Init env c1 c2 c3 k1 k2 k3 iv = .ok t) :
    c1.blocksize = c2.blocksize ∧ c2.blocksize = c3.blocksize ∧
      ∃ m, macInit env c1 k1 iv = .ok m ∧ t = ⟨m, k2, k3⟩ := by
  unfold mac3Init at h
  split at h
  · cases h
  · rename_i hb
    cases hm : macInit env c1 k1 iv with
    | error e => rw [hm] at h; cases h
    | ok m =>
      rw [hm] at h
      cases h
      exact ⟨by omega, by omega, m, rfl, rfl⟩

theorem iv0_length {env : Env} {c : BlockCipher σ} {s : σ} {iv : Option Bytes} {st : MacSt σ}
    (h : macInit env c s iv = .ok st) :
    (iv.getD (List.replicate c.blocksize 0)).length = c.blocksize := by
  rcases C14_mac_iv env c s iv with ⟨_, h1⟩ | ⟨h1, _⟩
  · cases iv with
    | none => simp
    | some v => simpa using h1 v rfl
  · rw [h1] at h; cases h

/-- C16, without padding: the CBC-MAC under the first key is encrypted with the second and third
ciphers (decryption and encryption in the ANSI X9.9 MAC), with the same error on partial blocks. -/
theorem C16_mac_final_triple {c1 : BlockCipher σ} {c2 : BlockCipher σ2} {c3 : BlockCipher σ3}
    {k1 : σ} {k2 : σ2} {k3 : σ3} {E1 E2 E3 : Bytes → Bytes} (h1 : PureCipher c1 k1 E1)
    (h2 : PureCipher c2 k2 E2) (h3 : PureCipher c3 k3 E3) (env : Env)
    (iv : Option Bytes) (t : Mac3St σ σ2 σ3) (ht : mac3Init env c1 c2 c3 k1 k2 k3 iv = .ok t)
    (ops : List HOp) (hops : ∀ op ∈ ops, op.Legal) :
    ((macFinalTriple c1 c2 c3 none).digest ops t).observe
      = some (if c1.blocksize ∣ (hinputOf ops).length then
          .ok (E3 (E2 (Spec.cbcMac E1 c1.blocksize (iv.getD (List.replicate c1.blocksize 0))
            (hinputOf ops))))
        else .error (.error .wrongDataLength)) := by
  obtain ⟨hb1, hb2, m, hm, rfl⟩ := mac3Init_inv ht
  obtain ⟨st', hc, hr⟩ := mac_calls_rep (pad := none) h1 (macRep_init hm) ops hops
  rw [List.nil_append] at hr
  unfold HashObj.digest
  rw [mac3_calls (t := ⟨m, k2, k3⟩) ops hc]
  rw [mac3_result h2 h3 (by omega) st' (macResult_none h1 hr) ?_]
  · split <;> rfl
  · intro r hx
    split at hx
    · cases hx
      rw [cbcMac_length h1.pos (fun b hb => h1.out_len rfl hb) (iv0_length hm) (by assumption), hb1]
    · cases hx

theorem padMessage_dvd {n : Nat} (hn : 0 < n) {pad : Bytes → Bytes}
    (hp : ∀ x : Bytes, x.length < n → (pad x).length = n) (m : Bytes) :
    n ∣ (Spec.padMessage n pad m).length := by
  rw [padMessage_length hn hp]
  exact Nat.dvd_mul_left _ _

/-- C16, with a padding scheme of the library. -/
theorem C16_mac_final_triple_padded {c1 : BlockCipher σ} {c2 : BlockCipher σ2}
    {c3 : BlockCipher σ3} {k1 : σ} {k2 : σ2} {k3 : σ3} {E1 E2 E3 : Bytes → Bytes}
    (h1 : PureCipher c1 k1 E1) (h2 : PureCipher c2 k2 E2) (h3 : PureCipher c3 k3 E3) (env : Env)
    {p : PadScheme} {pad : Bytes → Bytes} (hp : LibraryPadding.fn pad p c1.blocksize)
    (iv : Option Bytes) (t : Mac3St σ σ2 σ3) (ht : mac3Init env c1 c2 c3 k1 k2 k3 iv = .ok t) :
    (macFinalTriple c1 c2 c3 (some p)).Computes t fun m =>
      E3 (E2 (Spec.cbcMac E1 c1.blocksize (iv.getD (List.replicate c1.blocksize 0))
        (Spec.padMessage c1.blocksize pad m))) := by
  intro ops hops
  obtain ⟨hb1, hb2, m, hm, rfl⟩ := mac3Init_inv ht
  obtain ⟨st', hc, hr⟩ := mac_calls_rep (pad := some p) h1 (macRep_init hm) ops hops
  rw [List.nil_append] at hr
  have hcomp := LibraryPadding.computes h1.pos hp
  unfold HashObj.digest
  rw [mac3_calls (t := ⟨m, k2, k3⟩) ops hc]
  rw [mac3_result h2 h3 (by omega) st' (macResult_some h1 hr hcomp) ?_]
  · rfl
  · intro r hx
    cases hx
    rw [cbcMac_length h1.pos (fun b hb => h1.out_len rfl hb) (iv0_length hm)
      (padMessage_dvd h1.pos (fun x hx => hcomp.pad_len hx) _), hb1]

/-- C16: creation raises `Incompatible_block_size` exactly when the three block sizes are not all
equal; otherwise it succeeds or fails as for `mac`. -/
theorem C16_block_sizes (env : Env) (c1 : BlockCipher σ) (c2 : BlockCipher σ2) (c3 : BlockCipher σ3)
    (s1 : σ) (s2 : σ2) (s3 : σ3) (iv : Option Bytes) :
    (mac3Init env c1 c2 c3 s1 s2 s3 iv = .error (.error .incompatibleBlockSize) ↔
      ¬ (c1.blocksize = c2.blocksize ∧ c2.blocksize = c3.blocksize)) ∧
    ((c1.blocksize = c2.blocksize ∧ c2.blocksize = c3.blocksize) →
      (∀ v, iv = some v → v.length = c1.blocksize) →
      ∃ m, mac3Init env c1 c2 c3 s1 s2 s3 iv = .ok ⟨m, s2, s3⟩) := by
  unfold mac3Init
  constructor
  · by_cases h : c1.blocksize = c2.blocksize ∧ c2.blocksize = c3.blocksize
    · rw [if_neg (by omega)]
      rcases C14_mac_iv env c1 s1 iv with ⟨⟨m, hm⟩, _⟩ | ⟨hm, _⟩ <;> simp [hm, h]
    · rw [if_pos (by omega)]
      simpa using h
  · intro h hiv
    rw [if_neg (by omega)]
    rcases C14_mac_iv env c1 s1 iv with ⟨⟨m, hm⟩, _⟩ | ⟨_, v, hv, hne⟩
    · exact ⟨m, by simp [hm]⟩
    · exact absurd (hiv v hv) hne

theorem cmac_calls {c : BlockCipher σ} (ops : List HOp) {t : CmacSt σ} {m' : MacSt σ}
    (h : (mac c none).calls ops t.m = .ok () m') :
    (cmac c).calls ops t = .ok () { t with m := m' } := by
  rw [HashObj.calls_zoom (h := mac c none) (get := CmacSt.m) (set := fun m t => { t with m := m })
    (fun _ _ => rfl) (fun _ _ _ => rfl) (fun _ => rfl) (by intro op; cases op <;> rfl)]
  simp [M.zoom, h]

/-- C17: over any 16-byte block cipher (here a cipher with key state `k` computing `E`), `aes_cmac`
succeeds when the IV, if any, is 16 bytes long, and the object computes CMAC as in NIST SP 800-38B,
with chaining value initialised to the IV (zeros, as in the standard, by default), for every message
including the empty one. -/
theorem C17_cmac {c : BlockCipher σ} {k : σ} {E : Bytes → Bytes} (hc : PureCipher c k E)
    (h16 : c.blocksize = 16) (env : Env) (iv : Option Bytes)
    (hiv : ∀ v, iv = some v → v.length = 16) :
    ∃ st, aesCmacNew env c k iv = .ok st k ∧
      (cmac c).Computes st (Spec.CMAC E (iv.getD (List.replicate 16 0))) := by
  rcases C14_mac_iv env c k iv with ⟨⟨m, hm⟩, _⟩ | ⟨_, v, hv, hne⟩
  · refine ⟨_, aesCmacNew_ok hc env h16 hm, ?_⟩
    intro ops hops
    obtain ⟨st', h1, h2⟩ := mac_calls_rep (pad := none) hc (macRep_init hm) ops hops
    rw [List.nil_append] at h2
    unfold HashObj.digest
    rw [cmac_calls (t := ⟨m, Spec.K1 E, Spec.K2 E⟩) ops h1]
    obtain ⟨st'', h3⟩ := cmacResult_ok hc h16 h2
    rw [h16] at h3
    show ((M.get >>= fun st => CmacSt.onMac (cmacResult c st.k1 st.k2))
      (⟨st', Spec.K1 E, Spec.K2 E⟩ : CmacSt σ)).observe = _
    rw [M.bind_ok (M.get_def _)]
    simp only [CmacSt.onMac, M.zoom, h3]
    rfl
  · exact absurd (hiv v hv) (by rw [← h16]; exact hne)

end Verif

namespace Verif.Example

/-- C15 on a concrete cipher: "abc" fed in pieces, 4-byte blocks, padded. -/
example : ∃ st, macInit env64 toyEnc key (some iv) = .ok st ∧
    ((mac toyEnc (some Padding._8000)).digest hops st).observe
      = some (.ok (Spec.cbcMac (toyE key) 4 iv (Spec.padMessage 4 (Spec.pad8000 4) (ascii "abc")))) := by
  refine ⟨_, rfl, ?_⟩
  have := C15_mac_padded toyEnc_pure env64 (p := Padding._8000) (.inr ⟨rfl, rfl⟩) (some iv) _ rfl
    hops hops_legal
  rw [hops_input] at this
  exact this

/-- ... and without padding, where 3 bytes are refused. -/
example : ∃ st, macInit env64 toyEnc key none = .ok st ∧
    ((mac toyEnc none).digest hops st).observe = some (.error (.error .wrongDataLength)) := by
  refine ⟨_, rfl, ?_⟩
  have := C15_mac toyEnc_pure env64 none _ rfl hops hops_legal
  rw [hops_input] at this
  exact this

/-- C16 on a concrete cipher. -/
example : ∃ st, mac3Init env64 toyEnc toyDec toyEnc key key key none = .ok st ∧
    ((macFinalTriple toyEnc toyDec toyEnc (some Padding.length)).digest hops st).observe
      = some (.ok (toyE key (toyD key (Spec.cbcMac (toyE key) 4 [0, 0, 0, 0]
          (Spec.padMessage 4 (Spec.padLength 4) (ascii "abc")))))) := by
  refine ⟨_, rfl, ?_⟩
  have := C16_mac_final_triple_padded toyEnc_pure toyDec_pure toyEnc_pure env64
    (p := Padding.length) (.inl ⟨rfl, by decide, rfl⟩) none _ rfl hops hops_legal
  rw [hops_input] at this
  exact this

/-- A cipher with 16-byte blocks. -/
def toy16E (k b : Bytes) : Bytes := (xorb b k).reverse
def toy16 : BlockCipher Bytes := checkedCipher 16 (fun k b => some (toy16E k b)) (fun _ => []) id
def key16 : Bytes := (List.range 16).map fun i => BitVec.ofNat 8 (0xf1 + 7 * i)

theorem toy16_pure : PureCipher toy16 key16 (toy16E key16) :=
  checkedCipher_pure (Es := []) (by decide) (fun _ _ => rfl) (fun _ _ => rfl)
    (by intro b hb; simp [toy16E, key16, hb]) (by simp)

/-- C17 on a concrete cipher. -/
example : ∃ st, aesCmacNew env64 toy16 key16 none = .ok st key16 ∧
    ((cmac toy16).digest hops st).observe
      = some (.ok (Spec.CMAC (toy16E key16) (List.replicate 16 0) (ascii "abc"))) := by
  obtain ⟨st, h1, h2⟩ := C17_cmac toy16_pure rfl env64 none (by simp)
  refine ⟨st, h1, ?_⟩
  have := h2 hops hops_legal
  rw [hops_input] at this
  exact this

end Verif.Example
