import Verif.Proof.Bounds
import Verif.Props.C07_C11_Modes
/-
C12 Block transforms give the same result in place.
C13 Block transforms check their bounds.
-/
namespace Verif

/-- The offsets leave a whole block in source and destination. -/
def Spec.LegalArgs (n : Nat) (src : Src) (so dofs : Int) (dst : Bytes) : Prop :=
  InRange (src.read dst) so n ∧ InRange dst dofs n

/-- In the states `inv`, a transform with source and destination the same sequence, at legal
offsets, has the same outcome (exception if any, new state) and stores the same block at
the destination offset as one whose source is another sequence `b` holding the same block,
and it leaves all other bytes of the destination unchanged. -/
def Spec.InPlaceSafe (c : BlockCipher σ) (inv : σ → Prop) : Prop :=
  ∀ (s : σ) (dst b : Bytes) (so so' dofs : Nat), inv s →
    so + c.blocksize ≤ dst.length → so' + c.blocksize ≤ b.length →
    dofs + c.blocksize ≤ dst.length →
    slice b so' c.blocksize = slice dst so c.blocksize →
    ∃ (e : Option Exn) (s' : σ) (out : Bytes) (d' : Bytes),
      out.length = c.blocksize ∧ d'.length = dst.length ∧
      slice d' dofs c.blocksize = out ∧
      (∀ i, i < dofs ∨ dofs + c.blocksize ≤ i → d'[i]? = dst[i]?) ∧
      c.transform .self so dofs (s, dst)
        = (match e with | none => .ok () (s', d') | some x => .exn x (s', d')) ∧
      c.transform (.other b) so' dofs (s, dst)
        = (match e with | none => .ok () (s', d') | some x => .exn x (s', d'))

theorem inPlaceSafe_of_implements {c : BlockCipher σ} {inv : σ → Prop} {f : σ → Bytes → BRes σ}
    (h : Implements c inv f) : Spec.InPlaceSafe c inv := by
  intro s dst b so so' dofs hs hso hso' hd hsl
  have hb : (slice dst so c.blocksize).length = c.blocksize := slice_length_of_le hso
  have hout := h.out_len hs hb
  have r1 := h.run (s := s) (src := .self) (so := so) (dofs := dofs) (dst := dst) hs hso hd
  have r2 := h.run (s := s) (src := .other b) (so := so') (dofs := dofs) (dst := dst) hs hso' hd
  simp only [Src.read_self, Src.read_other, hsl] at r1 r2
  refine ⟨(f s (slice dst so c.blocksize)).exn, (f s (slice dst so c.blocksize)).st,
    (f s (slice dst so c.blocksize)).out, splice dst dofs (f s (slice dst so c.blocksize)).out,
    hout, splice_length (by omega), slice_splice_same' hout hd, ?_, ?_, ?_⟩
  · intro i hi
    rw [getElem?_splice (by omega), hout]
    rcases hi with hi | hi
    · rw [if_pos hi]
    · rw [if_neg (by omega), if_neg (by omega)]
  · rw [r1, BRes.toOut]
    cases (f s (slice dst so c.blocksize)).exn <;> rfl
  · rw [r2, BRes.toOut]
    cases (f s (slice dst so c.blocksize)).exn <;> rfl

variable {σ : Type} {c : BlockCipher σ} {k : σ} {E : Bytes → Bytes}

/-- C12 for a block cipher with an in-place-safe C stub (`checkedCipher_pure`, applied to each
cipher in C41, C43, C44) and for every chaining mode over such a cipher. -/
theorem C12_in_place (h : PureCipher c k E) :
    Spec.InPlaceSafe c (· = k) ∧
    Spec.InPlaceSafe (cbcEncrypt c) (ModeInv k c.blocksize) ∧
    Spec.InPlaceSafe (cbcDecrypt c) (ModeInv k c.blocksize) ∧
    (∀ n, 0 < n → n ≤ c.blocksize →
      Spec.InPlaceSafe (cfbEncrypt n c) (ModeInv k c.blocksize) ∧
      Spec.InPlaceSafe (cfbDecrypt n c) (ModeInv k c.blocksize) ∧
      Spec.InPlaceSafe (ofb n c) (ModeInv k c.blocksize) ∧
      Spec.InPlaceSafe (ctr n c) (fun st => ModeInv k c.blocksize st.m)) :=
  ⟨inPlaceSafe_of_implements h, inPlaceSafe_of_implements (cbcEncrypt_implements h),
    inPlaceSafe_of_implements (cbcDecrypt_implements h), fun _ hn hn' =>
    ⟨inPlaceSafe_of_implements (cfbEncrypt_implements h hn hn'),
      inPlaceSafe_of_implements (cfbDecrypt_implements h hn hn'),
      inPlaceSafe_of_implements (ofb_implements h hn hn'),
      inPlaceSafe_of_implements (ctr_implements h hn')⟩⟩

/-- The states `ModeInv` of C12 include the initial state of a mode and are preserved by
legal block transforms (`Implements.inv_step`). -/
theorem C12_states (h : PureCipher c k E) (env : Env) {iv : Option Bytes}
    (hiv : Spec.IVOk c.blocksize iv) :
    ∃ st, modeInit env c k iv = .ok st ∧ ModeInv k c.blocksize st ∧
      ∀ st' (b : Bytes), ModeInv k c.blocksize st' → b.length = c.blocksize →
        ModeInv k c.blocksize (cbcEncF E st' b).st ∧ ModeInv k c.blocksize (cbcDecF E st' b).st :=
  ⟨_, modeInit_ok env c k hiv, modeInv_init env _ k hiv, fun _ _ hs hb =>
    ⟨(cbcEncrypt_implements h).inv_step hs hb, (cbcDecrypt_implements h).inv_step hs hb⟩⟩

/-! ### C13 -/

/-- On illegal offsets, `transform` raises `Invalid_argument` and leaves the destination
unchanged. -/
def Spec.ChecksBounds (c : BlockCipher σ) (inv : σ → Prop) : Prop :=
  ∀ (s : σ) (src : Src) (so dofs : Int) (dst : Bytes), inv s →
    ¬ Spec.LegalArgs c.blocksize src so dofs dst →
    ∃ s', c.transform src so dofs (s, dst) = .exn .invalidArg (s', dst)

/-- The AES, DES, Triple-DES and Blowfish objects check their bounds, in every state. -/
theorem C13_ciphers (n : Nat) (stub : σ → Bytes → Option Bytes)
    (stubs : σ → List (Bytes → Option Bytes)) (wipe : σ → σ) :
    Spec.ChecksBounds (checkedCipher n stub stubs wipe) (fun _ => True) := by
  intro s src so dofs dst _ hbad
  refine ⟨s, ?_⟩
  simp only [checkedCipher, M.bind_def, M.get_def]
  unfold Spec.LegalArgs InRange at hbad
  rw [if_pos (by
    simp only [checkedCipher] at hbad
    omega)]
  rfl

theorem not_inRange_src {src : Src} {so dofs : Int} {dst : Bytes} {n : Nat}
    (h : ¬ Spec.LegalArgs n src so dofs dst) (h1 : InRange (src.read dst) so n) :
    ¬ InRange dst dofs n := fun h2 => h ⟨h1, h2⟩

theorem bytesBlit_bad {src : Src} {so dofs : Int} {dst : Bytes} {n : Nat}
    (h : ¬ Spec.LegalArgs n src so dofs dst) :
    bytesBlit (src.read dst) so dst dofs n = none := by
  unfold bytesBlit; exact if_neg h

theorem C13_cbc_decrypt {inv : σ → Prop} (h : PureCipher c k E) (hc : Spec.ChecksBounds c inv)
    (hk : inv k) : Spec.ChecksBounds (cbcDecrypt c) (ModeInv k c.blocksize) := by
  intro s src so dofs dst hs hbad
  obtain ⟨kk, iv, aux⟩ := s
  obtain ⟨h1, h2, h3⟩ := hs
  simp only at h1 h2 h3
  subst h1
  simp only [show (cbcDecrypt c).blocksize = c.blocksize from rfl] at hbad
  simp only [cbcDecrypt, M.bind_def, M.get_def]
  by_cases hsrc : InRange (src.read dst) so c.blocksize
  · obtain ⟨so', rfl⟩ : ∃ n : Nat, so = n := ⟨so.toNat, by unfold InRange at hsrc; omega⟩
    have hb := bytesBlit_ok (src := src.read dst) (so := so') (dst := aux) (dofs := 0)
      (n := c.blocksize) (by unfold InRange at hsrc; omega) (by omega)
    rw [Int.natCast_zero] at hb
    simp only [hb, M.orRaise_some]
    obtain ⟨s', hr⟩ := hc kk src so' dofs dst hk hbad
    simp only [ModeSt.setAux, M.modify_def, ModeSt.callDst, M.zoom, hr]
    exact ⟨_, rfl⟩
  · rw [bytesBlit_bad_src hsrc]
    exact ⟨_, rfl⟩

theorem C13_cfb_encrypt (h : PureCipher c k E) {n : Nat} :
    Spec.ChecksBounds (cfbEncrypt n c) (ModeInv k c.blocksize) := by
  intro s src so dofs dst hs hbad
  obtain ⟨kk, iv, aux⟩ := s
  obtain ⟨h1, h2, h3⟩ := hs
  simp only at h1 h2 h3
  subst h1
  have hb := bytesBlit_bad (n := n) hbad
  simp only [cfbEncrypt, M.bind_def, M.get_def, callAux_ok h h2 h3, hb]
  exact ⟨_, rfl⟩

theorem C13_cfb_decrypt (h : PureCipher c k E) {n : Nat} (hn' : n ≤ c.blocksize) :
    Spec.ChecksBounds (cfbDecrypt n c) (ModeInv k c.blocksize) := by
  intro s src so dofs dst hs hbad
  obtain ⟨kk, iv, aux⟩ := s
  obtain ⟨h1, h2, h3⟩ := hs
  simp only at h1 h2 h3
  subst h1
  have hb := bytesBlit_bad (n := n) hbad
  simp only [cfbDecrypt, M.bind_def, M.get_def, callAux_ok h h2 h3, shift_blit h2 hn',
    M.orRaise_some, ModeSt.setIv, M.modify_def]
  cases hbl : bytesBlit (src.read dst) so (iv.drop n ++ iv.drop (c.blocksize - n))
      ((c.blocksize : Int) - n) n with
  | none => exact ⟨_, rfl⟩
  | some iv' =>
    simp only [M.orRaise_some, hb]
    exact ⟨_, rfl⟩

theorem C13_ofb (h : PureCipher c k E) {n : Nat} :
    Spec.ChecksBounds (ofb n c) (ModeInv k c.blocksize) := by
  intro s src so dofs dst hs hbad
  obtain ⟨kk, iv, aux⟩ := s
  obtain ⟨h1, h2, h3⟩ := hs
  simp only at h1 h2 h3
  subst h1
  have hb := bytesBlit_bad (n := n) hbad
  simp only [ofb, M.bind_def, M.get_def, callIv_ok h h2, hb]
  exact ⟨_, rfl⟩

theorem C13_ctr (h : PureCipher c k E) {n : Nat} :
    Spec.ChecksBounds (ctr n c) (fun st => ModeInv k c.blocksize st.m) := by
  intro s src so dofs dst hs hbad
  obtain ⟨⟨kk, iv, aux⟩, mt⟩ := s
  obtain ⟨h1, h2, h3⟩ := hs
  simp only at h1 h2 h3
  subst h1
  have hb := bytesBlit_bad (n := c.blocksize) hbad
  simp only [ctr, M.bind_def, M.get_def, M.zoom, callAux_ok h h2 h3, hb]
  exact ⟨_, rfl⟩

/-- C13 for CBC encryption, the part that holds: an illegal destination offset is detected
when the source offset is legal. Missing: illegal source offsets, see
`C13_cbc_encrypt_source_unchecked`. -/
theorem C13_cbc_encrypt_partial {inv : σ → Prop} (h : PureCipher c k E)
    (hc : Spec.ChecksBounds c inv) (hk : inv k) (s : ModeSt σ) (src : Src) (so dofs : Int)
    (dst : Bytes) (hs : ModeInv k c.blocksize s) (hsrc : InRange (src.read dst) so c.blocksize)
    (hbad : ¬ InRange dst dofs c.blocksize) :
    ∃ s', (cbcEncrypt c).transform src so dofs (s, dst) = .exn .invalidArg (s', dst) := by
  obtain ⟨kk, iv, aux⟩ := s
  obtain ⟨h1, h2, h3⟩ := hs
  simp only at h1 h2 h3
  subst h1
  obtain ⟨so', rfl⟩ : ∃ n : Nat, so = n := ⟨so.toNat, by unfold InRange at hsrc; omega⟩
  have hx := xorC_into_iv (b := src.read dst) (iv := iv) (so := so') (n := c.blocksize)
    (by unfold InRange at hsrc; omega) h2
  simp only [cbcEncrypt, M.bind_def, M.get_def, hx, M.orUB_some, ModeSt.setIv, M.modify_def]
  obtain ⟨s', hr⟩ := hc kk (.other (xorb (slice (src.read dst) so' c.blocksize) iv)) 0 dofs dst hk
    (fun hl => hbad hl.2)
  simp only [ModeSt.callDst, M.zoom, hr]
  exact ⟨_, rfl⟩

/-- C13 is false of CBC encryption: on every illegal source offset, `transform` reads outside
the source (the C xor stub is called before any bounds check). -/
theorem C13_cbc_encrypt_source_unchecked (hn : 0 < c.blocksize) (s : ModeSt σ) (src : Src)
    (so dofs : Int) (dst : Bytes) (hbad : ¬ InRange (src.read dst) so c.blocksize) :
    (cbcEncrypt c).transform src so dofs (s, dst) = .ub := by
  simp only [cbcEncrypt, M.bind_def, M.get_def, xorC_bad_src hn hbad, M.orUB_none]

/-! ### Non-vacuity -/

open Example

/-- an overlapping in-place transform of the concrete cipher -/
example : (cbcEncrypt toyEnc).transform .self 0 2 (⟨key, iv, iv⟩, [1, 2, 3, 4, 5, 6])
    = .ok () (⟨key, [0xfe, 0x65, 0xd7, 0xe9], iv⟩, [1, 2, 0xfe, 0x65, 0xd7, 0xe9]) := by
  have h := (cbcEncrypt_implements toyEnc_pure).run (s := ⟨key, iv, iv⟩) (src := .self) (so := 0)
    (dofs := 2) (dst := [1, 2, 3, 4, 5, 6]) ⟨rfl, rfl, rfl⟩ (by decide) (by decide)
  exact h.trans rfl

/-- a one-byte source: CBC encryption reads past it, CBC decryption raises -/
example : (cbcEncrypt toyEnc).transform (.other [1]) 0 0 (⟨key, iv, iv⟩, [1, 2, 3, 4]) = .ub :=
  C13_cbc_encrypt_source_unchecked (by decide) _ _ _ _ _ (by decide)

example : ∃ s', (cbcDecrypt toyDec).transform (.other [1]) 0 0 (⟨key, iv, iv⟩, [1, 2, 3, 4])
    = .exn .invalidArg (s', [1, 2, 3, 4]) :=
  C13_cbc_decrypt toyDec_pure (C13_ciphers 4 _ _ _) trivial _ _ _ _ _ ⟨rfl, rfl, rfl⟩ (by
    intro h; exact absurd h.1 (by decide))

end Verif
