import Verif.Proof.Modes
import Verif.Props.Example
/-
C07 CBC mode, C08 CFB mode, C09 OFB mode, C10 counter mode: what each computes, and that
the two directions are inverse. C11: counter blocks are not reused.

`PureCipher c k E`: the block cipher object `c` in state `k` computes the function `E` on
blocks. The specifications (`Spec.cbcEnc` ... `Spec.ctr`) are in Spec/Modes.
-/
namespace Verif

/-- All that the transform around the block cipher `c` (just constructed, in state `s`)
shows of the history of calls `ops` followed by `finish` and `get_string`. -/
def runTransform (env : Env) (c : BlockCipher σ) (s : σ) (ops : List TOp) :
    Option (Except Exn Bytes) :=
  ((blockTransform env c).total ops (cipherInit env c s)).observe

variable {σ : Type} {env : Env} {c cd : BlockCipher σ} {k kd : σ} {E D : Bytes → Bytes}

theorem modeInit_ok (env : Env) (c : BlockCipher σ) (k : σ) {iv : Option Bytes}
    (hiv : Spec.IVOk c.blocksize iv) :
    modeInit env c k iv = .ok ⟨k, Spec.ivOf c.blocksize iv, env.create c.blocksize⟩ := by
  cases iv with
  | none => rfl
  | some v => simp [modeInit, makeInitialIV, hiv v rfl, Spec.ivOf]

theorem modeInv_init (env : Env) (n : Nat) (k : σ) {iv : Option Bytes} (hiv : Spec.IVOk n iv) :
    ModeInv k n ⟨k, Spec.ivOf n iv, env.create n⟩ := by
  refine ⟨rfl, ?_, by simp⟩
  cases iv with
  | none => simp [Spec.ivOf]
  | some v => simpa [Spec.ivOf] using hiv v rfl

theorem modeInitChunk_ok (env : Env) (c : BlockCipher σ) (k : σ) {iv : Option Bytes} {n : Nat}
    (hiv : Spec.IVOk c.blocksize iv) (hn : 0 < n) (hn' : n ≤ c.blocksize) :
    modeInitChunk env c k iv n = .ok ⟨k, Spec.ivOf c.blocksize iv, env.create c.blocksize⟩ := by
  unfold modeInitChunk
  rw [if_pos (by omega), modeInit_ok env c k hiv]

theorem BlockRuns.transform_ok {τ : Type} {m : BlockCipher τ} {inv : τ → Prop}
    {f : τ → Bytes → BRes τ} {s s' : τ} {out : Bytes} {ops : List TOp} (h : BlockRuns m inv f)
    (hs : inv s) (hm : max 256 (2 * m.blocksize) ≤ env.maxLen) (hops : ∀ op ∈ ops, op.Legal)
    (hd : m.blocksize ∣ (inputOf ops).length) (hfit : (inputOf ops).length ≤ env.maxLen)
    (hrun : runBlocks f s (chunks m.blocksize (inputOf ops)) = .ok out (s', [])) :
    runTransform env m s ops = some (.ok out) := by
  have hlen := h.out_le hs (inputOf ops)
  rw [lazy_flush_dvd h.pos _ _ hd, hrun] at hlen
  have ht := h.total (env := env) hs hm ops hops
  rw [lazy_flush_dvd h.pos _ _ hd, hrun] at ht
  obtain ⟨t', ht, _⟩ := ht (by simp at hlen; omega)
  rw [runTransform, ht]; rfl

theorem runTransform_of_run {τ : Type} {m : BlockCipher τ} {inv : τ → Prop}
    {f : τ → Bytes → BRes τ} {s s' : τ} {out : Bytes} {ops : List TOp} (h : Implements m inv f)
    (hs : inv s) (hm : max 256 (2 * m.blocksize) ≤ env.maxLen) (hops : ∀ op ∈ ops, op.Legal)
    (hd : m.blocksize ∣ (inputOf ops).length) (hfit : (inputOf ops).length ≤ env.maxLen)
    (hrun : runBlocks f s (chunks m.blocksize (inputOf ops)) = .ok out (s', [])) :
    runTransform env m s ops = some (.ok out) :=
  h.runs.transform_ok hs hm hops hd hfit hrun

theorem BlockRuns.transform_err {τ : Type} {m : BlockCipher τ} {inv : τ → Prop}
    {f : τ → Bytes → BRes τ} {s : τ} {o : Bytes} {e : Exn} {ops : List TOp} (h : BlockRuns m inv f)
    (hs : inv s) (hm : max 256 (2 * m.blocksize) ≤ env.maxLen) (hops : ∀ op ∈ ops, op.Legal)
    (hd : m.blocksize ∣ (inputOf ops).length) (hfit : (inputOf ops).length ≤ env.maxLen)
    (hrun : runBlocks f s (chunks m.blocksize (inputOf ops)) = .err o e) :
    runTransform env m s ops = some (.error e) := by
  have hlen := h.out_le hs (inputOf ops)
  have ht := h.total (env := env) hs hm ops hops
  rw [lazy_flush_dvd h.pos _ _ hd, hrun] at hlen ht
  obtain ⟨t', ht⟩ := ht (by simp at hlen; omega)
  rw [runTransform, ht]; rfl

theorem runTransform_of_err {τ : Type} {m : BlockCipher τ} {inv : τ → Prop}
    {f : τ → Bytes → BRes τ} {s : τ} {o : Bytes} {e : Exn} {ops : List TOp} (h : Implements m inv f)
    (hs : inv s) (hm : max 256 (2 * m.blocksize) ≤ env.maxLen) (hops : ∀ op ∈ ops, op.Legal)
    (hd : m.blocksize ∣ (inputOf ops).length) (hfit : (inputOf ops).length ≤ env.maxLen)
    (hrun : runBlocks f s (chunks m.blocksize (inputOf ops)) = .err o e) :
    runTransform env m s ops = some (.error e) :=
  h.runs.transform_err hs hm hops hd hfit hrun

/-! ### C07: CBC -/

/-- CBC encryption through the transform API: for every history of calls, the output is the
CBC encryption of the blocks of the input. -/
theorem C07_cbc_encrypt (h : PureCipher c k E) (hm : max 256 (2 * c.blocksize) ≤ env.maxLen)
    {iv : Option Bytes} (hiv : Spec.IVOk c.blocksize iv) (ops : List TOp)
    (hops : ∀ op ∈ ops, op.Legal) (hd : c.blocksize ∣ (inputOf ops).length)
    (hfit : (inputOf ops).length ≤ env.maxLen) :
    ∃ st, modeInit env c k iv = .ok st ∧ runTransform env (cbcEncrypt c) st ops
      = some (.ok (Spec.cbcEnc E (Spec.ivOf c.blocksize iv)
          (chunks c.blocksize (inputOf ops))).flatten) := by
  refine ⟨_, modeInit_ok env c k hiv, ?_⟩
  obtain ⟨st', hr⟩ := runBlocks_cbcEnc E (chunks c.blocksize (inputOf ops))
    ⟨k, Spec.ivOf c.blocksize iv, env.create c.blocksize⟩
  exact runTransform_of_run (cbcEncrypt_implements h) (modeInv_init env _ k hiv) hm hops hd hfit hr

/-- CBC decryption through the transform API. -/
theorem C07_cbc_decrypt (h : PureCipher c k D) (hm : max 256 (2 * c.blocksize) ≤ env.maxLen)
    {iv : Option Bytes} (hiv : Spec.IVOk c.blocksize iv) (ops : List TOp)
    (hops : ∀ op ∈ ops, op.Legal) (hd : c.blocksize ∣ (inputOf ops).length)
    (hfit : (inputOf ops).length ≤ env.maxLen) :
    ∃ st, modeInit env c k iv = .ok st ∧ runTransform env (cbcDecrypt c) st ops
      = some (.ok (Spec.cbcDec D (Spec.ivOf c.blocksize iv)
          (chunks c.blocksize (inputOf ops))).flatten) := by
  refine ⟨_, modeInit_ok env c k hiv, ?_⟩
  obtain ⟨st', hr⟩ := runBlocks_cbcDec D (chunks c.blocksize (inputOf ops))
    ⟨k, Spec.ivOf c.blocksize iv, env.create c.blocksize⟩
  exact runTransform_of_run (cbcDecrypt_implements h) (modeInv_init env _ k hiv) hm hops hd hfit hr

theorem cbcEnc_lengths {n : Nat} (hE : ∀ b : Bytes, b.length = n → (E b).length = n)
    (ps : List Bytes) (iv : Bytes) (hiv : iv.length = n) (hps : ∀ p ∈ ps, p.length = n) :
    ∀ x ∈ Spec.cbcEnc E iv ps, x.length = n := by
  induction ps generalizing iv with
  | nil => simp [Spec.cbcEnc]
  | cons p ps ih =>
    have hp := hps p (by simp)
    have hc : (E (xorb p iv)).length = n := hE _ (by simp [hp, hiv])
    intro x hx
    simp only [Spec.cbcEnc, List.mem_cons] at hx
    rcases hx with rfl | hx
    · exact hc
    · exact ih _ hc (fun q hq => hps q (by simp [hq])) x hx

theorem cbcDec_cbcEnc {n : Nat} (hE : ∀ b : Bytes, b.length = n → (E b).length = n)
    (hinv : ∀ b : Bytes, b.length = n → D (E b) = b) (ps : List Bytes) (iv : Bytes)
    (hiv : iv.length = n) (hps : ∀ p ∈ ps, p.length = n) :
    Spec.cbcDec D iv (Spec.cbcEnc E iv ps) = ps := by
  induction ps generalizing iv with
  | nil => rfl
  | cons p ps ih =>
    have hp := hps p (by simp)
    have hc : (E (xorb p iv)).length = n := hE _ (by simp [hp, hiv])
    simp only [Spec.cbcEnc, Spec.cbcDec]
    rw [ih _ hc (fun q hq => hps q (by simp [hq])), hinv _ (by simp [hp, hiv]),
      xorb_xorb_cancel (by omega)]

theorem ivOf_length {n : Nat} {iv : Option Bytes} (hiv : Spec.IVOk n iv) :
    (Spec.ivOf n iv).length = n := (modeInv_init env64' n () hiv).2.1
where env64' : Env := ⟨0, fun _ _ => 0⟩

theorem chunks_spec_flatten {n : Nat} (hn : 0 < n) {bs : List Bytes} (h : ∀ b ∈ bs, b.length = n) :
    chunks n bs.flatten = bs := chunks_of_flatten hn bs h

theorem flatten_length_blocks {n : Nat} {bs : List Bytes} (h : ∀ b ∈ bs, b.length = n) :
    bs.flatten.length = bs.length * n := by
  induction bs with
  | nil => simp
  | cons b bs ih =>
    simp only [List.length_cons, List.flatten_cons, List.length_append,
      ih (fun x hx => h x (by simp [hx])), h b (by simp), Nat.add_mul]
    omega

theorem same_length_blocks {n : Nat} (hn : 0 < n) {m : Bytes} {out : List Bytes} (hd : n ∣ m.length)
    (hlen : ∀ b ∈ out, b.length = n) (hcount : out.length = (chunks n m).length) :
    out.flatten.length = m.length := by
  rw [flatten_length_blocks hlen, hcount, ← flatten_length_blocks (chunks_length_of_dvd hn m hd),
    chunks_flatten hn]

theorem cbcEnc_count (E : Bytes → Bytes) (ps : List Bytes) (iv : Bytes) :
    (Spec.cbcEnc E iv ps).length = ps.length := by
  induction ps generalizing iv with
  | nil => rfl
  | cons p ps ih => simp [Spec.cbcEnc, ih]

/-- CBC decryption with the same IV inverts CBC encryption, for every history of calls on
either side. -/
theorem C07_cbc_round_trip (h : PureCipher c k E) (h' : PureCipher cd kd D)
    (hbs : cd.blocksize = c.blocksize)
    (hinv : ∀ b : Bytes, b.length = c.blocksize → D (E b) = b)
    (hm : max 256 (2 * c.blocksize) ≤ env.maxLen)
    {iv : Option Bytes} (hiv : Spec.IVOk c.blocksize iv) (ops ops' : List TOp)
    (hops : ∀ op ∈ ops, op.Legal) (hops' : ∀ op ∈ ops', op.Legal)
    (hd : c.blocksize ∣ (inputOf ops).length) (hfit : (inputOf ops).length ≤ env.maxLen) :
    ∃ st st' ct, modeInit env c k iv = .ok st ∧ modeInit env cd kd iv = .ok st' ∧
      runTransform env (cbcEncrypt c) st ops = some (.ok ct) ∧
      (inputOf ops' = ct →
        runTransform env (cbcDecrypt cd) st' ops' = some (.ok (inputOf ops))) := by
  obtain ⟨st, h1, h2⟩ := C07_cbc_encrypt h hm hiv ops hops hd hfit
  have hb := chunks_length_of_dvd h.pos _ hd
  have hivl := ivOf_length hiv
  have hlen := cbcEnc_lengths (fun b hb => h.len hb) _ _ hivl hb
  refine ⟨st, _, _, h1, modeInit_ok env cd kd (hbs ▸ hiv), h2, ?_⟩
  intro hin
  have hol : (inputOf ops').length = (inputOf ops).length := by
    rw [hin]; exact same_length_blocks h.pos hd hlen (cbcEnc_count _ _ _)
  obtain ⟨_, h3, h4⟩ := C07_cbc_decrypt (iv := iv) h' (by rw [hbs]; exact hm) (hbs ▸ hiv) ops' hops'
    (by rw [hbs, hol]; exact hd) (by omega)
  rw [modeInit_ok env cd kd (hbs ▸ hiv)] at h3
  cases h3
  rw [h4, hbs, hin, chunks_of_flatten h.pos _ hlen,
    cbcDec_cbcEnc (fun b hb => h.len hb) hinv _ _ hivl hb, chunks_flatten h.pos]

/-! ### C08: CFB -/

/-- CFB encryption with `n`-byte segments through the transform API. -/
theorem C08_cfb_encrypt (h : PureCipher c k E) {n : Nat} (hn : 0 < n) (hn' : n ≤ c.blocksize)
    (hm : max 256 (2 * n) ≤ env.maxLen)
    {iv : Option Bytes} (hiv : Spec.IVOk c.blocksize iv) (ops : List TOp)
    (hops : ∀ op ∈ ops, op.Legal) (hd : n ∣ (inputOf ops).length)
    (hfit : (inputOf ops).length ≤ env.maxLen) :
    ∃ st, modeInitChunk env c k iv n = .ok st ∧ runTransform env (cfbEncrypt n c) st ops
      = some (.ok (Spec.cfbEnc E n (Spec.ivOf c.blocksize iv) (chunks n (inputOf ops))).flatten) := by
  refine ⟨_, modeInitChunk_ok env c k hiv hn hn', ?_⟩
  obtain ⟨st', hr⟩ := runBlocks_cfbEnc E n (chunks n (inputOf ops))
    ⟨k, Spec.ivOf c.blocksize iv, env.create c.blocksize⟩
  exact runTransform_of_run (cfbEncrypt_implements h hn hn') (modeInv_init env _ k hiv) hm hops hd
    hfit hr

/-- CFB decryption with `n`-byte segments through the transform API. -/
theorem C08_cfb_decrypt (h : PureCipher c k E) {n : Nat} (hn : 0 < n) (hn' : n ≤ c.blocksize)
    (hm : max 256 (2 * n) ≤ env.maxLen)
    {iv : Option Bytes} (hiv : Spec.IVOk c.blocksize iv) (ops : List TOp)
    (hops : ∀ op ∈ ops, op.Legal) (hd : n ∣ (inputOf ops).length)
    (hfit : (inputOf ops).length ≤ env.maxLen) :
    ∃ st, modeInitChunk env c k iv n = .ok st ∧ runTransform env (cfbDecrypt n c) st ops
      = some (.ok (Spec.cfbDec E n (Spec.ivOf c.blocksize iv) (chunks n (inputOf ops))).flatten) := by
  refine ⟨_, modeInitChunk_ok env c k hiv hn hn', ?_⟩
  obtain ⟨st', hr⟩ := runBlocks_cfbDec E n (chunks n (inputOf ops))
    ⟨k, Spec.ivOf c.blocksize iv, env.create c.blocksize⟩
  exact runTransform_of_run (cfbDecrypt_implements h hn hn') (modeInv_init env _ k hiv) hm hops hd
    hfit hr

/-- Segment sizes outside 1 .. blocksize are rejected. -/
theorem C08_segment_size (env : Env) (c : BlockCipher σ) (k : σ) (iv : Option Bytes) (n : Int)
    (hn : n ≤ 0 ∨ n > c.blocksize) : modeInitChunk env c k iv n = .error .assertFailure := by
  unfold modeInitChunk; rw [if_neg (by omega)]

theorem cfbEnc_count (E : Bytes → Bytes) (n : Nat) (ps : List Bytes) (r : Bytes) :
    (Spec.cfbEnc E n r ps).length = ps.length := by
  induction ps generalizing r with
  | nil => rfl
  | cons p ps ih => simp [Spec.cfbEnc, ih]

theorem cfb_facts {n m : Nat} (hn' : n ≤ m)
    (hE : ∀ b : Bytes, b.length = m → (E b).length = m)
    (ps : List Bytes) (r : Bytes) (hr : r.length = m) (hps : ∀ p ∈ ps, p.length = n) :
    (∀ x ∈ Spec.cfbEnc E n r ps, x.length = n)
      ∧ Spec.cfbDec E n r (Spec.cfbEnc E n r ps) = ps := by
  induction ps generalizing r with
  | nil => simp [Spec.cfbEnc, Spec.cfbDec]
  | cons p ps ih =>
    have hp := hps p (by simp)
    have hEr := hE r hr
    have hc : (xorb p ((E r).take n)).length = n := by simp [hp, hEr]; omega
    obtain ⟨i1, i2⟩ := ih (r.drop n ++ xorb p ((E r).take n))
      (by rw [List.length_append, hc]; simp; omega) (fun q hq => hps q (by simp [hq]))
    constructor
    · intro x hx
      simp only [Spec.cfbEnc, List.mem_cons] at hx
      rcases hx with rfl | hx
      · exact hc
      · exact i1 x hx
    · simp only [Spec.cfbEnc, Spec.cfbDec]
      rw [i2, xorb_xorb_cancel (by simp; omega)]

/-- CFB decryption with the same IV inverts CFB encryption. -/
theorem C08_cfb_round_trip (h : PureCipher c k E) {n : Nat} (hn : 0 < n) (hn' : n ≤ c.blocksize)
    (hm : max 256 (2 * n) ≤ env.maxLen)
    {iv : Option Bytes} (hiv : Spec.IVOk c.blocksize iv) (ops ops' : List TOp)
    (hops : ∀ op ∈ ops, op.Legal) (hops' : ∀ op ∈ ops', op.Legal)
    (hd : n ∣ (inputOf ops).length) (hfit : (inputOf ops).length ≤ env.maxLen) :
    ∃ st ct, modeInitChunk env c k iv n = .ok st ∧
      runTransform env (cfbEncrypt n c) st ops = some (.ok ct) ∧
      (inputOf ops' = ct →
        runTransform env (cfbDecrypt n c) st ops' = some (.ok (inputOf ops))) := by
  obtain ⟨st, h1, h2⟩ := C08_cfb_encrypt h hn hn' hm hiv ops hops hd hfit
  obtain ⟨hlen, hdec⟩ := cfb_facts hn' (fun b hb => h.len hb) _ _ (ivOf_length hiv)
    (chunks_length_of_dvd hn _ hd)
  refine ⟨st, _, h1, h2, ?_⟩
  intro hin
  have hol : (inputOf ops').length = (inputOf ops).length := by
    rw [hin]; exact same_length_blocks hn hd hlen (cfbEnc_count _ _ _ _)
  obtain ⟨_, h3, h4⟩ := C08_cfb_decrypt (iv := iv) h hn hn' hm hiv ops' hops' (by rw [hol]; exact hd)
    (by omega)
  rw [h1] at h3
  cases h3
  rw [h4, hin, chunks_of_flatten hn _ hlen, hdec, chunks_flatten hn]

/-! ### C09: OFB -/

/-- OFB with `n`-byte segments through the transform API. -/
theorem C09_ofb (h : PureCipher c k E) {n : Nat} (hn : 0 < n) (hn' : n ≤ c.blocksize)
    (hm : max 256 (2 * n) ≤ env.maxLen)
    {iv : Option Bytes} (hiv : Spec.IVOk c.blocksize iv) (ops : List TOp)
    (hops : ∀ op ∈ ops, op.Legal) (hd : n ∣ (inputOf ops).length)
    (hfit : (inputOf ops).length ≤ env.maxLen) :
    ∃ st, modeInitChunk env c k iv n = .ok st ∧ runTransform env (ofb n c) st ops
      = some (.ok (Spec.ofb E n (Spec.ivOf c.blocksize iv) (chunks n (inputOf ops))).flatten) := by
  refine ⟨_, modeInitChunk_ok env c k hiv hn hn', ?_⟩
  obtain ⟨st', hr⟩ := runBlocks_ofb E n (Spec.ivOf c.blocksize iv) (chunks n (inputOf ops))
    ⟨k, Spec.ivOf c.blocksize iv, env.create c.blocksize⟩ 0 rfl
  exact runTransform_of_run (ofb_implements h hn hn') (modeInv_init env _ k hiv) hm hops hd
    hfit hr

theorem xorStream_count (key : Nat → Bytes) (i : Nat) (ps : List Bytes) :
    (Spec.xorStream key i ps).length = ps.length := by
  induction ps generalizing i with
  | nil => rfl
  | cons p ps ih => simp [Spec.xorStream, ih]

theorem xorStream_facts {n : Nat} {key : Nat → Bytes} (hkey : ∀ i, (key i).length = n)
    (ps : List Bytes) (i : Nat) (hps : ∀ p ∈ ps, p.length = n) :
    (∀ x ∈ Spec.xorStream key i ps, x.length = n)
      ∧ Spec.xorStream key i (Spec.xorStream key i ps) = ps := by
  induction ps generalizing i with
  | nil => simp [Spec.xorStream]
  | cons p ps ih =>
    have hp := hps p (by simp)
    obtain ⟨i1, i2⟩ := ih (i + 1) (fun q hq => hps q (by simp [hq]))
    constructor
    · intro x hx
      simp only [Spec.xorStream, List.mem_cons] at hx
      rcases hx with rfl | hx
      · simp [hp, hkey]
      · exact i1 x hx
    · simp only [Spec.xorStream]
      rw [i2, xorb_xorb_cancel (by rw [hp, hkey])]

theorem iter_length {m : Nat} (hE : ∀ b : Bytes, b.length = m → (E b).length = m) (i : Nat)
    (x : Bytes) (hx : x.length = m) : (Spec.iter E i x).length = m := by
  induction i generalizing x with
  | zero => exact hx
  | succ i ih => exact ih _ (hE x hx)

/-- Applying OFB twice with the same IV is the identity. -/
theorem C09_ofb_round_trip (h : PureCipher c k E) {n : Nat} (hn : 0 < n) (hn' : n ≤ c.blocksize)
    (hm : max 256 (2 * n) ≤ env.maxLen)
    {iv : Option Bytes} (hiv : Spec.IVOk c.blocksize iv) (ops ops' : List TOp)
    (hops : ∀ op ∈ ops, op.Legal) (hops' : ∀ op ∈ ops', op.Legal)
    (hd : n ∣ (inputOf ops).length) (hfit : (inputOf ops).length ≤ env.maxLen) :
    ∃ st ct, modeInitChunk env c k iv n = .ok st ∧
      runTransform env (ofb n c) st ops = some (.ok ct) ∧
      (inputOf ops' = ct → runTransform env (ofb n c) st ops' = some (.ok (inputOf ops))) := by
  obtain ⟨st, h1, h2⟩ := C09_ofb h hn hn' hm hiv ops hops hd hfit
  have hkey : ∀ i, (Spec.ofbKey E n (Spec.ivOf c.blocksize iv) i).length = n := by
    intro i
    rw [Spec.ofbKey, List.length_take,
      iter_length (m := c.blocksize) (fun b hb => h.len hb) _ _ (ivOf_length hiv)]
    omega
  obtain ⟨hlen, hdec⟩ := xorStream_facts hkey _ 0 (chunks_length_of_dvd hn _ hd)
  refine ⟨st, _, h1, h2, ?_⟩
  intro hin
  have hol : (inputOf ops').length = (inputOf ops).length := by
    rw [hin]; exact same_length_blocks hn hd hlen (xorStream_count _ _ _)
  obtain ⟨_, h3, h4⟩ := C09_ofb (iv := iv) h hn hn' hm hiv ops' hops' (by rw [hol]; exact hd)
    (by omega)
  rw [h1] at h3
  cases h3
  rw [h4, hin]
  unfold Spec.ofb
  rw [chunks_of_flatten hn _ hlen, hdec, chunks_flatten hn]

/-! ### C10, C11: counter mode -/

/-- The number of counter bytes: the `inc` argument, or a whole block. -/
def Spec.incOf (blocksize : Nat) (inc : Option Nat) : Nat := inc.getD blocksize

/-- The `inc` argument, if given, is between 1 and the block size. -/
def Spec.IncOk (blocksize : Nat) (inc : Option Nat) : Prop :=
  ∀ n, inc = some n → 0 < n ∧ n ≤ blocksize

/-- Number of blocks after which counter mode refuses to go on: 2^(8n) for a counter of `n`
bytes, but at most 2^64. -/
abbrev Spec.ctrLimit := Verif.ctrLimit

theorem ctrInit_ok (env : Env) (c : BlockCipher σ) (k : σ) {iv : Option Bytes} {inc : Option Nat}
    (hiv : Spec.IVOk c.blocksize iv) (hinc : Spec.IncOk c.blocksize inc) :
    ctrInit env c k iv (inc.map Int.ofNat)
      = .ok (Spec.incOf c.blocksize inc, ⟨⟨k, Spec.ivOf c.blocksize iv, env.create c.blocksize⟩,
          BitVec.ofNat 64 (ctrLimit (Spec.incOf c.blocksize inc))⟩) := by
  unfold ctrInit
  have : ctrNincr c.blocksize (inc.map Int.ofNat) = .ok (Spec.incOf c.blocksize inc) := by
    cases inc with
    | none => rfl
    | some n =>
      have := hinc n rfl
      simp only [Option.map_some, ctrNincr, Spec.incOf, Option.getD_some]
      rw [if_pos (by simp; omega)]
      rfl
  rw [this]
  simp only [modeInit_ok env c k hiv, ctrMaxTransf_eq]

theorem incOf_le {n : Nat} {inc : Option Nat} (hinc : Spec.IncOk n inc) : Spec.incOf n inc ≤ n := by
  cases inc with
  | none => exact Nat.le_refl _
  | some m => exact (hinc m rfl).2

/-- Counter mode through the transform API: below the limit on the number of blocks, block
`i` is xored with `E` of the IV increased by `i`; from the limit on, `Message_too_long`. -/
theorem C10_ctr (h : PureCipher c k E) (hm : max 256 (2 * c.blocksize) ≤ env.maxLen)
    {iv : Option Bytes} (hiv : Spec.IVOk c.blocksize iv)
    {inc : Option Nat} (hinc : Spec.IncOk c.blocksize inc) (ops : List TOp)
    (hops : ∀ op ∈ ops, op.Legal) (hd : c.blocksize ∣ (inputOf ops).length)
    (hfit : (inputOf ops).length ≤ env.maxLen) :
    ∃ n st, ctrInit env c k iv (inc.map Int.ofNat) = .ok (n, st) ∧
      n = Spec.incOf c.blocksize inc ∧
      runTransform env (ctr n c) st ops
        = some (if (inputOf ops).length / c.blocksize < Spec.ctrLimit n then
            .ok (Spec.ctr E n (Spec.ivOf c.blocksize iv) (chunks c.blocksize (inputOf ops))).flatten
          else .error (.error .messageTooLong)) := by
  refine ⟨_, _, ctrInit_ok env c k hiv hinc, rfl, ?_⟩
  have hle := incOf_le hinc
  have hr := runBlocks_ctr E (Spec.incOf c.blocksize inc) (Spec.ivOf c.blocksize iv)
    (by rw [ivOf_length hiv]; exact hle) (chunks c.blocksize (inputOf ops))
    ⟨⟨k, Spec.ivOf c.blocksize iv, env.create c.blocksize⟩,
      BitVec.ofNat 64 (ctrLimit (Spec.incOf c.blocksize inc))⟩ 0
    (ctrLimit (Spec.incOf c.blocksize inc))
    (by rw [counterBlock_zero]; rw [ivOf_length hiv]; exact hle) rfl
    (ctrLimit_le _).1 (ctrLimit_le _).2.1
  have hcount : (chunks c.blocksize (inputOf ops)).length
      = (inputOf ops).length / c.blocksize := by
    obtain ⟨q, hq⟩ := hd
    rw [chunks_length h.pos, hq, Nat.mul_div_cancel_left _ h.pos]
    have := h.pos
    rw [Nat.add_sub_assoc (by omega), Nat.mul_add_div this,
      Nat.div_eq_of_lt (by omega), Nat.add_zero]
  rw [hcount] at hr
  have hinv := modeInv_init env c.blocksize k hiv
  split at hr
  · rename_i hlt
    obtain ⟨st', hr⟩ := hr
    rw [if_pos hlt]
    exact runTransform_of_run (ctr_implements h hle) hinv hm hops hd hfit hr
  · rename_i hlt
    obtain ⟨o, _, hr⟩ := hr
    rw [if_neg hlt]
    exact runTransform_of_err (ctr_implements h hle) hinv hm hops hd hfit hr

/-- Applying counter mode twice with the same IV is the identity. -/
theorem C10_ctr_round_trip (h : PureCipher c k E) (hm : max 256 (2 * c.blocksize) ≤ env.maxLen)
    {iv : Option Bytes} (hiv : Spec.IVOk c.blocksize iv)
    {inc : Option Nat} (hinc : Spec.IncOk c.blocksize inc) (ops ops' : List TOp)
    (hops : ∀ op ∈ ops, op.Legal) (hops' : ∀ op ∈ ops', op.Legal)
    (hd : c.blocksize ∣ (inputOf ops).length) (hfit : (inputOf ops).length ≤ env.maxLen)
    (hlim : (inputOf ops).length / c.blocksize < Spec.ctrLimit (Spec.incOf c.blocksize inc)) :
    ∃ n st ct, ctrInit env c k iv (inc.map Int.ofNat) = .ok (n, st) ∧
      runTransform env (ctr n c) st ops = some (.ok ct) ∧
      (inputOf ops' = ct → runTransform env (ctr n c) st ops' = some (.ok (inputOf ops))) := by
  obtain ⟨n, st, h1, hn, h2⟩ := C10_ctr h hm hiv hinc ops hops hd hfit
  have hivl := ivOf_length hiv
  have hle := incOf_le hinc
  rw [← hn] at hlim hle
  rw [if_pos hlim] at h2
  obtain ⟨hlen, hdec⟩ := xorStream_facts (n := c.blocksize)
    (key := fun i => E (Spec.counterBlock (Spec.ivOf c.blocksize iv) n i))
    (fun i => h.len (by rw [counterBlock_length _ _ _ (by omega), hivl])) _ 0
    (chunks_length_of_dvd h.pos _ hd)
  refine ⟨n, st, _, h1, h2, ?_⟩
  intro hin
  have hol : (inputOf ops').length = (inputOf ops).length := by
    rw [hin]; exact same_length_blocks h.pos hd hlen (xorStream_count _ _ _)
  obtain ⟨_, _, h3, _, h4⟩ := C10_ctr h hm hiv hinc ops' hops' (by rw [hol]; exact hd)
    (by omega)
  rw [h1] at h3
  cases h3
  rw [h4, hol, if_pos hlim, hin]
  unfold Spec.ctr
  rw [chunks_of_flatten h.pos _ hlen, hdec, chunks_flatten h.pos]

/-- `inc` arguments outside 1 .. blocksize are rejected. -/
theorem C10_inc_size (env : Env) (c : BlockCipher σ) (k : σ) (iv : Option Bytes) (n : Int)
    (hn : n ≤ 0 ∨ n > c.blocksize) : ctrInit env c k iv (some n) = .error .assertFailure := by
  simp only [ctrInit, ctrNincr]; rw [if_neg (by omega)]

/-- One attempted block transform: its arguments, and the destination. -/
structure Attempt where
  src : Src
  so : Nat
  dofs : Nat
  dst : Bytes

/-- The offsets leave room for a block of `n` bytes. -/
def Attempt.Legal (n : Nat) (a : Attempt) : Prop :=
  a.so + n ≤ (a.src.read a.dst).length ∧ a.dofs + n ≤ a.dst.length

/-- The block to be transformed. -/
def Attempt.block (n : Nat) (a : Attempt) : Bytes := slice (a.src.read a.dst) a.so n

/-- Successive block transforms on one object, going on after exceptions: for each, the
exception if any and the resulting destination (`none` for undefined behaviour). -/
def BlockCipher.attempts (c : BlockCipher σ) (s : σ) :
    List Attempt → List (Option (Option Exn × Bytes))
  | [] => []
  | a :: as =>
    match c.transform a.src a.so a.dofs (s, a.dst) with
    | .ok () (s', d) => some (none, d) :: c.attempts s' as
    | .exn e (s', d) => some (some e, d) :: c.attempts s' as
    | .ub => [none]
    | .loop => [none]

theorem ctr_attempts (h : PureCipher c k E) {n : Nat} (hn : n ≤ c.blocksize) {iv : Bytes}
    (hiv : iv.length = c.blocksize) (as : List Attempt) (has : ∀ a ∈ as, a.Legal c.blocksize)
    (st : CtrSt σ) (hs : ModeInv k c.blocksize st.m) (i left : Nat)
    (hi : st.m.iv = Spec.counterBlock iv n i) (hl : st.maxTransf = BitVec.ofNat 64 left)
    (hl0 : 0 < left) (hl1 : left ≤ 2 ^ 64) :
    (ctr n c).attempts st as = as.mapIdx fun j a =>
      some (if j + 1 < left then none else some (.error .messageTooLong),
        splice a.dst a.dofs (xorb (a.block c.blocksize) (E (Spec.counterBlock iv n (i + j))))) := by
  induction as generalizing st i left with
  | nil => rfl
  | cons a as ih =>
    have ha := has a (by simp)
    have hrun := (ctr_implements h hn).run (s := st) (src := a.src) (so := a.so) (dofs := a.dofs)
      (dst := a.dst) hs ha.1 ha.2
    have hb : (slice (a.src.read a.dst) a.so c.blocksize).length = c.blocksize :=
      slice_length_of_le ha.1
    have hstep := (ctr_implements h hn).inv_step (s := st)
      (blk := slice (a.src.read a.dst) a.so c.blocksize) hs hb
    have hinc : incBE st.m.iv n = Spec.counterBlock iv n (i + 1) := by
      rw [hi, counterBlock_succ _ _ _ (by omega)]
    rw [BlockCipher.attempts, hrun, List.mapIdx_cons]
    have hsub : st.maxTransf - 1#64 = BitVec.ofNat 64 (left - 1) := by
      rw [hl]
      have h1 : left = left - 1 + 1 := by omega
      conv => lhs; rw [h1, BitVec.ofNat_add]
      exact BitVec.add_sub_cancel _ _
    simp only [BRes.toOut, show (ctr n c).blocksize = c.blocksize from rfl]
    unfold ctrF at hstep ⊢
    rw [hsub] at hstep ⊢
    by_cases h1 : left = 1
    · rw [if_pos (by rw [h1])] at hstep ⊢
      simp only
      rw [ih (fun a ha => has a (by simp [ha])) _ hstep (i + 1) left (by simp only; rw [hinc]) hl
        hl0 hl1]
      simp only [Nat.zero_add, h1, Nat.lt_irrefl, if_false, Nat.add_zero, hi, Attempt.block]
      congr 1
      apply List.ext_getElem? 
      intro j
      simp only [List.getElem?_mapIdx]
      rw [if_neg (by omega), if_neg (by omega), show i + 1 + j = i + (j + 1) by omega]
    · have hne : ¬ BitVec.ofNat 64 (left - 1) = 0#64 := by
        intro h0
        have := congrArg BitVec.toNat h0
        simp only [BitVec.toNat_ofNat] at this
        rw [Nat.mod_eq_of_lt (by omega), Nat.zero_mod] at this
        omega
      rw [if_neg hne] at hstep ⊢
      simp only
      rw [ih (fun a ha => has a (by simp [ha])) _ hstep (i + 1) (left - 1) (by simp only; rw [hinc])
        rfl (by omega) (by omega)]
      simp only [Nat.add_zero, hi, Attempt.block]
      rw [if_pos (show 0 + 1 < left by omega)]
      congr 1
      apply List.ext_getElem?
      intro j
      simp only [List.getElem?_mapIdx]
      rw [show i + 1 + j = i + (j + 1) by omega]
      by_cases hj : j + 1 < left - 1
      · rw [if_pos hj, if_pos (by omega)]
      · rw [if_neg hj, if_neg (by omega)]

/-- C11: over any sequence of block transforms on a counter-mode object, the `j`-th (from 0)
succeeds exactly when `j + 1` is below the limit, otherwise raises `Message_too_long`; it
uses the counter block IV + `j`; and the counter blocks of two successful transforms differ. -/
theorem C11_no_counter_reuse (h : PureCipher c k E) {iv : Option Bytes}
    (hiv : Spec.IVOk c.blocksize iv) {inc : Option Nat} (hinc : Spec.IncOk c.blocksize inc)
    (as : List Attempt) (has : ∀ a ∈ as, a.Legal c.blocksize) :
    ∃ n st, ctrInit env c k iv (inc.map Int.ofNat) = .ok (n, st) ∧
      ((ctr n c).attempts st as = as.mapIdx fun j a =>
        some (if j + 1 < Spec.ctrLimit n then none else some (.error .messageTooLong),
          splice a.dst a.dofs (xorb (a.block c.blocksize)
            (E (Spec.counterBlock (Spec.ivOf c.blocksize iv) n j))))) ∧
      (∀ i j, i + 1 < Spec.ctrLimit n → j + 1 < Spec.ctrLimit n → i ≠ j →
        Spec.counterBlock (Spec.ivOf c.blocksize iv) n i
          ≠ Spec.counterBlock (Spec.ivOf c.blocksize iv) n j) ∧
      Spec.ctrLimit n = if n < 8 then 2 ^ (8 * n) else 2 ^ 64 := by
  have hle := incOf_le hinc
  have hivl := ivOf_length hiv
  refine ⟨_, _, ctrInit_ok env c k hiv hinc, ?_, ?_, ?_⟩
  · have := ctr_attempts h hle hivl as has
      ⟨⟨k, Spec.ivOf c.blocksize iv, env.create c.blocksize⟩,
        BitVec.ofNat 64 (ctrLimit (Spec.incOf c.blocksize inc))⟩ (modeInv_init env _ k hiv) 0
      (ctrLimit (Spec.incOf c.blocksize inc)) (by rw [counterBlock_zero]; omega) rfl
      (ctrLimit_le _).1 (ctrLimit_le _).2.1
    simpa only [Nat.zero_add] using this
  · intro i j hi hj hij heq
    have hl := (ctrLimit_le (Spec.incOf c.blocksize inc)).2.2
    have hi' : i + 1 < ctrLimit (Spec.incOf c.blocksize inc) := hi
    have hj' : j + 1 < ctrLimit (Spec.incOf c.blocksize inc) := hj
    exact hij (counterBlock_inj (by omega) (by omega) heq)
  · show ctrLimit _ = _
    unfold ctrLimit
    rw [Nat.pow_mul]

/-! ### Non-vacuity -/

open Example

example : ∃ st, modeInit env64 toyEnc key (some iv) = .ok st ∧
    runTransform env64 (cbcEncrypt toyEnc) st ops
      = some (.ok [0xfe, 0x65, 0xd7, 0xe9, 0xe5, 0x49, 0x49, 0xec]) := by
  have := C07_cbc_encrypt (env := env64) toyEnc_pure (by decide) (iv := some iv)
    (by intro v hv; cases hv; decide) ops ops_legal (by rw [ops_input]; decide)
    (by rw [ops_input]; decide)
  rw [ops_input] at this
  obtain ⟨st, h1, h2⟩ := this
  refine ⟨st, h1, h2.trans ?_⟩
  rw [show toyEnc.blocksize = 4 from rfl]
  simp [chunks]
  decide

example : Spec.IVOk toyEnc.blocksize (some iv) ∧ Spec.IncOk toyEnc.blocksize (some 1)
    ∧ Spec.ctrLimit 1 = 256
    ∧ Attempt.Legal toyEnc.blocksize ⟨.self, 0, 2, [1, 2, 3, 4, 5, 6]⟩ :=
  ⟨by intro v hv; cases hv; decide, by intro n hn; cases hn; decide, by decide,
    by simp [Attempt.Legal, show toyEnc.blocksize = 4 from rfl]⟩

end Verif
