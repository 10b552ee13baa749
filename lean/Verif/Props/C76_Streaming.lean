import Verif.Proof.StreamingInst
import Verif.Props.C02_C03_C68_BlockTransform
import Verif.Props.C04_C05_C06_Padding
import Verif.Props.C18_C21_Stream
import Verif.Props.C34_Gcm
import Verif.Props.C35_ChaPoly
import Verif.Props.C45_C48_Codec
import Verif.Props.C49_C52_Combinators
/-
C76: a transform processes data of any length, longer than the longest string, when the caller
retrieves the output as it goes; in particular `transform_channel` processes channels of any length.
-/
namespace Verif

open Spec

section generic
variable {τ σ : Type} {T : Transform τ} {S : XSpec σ} {maxLen : Nat} {R : τ → σ → Bytes → Prop}
  {I : σ → Prop} {g : Nat → Nat}

theorem Refines.whole_paced (h : Refines T S maxLen R) (hS : S.Lawful)
    (hb : S.Bounded S.finish I g) {L : Nat} (hg : g L ≤ maxLen) (ops : List TOp) (sub : Bool) {t s}
    (hR : R t s []) (hI : I s) (hops : ∀ op ∈ ops, op.Legal) (hp : Paced L 0 ops) :
    match (S.put s (inputOf ops)).andThen S.finish with
    | .ok out _ => (wholeRun T ops sub t).observe = some (.ok out)
    | .err _ e => (wholeRun T ops sub t).observe = some (.error e) := by
  have hc := h.calls_paced hS hb hg ops hR (Since.init hS L hI) hops hp
  cases hput : S.put s (inputOf ops) with
  | err out e =>
    rw [hput] at hc
    obtain ⟨t', h1⟩ := hc
    simp only [SRes.andThen]
    rw [wholeRun, M.bind_exn h1]; rfl
  | ok out s1 =>
    rw [hput] at hc
    obtain ⟨x, t1, q1, d1, h1, h2, h3, h4⟩ := hc
    simp only [SRes.andThen]
    rw [List.nil_append] at h3
    have hf := h.finish h2
    have hroom := Nat.le_trans (h4.roomFin hb) hg
    cases hfin : S.finish s1 with
    | err out2 e =>
      rw [hfin] at hf hroom
      obtain ⟨t2, h5⟩ := hf hroom
      simp only
      rw [wholeRun, M.bind_ok h1, M.bind_exn h5]; rfl
    | ok out2 s2 =>
      rw [hfin] at hf hroom
      obtain ⟨t2, h5, h6⟩ := hf hroom
      obtain ⟨t3, h7, h8⟩ := h.getOut h6 sub
      simp only
      rw [wholeRun, M.bind_ok h1, M.bind_ok h5, M.bind_ok h7, ← h3, List.append_assoc]; rfl

/-- The result at the level of data. -/
def SRes.result : SRes σ → Except Exn Bytes
  | .ok out _ => .ok out
  | .err _ e => .error e

theorem Refines.streams (h : Refines T S maxLen R) (hS : S.Lawful)
    (hb : S.Bounded S.finish I g) {L : Nat} (hg : g L ≤ maxLen) {t s} (hR : R t s []) (hI : I s)
    {P : Bytes → Except Exn Bytes → Prop}
    (hP : ∀ m, P m ((S.put s m).andThen S.finish).result) : Streams T t L P := by
  intro ops sub hops hp
  refine ⟨_, ?_, hP _⟩
  have := h.whole_paced hS hb hg ops sub hR hI (fun op ho => (hops op ho).1) hp
  generalize (S.put s (inputOf ops)).andThen S.finish = r at this ⊢
  cases r <;> exact this

end generic

variable {σ τ : Type} {env : Env} {L : Nat}

/-- C76 for `transform_channel`: whatever a transform computes on data retrieved every 256 bytes,
`transform_channel` writes it, for channels of any length and any sizes of individual reads; if the
transform raises an exception, so does `transform_channel`. -/
theorem C76_channel (env : Env) {T : Transform τ} {t : τ} {P : Bytes → Except Exn Bytes → Prop}
    (hT : Streams T t 256 P) (hw : ∀ t, ∃ t', T.wipe t = .ok () t') (sched : Nat → Nat)
    (len : Option Int) (ic oc : Bytes) (n : Nat) (hen : enough len ic) :
    ∃ r, P (toRead len ic) r ∧
      match r with
      | .ok y => ∃ t' n', transformChannel env T sched len (t, ⟨ic, n, oc⟩)
          = .ok () (t', ⟨toLeave len ic, n', oc ++ y⟩)
      | .error e => ∃ st, transformChannel env T sched len (t, ⟨ic, n, oc⟩) = .exn e st := by
  obtain ⟨ops, h1, hp, h2, n', h3⟩ := transformChannel_sim env T sched len ic n hen
  obtain ⟨r, hr, hP⟩ := hT ops true h1 hp
  rw [h2] at hP
  refine ⟨r, hP, ?_⟩
  have hrun := runParts_single (sub := true) (r := r) hr
  have hsim := h3 t oc
  cases r with
  | ok y =>
    cases hq : runParts T [⟨ops, true⟩] t <;> rw [hq] at hrun <;> cases hrun
    rename_i t1
    obtain ⟨t2, e2⟩ := hw t1
    rw [M.bind_ok hq, M.bind_ok e2] at hsim
    cases hL : transformChannel env T sched len (t, ⟨ic, n, oc⟩) <;> rw [hL] at hsim <;>
      simp only [Out.Sim, M.pure_def] at hsim
    rename_i u p
    refine ⟨p.1, n', ?_⟩
    rw [show p = (p.1, p.2) from rfl, hsim]
    simp
  | error e =>
    cases hq : runParts T [⟨ops, true⟩] t <;> rw [hq] at hrun <;> cases hrun
    rw [M.bind_exn hq] at hsim
    cases hL : transformChannel env T sched len (t, ⟨ic, n, oc⟩) <;> rw [hL] at hsim <;>
      simp only [Out.Sim] at hsim
    subst hsim
    exact ⟨_, rfl⟩

section block
variable {c : BlockCipher σ} {inv : σ → Prop} {f : σ → Bytes → BRes σ} {s : σ}

theorem blockPut_nil (n : Nat) (f : σ → Bytes → BRes σ) (s : σ) (m : Bytes) :
    (blockSpec n f).put (s, []) m = lazyBlocks n f s m := by
  simp only [blockSpec]
  by_cases h0 : m = []
  · rw [if_pos h0, h0, lazyBlocks_le (by simp : ([] : Bytes).length ≤ _)]
  · rw [if_neg h0, List.nil_append]

/-- C76 for block ciphers: the output is the concatenation of the transformed blocks, or
`Wrong_data_length`, for data of any length; only the data put between two retrievals, and one
block, must fit in a string. -/
theorem C76_block (h : Implements c inv f) (hf : Total f) (hs : inv s)
    (hm : max 256 (2 * c.blocksize) ≤ env.maxLen) (hL : L + c.blocksize ≤ env.maxLen) :
    Streams (blockTransform env c) (cipherInit env c s) L (fun m r =>
      r = if c.blocksize ∣ m.length then .ok (blockwise f s (chunks c.blocksize m)).flatten
        else .error (.error .wrongDataLength)) := by
  refine (blockTransform_refines env h).streams (blockSpec_lawful h.pos f)
    (blockSpec_bounded h rfl (fun p hp _ => blockFlush_size h p hp)) (by simpa using hL)
    (blockRep_init env (s := s) hs hm) ⟨hs, by simp⟩ (fun m => ?_)
  rw [blockPut_nil, show (blockSpec c.blocksize f).finish = blockFlush c.blocksize f from rfl]
  split
  · rename_i hd
    obtain ⟨s', hrun⟩ := runBlocks_blockwise hf (chunks c.blocksize m) s
    rw [lazy_flush_dvd h.pos _ _ hd, hrun]; rfl
  · rename_i hd
    obtain ⟨o, ho, hr⟩ := lazy_flush_ndvd h.pos hf h.out_len h.inv_step m s hs hd
    rw [hr]; rfl

/-- C76 for padded encryption. -/
theorem C76_padded_encrypt (h : Implements c inv f) (hf : Total f) (hs : inv s) {p : PadScheme}
    {pad : Bytes → Bytes} (hp : LibraryPadding.fn pad p c.blocksize)
    (hm : max 256 (2 * c.blocksize) ≤ env.maxLen) (hL : L + 2 * c.blocksize ≤ env.maxLen) :
    Streams (paddedEncrypt env p c) (cipherInit env c s) L (fun m r =>
      r = .ok (blockwise f s (chunks c.blocksize (Spec.padMessage c.blocksize pad m))).flatten) := by
  have hc := LibraryPadding.computes h.pos hp
  refine (paddedEncrypt_refines env h hc).streams (padEncSpec_lawful h.pos f pad)
    (blockSpec_bounded (S := padEncSpec c.blocksize f pad) (fin := padEncFinish c.blocksize f pad) h
      rfl (fun p hp hl => padEncFinish_size h (fun x hx => hc.pad_len hx) p hp hl))
    (by show L + c.blocksize + c.blocksize ≤ _; omega)
    (blockRep_init env (s := s) hs hm) ⟨hs, by simp⟩ (fun m => ?_)
  rw [show (padEncSpec c.blocksize f pad).put (s, []) m = (blockSpec c.blocksize f).put (s, []) m from rfl,
    blockPut_nil, show (padEncSpec c.blocksize f pad).finish = padEncFinish c.blocksize f pad from rfl]
  obtain ⟨s', hrun⟩ := runBlocks_blockwise hf
    (chunks c.blocksize (Spec.padMessage c.blocksize pad m)) s
  have hmap := padEnc_run h.pos (f := f) (pad := pad) (fun x hx => hc.pad_len hx) m s
  rw [hrun] at hmap
  obtain ⟨b, hb⟩ := SRes.map_ok hmap
  rw [hb]; rfl

/-- C76 for padded decryption. -/
theorem C76_padded_decrypt (h : Implements c inv f) (hf : Total f) (hs : inv s) {p : PadScheme}
    {pad : Bytes → Bytes} (hp : LibraryPadding.fn pad p c.blocksize)
    (hm : max 256 (2 * c.blocksize) ≤ env.maxLen) (hL : L + c.blocksize ≤ env.maxLen) :
    Streams (paddedDecrypt env p c) (cipherInit env c s) L (fun ct r =>
      Spec.DecryptOutcome c.blocksize pad ct (blockwise f s (chunks c.blocksize ct)).flatten
        (some r)) := by
  have hc := LibraryPadding.computes h.pos hp
  refine (paddedDecrypt_refines env h hc).streams (padDecSpec_lawful h.pos f p.strip)
    (blockSpec_bounded (S := padDecSpec c.blocksize f p.strip)
      (fin := padDecFinish c.blocksize f p.strip) (k := 0) h rfl
      (fun q hq _ => padDecFinish_size h q hq)) (by simpa using hL)
    (blockRep_init env (s := s) hs hm) ⟨hs, by simp⟩ (fun m => ?_)
  rw [show (padDecSpec c.blocksize f p.strip).put (s, []) m = (blockSpec c.blocksize f).put (s, []) m
    from rfl, blockPut_nil,
    show (padDecSpec c.blocksize f p.strip).finish = padDecFinish c.blocksize f p.strip from rfl]
  have t0 : CipherSt σ := cipherInit env c s
  cases hr : (lazyBlocks c.blocksize f s m).andThen (padDecFinish c.blocksize f p.strip) with
  | ok out s' =>
    exact decryptOutcome_of_run h hf hs hc m (Nat.le_refl _) (.ok out t0)
      (by rw [hr]; exact fun _ => ⟨_, rfl⟩)
  | err out e =>
    exact decryptOutcome_of_run h hf hs hc m (Nat.le_refl _) (.exn e t0)
      (by rw [hr]; exact fun _ => ⟨_, rfl⟩)

end block

/-- C76 for stream ciphers. -/
theorem C76_stream {c : StreamCipher σ} {At : σ → Nat → Prop} {ks : Nat → Byte}
    (h : StreamImplements c At ks) {s : σ} (hs : At s 0) (hm : 256 ≤ env.maxLen)
    (hL : L ≤ env.maxLen) :
    Streams (streamTransform env c) (streamInit env s) L (fun m r =>
      r = .ok (Spec.xorKeystream ks 0 m)) := by
  refine (streamTransform_refines env h).streams (streamSpec_lawful ks) (streamSpec_bounded ks) hL
    (streamRep_init env hm hs) trivial (fun m => ?_)
  simp [streamSpec, SRes.andThen, SRes.result]

section aead

open Spec.GCM in
/-- C76 for AES-GCM encryption. -/
theorem C76_gcm_encrypt {κ : Type} {aes : BlockCipher κ} {k : κ} {E : Bytes → Bytes} (env : Env)
    (pclmul : Bool) (h : PureCipher aes k E) (hb : aes.blocksize = 16) (header iv : Bytes)
    (hm : 256 ≤ env.maxLen) (hL : L + 16 ≤ env.maxLen) :
    ∃ t, aesGcmInit env pclmul aes k header iv = .ok t k
      ∧ AuthStreams (aesGcm env aes .encrypt) t L (fun m =>
        if m.length ≤ maxPlaintext then .ok (crypt E iv m, tag E iv header (crypt E iv m))
        else .error (.error .messageTooLong)) := by
  obtain ⟨s, e0, hs, e1, e2, e3, e4, e5⟩ := gcmInit_ok env pclmul h hb header iv
  refine ⟨_, by simp only [aesGcmInit, e0]; rfl, fun ops hops hp => ?_⟩
  have hR := blockRep_init (c := gcmEncWrapped aes) (inv := GcmInv k (subkey E)) env hs
    (by rw [show (gcmEncWrapped aes).blocksize = 16 from rfl]; omega)
  have hbd := blockSpec_bounded (gcmEnc_implements h hb (subkey E)) (S := blockSpec 16 (gcmEncF E (subkey E)))
    (k := 0) rfl (fin := gcmFin (gcmEncF E (subkey E)) (subkey E)) (by
      intro p hp hl
      unfold gcmFin lastBlock
      split
      · simp [SRes.andThen, SRes.size]
      · have hi := gcmEncF_inv h hb hp hl
        unfold oneBlock
        simp only
        cases (gcmEncF E (subkey E) p.1 p.2).exn <;> simp [SRes.andThen, SRes.size, hi.2])
  have ht := (gcmEnc_refines env h hb (subkey E)).total_paced (blockSpec_lawful (by decide) _)
    hbd (L := L) (by show L + 16 + 0 ≤ _; omega) ops hR ⟨hs, by simp⟩ (fun op ho => (hops op ho).1) hp
  have hd := gcmEnc_data h hb hs e1 e2 e3 e4 e5 (inputOf ops)
  beta_reduce
  by_cases hl : (inputOf ops).length ≤ maxPlaintext
  · rw [if_pos hl] at hd ⊢
    rw [hd] at ht
    obtain ⟨t', h1⟩ := ht
    rw [h1]; rfl
  · rw [if_neg hl] at hd ⊢
    obtain ⟨o, hd, ho⟩ := hd
    rw [hd] at ht
    obtain ⟨t', h1⟩ := ht
    rw [h1]; rfl

open Spec.GCM in
/-- C76 for AES-GCM decryption. -/
theorem C76_gcm_decrypt {κ : Type} {aes : BlockCipher κ} {k : κ} {E : Bytes → Bytes} (env : Env)
    (pclmul : Bool) (h : PureCipher aes k E) (hb : aes.blocksize = 16) (header iv : Bytes)
    (hm : 256 ≤ env.maxLen) (hL : L + 16 ≤ env.maxLen) :
    ∃ t, aesGcmInit env pclmul aes k header iv = .ok t k
      ∧ AuthStreams (aesGcm env aes .decrypt) t L (fun ct =>
        .ok (crypt E iv ct, tag E iv header ct)) := by
  obtain ⟨s, e0, hs, e1, e2, e3, e4, e5⟩ := gcmInit_ok env pclmul h hb header iv
  refine ⟨_, by simp only [aesGcmInit, e0]; rfl, fun ops hops hp => ?_⟩
  have hR := blockRep_init (c := gcmDecWrapped aes) (inv := GcmInv k (subkey E)) env hs
    (by rw [show (gcmDecWrapped aes).blocksize = 16 from rfl]; omega)
  have hbd := blockSpec_bounded (gcmDec_implements h hb (subkey E)) (S := blockSpec 16 (gcmDecF E (subkey E)))
    (k := 0) rfl (fin := gcmFin (gcmDecF E (subkey E)) (subkey E)) (by
      intro p hp hl
      unfold gcmFin lastBlock
      split
      · simp [SRes.andThen, SRes.size]
      · have hi := gcmDecF_inv h hb hp hl
        unfold oneBlock
        simp only
        cases (gcmDecF E (subkey E) p.1 p.2).exn <;> simp [SRes.andThen, SRes.size, hi.2])
  have ht := (gcmDec_refines env h hb (subkey E)).total_paced (blockSpec_lawful (by decide) _)
    hbd (L := L) (by show L + 16 + 0 ≤ _; omega) ops hR ⟨hs, by simp⟩ (fun op ho => (hops op ho).1) hp
  rw [gcmDec_data e1 e2 e3 e4 e5 (inputOf ops)] at ht
  obtain ⟨t', h1⟩ := ht
  exact congrArg Out.observe h1

open Spec.ChaPoly in
/-- C76 for ChaCha20-Poly1305 encryption. -/
theorem C76_chapoly_encrypt {key iv : Bytes} (env : Env) (hk : key.length = 16 ∨ key.length = 32)
    (hiv : iv.length = 8 ∨ iv.length = 12) (header : Bytes) (hm : 256 ≤ env.maxLen)
    (hm' : env.maxLen ≤ 2 ^ 62) (hL : L ≤ env.maxLen) :
    ∃ t, chacha20Poly1305Init env header iv key = .ok t ()
      ∧ AuthStreams (chacha20Poly1305 env iv.length .encrypt) t L (fun m =>
        if TooLong iv m.length then .error (.error .messageTooLong)
        else .ok (crypt key iv m, tag key iv header (crypt key iv m))) := by
  obtain ⟨st, e0, hA⟩ := chapolyInit_ok hk hiv env header
  refine ⟨_, e0, fun ops hops hp => ?_⟩
  have hR := genRep_init (At := ChaPolyEncAt key iv header) env hm ⟨hA, by simp⟩
  have ht := (chapolyEnc_refines (header := header) hk hiv env hm').total_paced
    (chapolyEnc_lawful key iv)
    (genSpec_bounded (by intro a b; simp [chapolyEncF]) (by intro a; rfl)) (L := L) hL ops hR trivial
    (fun op ho => (hops op ho).1) hp
  rw [chapolyEnc_put] at ht
  beta_reduce
  by_cases hl : TooLong iv (inputOf ops).length
  · rw [if_pos hl] at ht ⊢
    obtain ⟨t', h1⟩ := ht
    rw [h1]; rfl
  · rw [if_neg hl] at ht ⊢
    obtain ⟨t', h1⟩ := ht
    rw [h1]; rfl

open Spec.ChaPoly in
/-- C76 for ChaCha20-Poly1305 decryption. -/
theorem C76_chapoly_decrypt {key iv : Bytes} (env : Env) (hk : key.length = 16 ∨ key.length = 32)
    (hiv : iv.length = 8 ∨ iv.length = 12) (header : Bytes) (hm : 256 ≤ env.maxLen)
    (hL : L ≤ env.maxLen) :
    ∃ t, chacha20Poly1305Init env header iv key = .ok t ()
      ∧ AuthStreams (chacha20Poly1305 env iv.length .decrypt) t L (fun ct =>
        .ok (crypt key iv ct, tag key iv header ct)) := by
  obtain ⟨st, e0, hA⟩ := chapolyInit_ok hk hiv env header
  refine ⟨_, e0, fun ops hops hp => ?_⟩
  have hR := genRep_init (At := ChaPolyAt key iv header) env hm hA
  have ht := (chapolyDec_refines (header := header) hk hiv env).total_paced
    (chapolyDec_lawful key iv)
    (genSpec_bounded (by intro a b; simp [chapolyDecF]) (by intro a; rfl)) (L := L) hL ops hR trivial
    (fun op ho => (hops op ho).1) hp
  rw [chapolyDec_put] at ht
  obtain ⟨t', h1⟩ := ht
  rw [h1]; rfl

end aead

section codec

theorem Streams.congr {T T' : Transform τ} (h : ∀ op : TOp, op.ByteOk → T.call op = T'.call op)
    (hf : T.finish = T'.finish) {t : τ} {P : Bytes → Except Exn Bytes → Prop}
    (hS : Streams T' t L P) : Streams T t L P := by
  intro ops sub hops hp
  have hc : ∀ ops : List TOp, (∀ op ∈ ops, op.Proper) → T.calls ops = T'.calls ops := by
    intro ops
    induction ops with
    | nil => intro _; rfl
    | cons op ops ih =>
      intro hops
      simp only [Transform.calls, h op (hops op (by simp)).2, ih (fun o ho => hops o (by simp [ho]))]
  have : wholeRun T ops sub = wholeRun T' ops sub := by
    unfold wholeRun
    rw [hc ops hops, hf, h _ (by cases sub <;> exact trivial)]
  rw [this]
  exact hS ops sub hops hp

/-- C76 for hexadecimal encoding. -/
theorem C76_hex_encode (hm : 256 ≤ env.maxLen) (hL : 2 * L ≤ env.maxLen) :
    Streams (Hex.encode env) (Hex.encInit env) L (fun m r => r = .ok (Spec.Hex.encode m)) := by
  refine Streams.congr (charMethods_call (fun b h0 h1 => Hex.encPutByte_eq env b h0 h1)) rfl ?_
  refine (Hex.encode_refines env).streams (charSpec_lawful _ _ _) Hex.encSpec_bounded
    (by simpa using hL) (Hex.encRep_init env hm) trivial (fun m => ?_)
  rw [Hex.enc_run]; rfl

open Classical in
/-- C76 for hexadecimal decoding. -/
theorem C76_hex_decode (hm : 256 ≤ env.maxLen) (hL : L ≤ env.maxLen) :
    Streams (Hex.decode env) (Hex.decInit env) L (fun m r =>
      r = if Spec.Hex.WellFormed m then .ok (Spec.Hex.decode m)
        else .error (.error .badEncoding)) := by
  refine Streams.congr (charMethods_call (fun b h0 h1 => putByteChr_eq _ b h0 h1)) rfl ?_
  refine (Hex.decode_refines env).streams (charSpec_lawful _ _ _) Hex.decSpec_bounded
    (by simpa using hL) (Hex.decRep_init env hm) trivial (fun m => ?_)
  by_cases hw : Spec.Hex.WellFormed m
  · rw [if_pos hw, (Hex.decSpec_run m).1 hw]; rfl
  · obtain ⟨out, hs, hl⟩ := (Hex.decSpec_run m).2 hw
    rw [if_neg hw, hs]; rfl

/-- C76 for Base64 encoding in one line. -/
theorem C76_base64_compact (hm : 256 ≤ env.maxLen) (pad : Bool) (hL : 5 * L + 6 ≤ env.maxLen) :
    Streams (B64.encode env false pad) (B64.encInit env) L (fun m r =>
      r = .ok (Base64.encode pad m)) := by
  refine Streams.congr (charMethods_call (fun b h0 h1 => putByteChr_eq _ b h0 h1)) rfl ?_
  refine (B64.encode_refines env false pad).streams (charSpec_lawful _ _ _)
    (B64.encSpec_bounded false pad) hL (B64.encRep_init env hm) (by simp) (fun m => ?_)
  obtain ⟨s, hs⟩ := B64.layout_eq false pad 0 m
  rw [hs, B64.layout_false]; rfl

/-- C76 for Base64 encoding in lines. -/
theorem C76_base64_multiline (hm : 256 ≤ env.maxLen) (pad : Bool) (hL : 5 * L + 6 ≤ env.maxLen) :
    Streams (B64.encode env true pad) (B64.encInit env) L (fun m r =>
      r = .ok (Base64.encodeLines m)) := by
  refine Streams.congr (charMethods_call (fun b h0 h1 => putByteChr_eq _ b h0 h1)) rfl ?_
  refine (B64.encode_refines env true pad).streams (charSpec_lawful _ _ _)
    (B64.encSpec_bounded true pad) hL (B64.encRep_init env hm) (by simp) (fun m => ?_)
  obtain ⟨s, hs⟩ := B64.layout_eq true pad 0 m
  rw [hs, B64.layout_lines]; rfl

open Classical in
/-- C76 for Base64 decoding. -/
theorem C76_base64_decode (hm : 256 ≤ env.maxLen) (hL : 3 * L + 3 ≤ env.maxLen) :
    Streams (B64.decode env) (B64.decInit env) L (fun m r =>
      r = if Base64.WellFormed m then .ok (Base64.decode m)
        else .error (.error .badEncoding)) := by
  refine Streams.congr (charMethods_call (fun b h0 h1 => putByteChr_eq _ b h0 h1)) rfl ?_
  refine (B64.decode_refines env).streams (charSpec_lawful _ _ _) B64.decSpec_bounded hL
    (B64.decRep_init env hm) (by simp) (fun m => ?_)
  by_cases hw : Base64.WellFormed m
  · obtain ⟨s, hs⟩ := (B64.decSpec_run m).1 hw
    rw [if_pos hw, hs]; rfl
  · obtain ⟨out, hs, hl⟩ := (B64.decSpec_run m).2 hw
    rw [if_neg hw, hs]; rfl

end codec

/-! ### Non-vacuity -/

namespace Example

/-- 32-bit OCaml: `Sys.max_string_length`. -/
def env32 : Env := ⟨16777211, fun _ i => BitVec.ofNat 8 (5 * i + 1)⟩

/-- A block of 4 bytes is put and the output is retrieved, `n` times. -/
def longOps (n : Nat) : List TOp := (List.replicate n [.putString [1, 2, 3, 4], .getString]).flatten

theorem longOps_paced (n : Nat) : Paced 4 0 (longOps n) ∧ (∀ op ∈ longOps n, op.Proper)
    ∧ (inputOf (longOps n)).length = 4 * n := by
  induction n with
  | zero => exact ⟨trivial, by simp [longOps], by simp [longOps, inputOf]⟩
  | succ n ih =>
    have e : longOps (n + 1) = .putString [1, 2, 3, 4] :: .getString :: longOps n := by
      simp [longOps, List.replicate_succ]
    rw [e]
    refine ⟨⟨by simp [TOp.input], by simp [TOp.input, takesAll], by simpa [takesAll] using ih.1⟩, ?_, ?_⟩
    · intro op ho
      rcases List.mem_cons.1 ho with rfl | ho
      · exact ⟨trivial, trivial⟩
      · rcases List.mem_cons.1 ho with rfl | ho
        · exact ⟨trivial, trivial⟩
        · exact ih.2.1 _ ho
    · rw [inputOf_cons, inputOf_cons]
      simp only [TOp.input, List.nil_append, List.length_append, ih.2.2, List.length_cons,
        List.length_nil]
      omega

/-- A message that is longer than any string, on a 32-bit machine. -/
example : env32.maxLen < (inputOf (longOps 10000000)).length
    ∧ (wholeRun (blockTransform env32 toyEnc) (longOps 10000000) false
        (cipherInit env32 toyEnc key)).observe
      = some (.ok (blockwise (fun s b => ⟨toyE key b, s, none⟩) key
          (chunks 4 (inputOf (longOps 10000000)))).flatten) := by
  obtain ⟨h1, h2, h3⟩ := longOps_paced 10000000
  refine ⟨by rw [h3]; decide, ?_⟩
  obtain ⟨r, e1, e2⟩ := C76_block (env := env32) (L := 4) toyEnc_pure (fun _ _ => rfl) rfl
    (by decide) (by decide) (longOps 10000000) false h2 h1
  rw [e1, e2, if_pos (show toyEnc.blocksize ∣ _ by rw [h3]; exact Nat.dvd_mul_right 4 _)]
  rfl

/-- The same through `transform_channel`, for a channel of any length. -/
example (ic : Bytes) (sched : Nat → Nat) (hd : 4 ∣ ic.length) :
    ∃ t' n', transformChannel env32 (blockTransform env32 toyEnc) sched none
        (cipherInit env32 toyEnc key, ⟨ic, 0, []⟩)
      = .ok () (t', ⟨[], n', (blockwise (fun s b => ⟨toyE key b, s, none⟩) key
          (chunks 4 ic)).flatten⟩) := by
  obtain ⟨r, e1, e2⟩ := C76_channel env32 (C76_block (env := env32) (L := 256) toyEnc_pure
    (fun _ _ => rfl) rfl (by decide) (by decide)) (fun _ => ⟨_, rfl⟩) sched none ic [] 0
    (by intro l hl; cases hl)
  rw [if_pos (show toyEnc.blocksize ∣ List.length (toRead none ic) from hd)] at e1
  subst e1
  exact e2

/-- The hypotheses of the padded, stream, authenticated and character theorems can be met with
strings of 2^24 - 5 bytes. -/
example : Streams (paddedEncrypt env32 Padding.length toyEnc) (cipherInit env32 toyEnc key) 4
    (fun m r => r = .ok (blockwise (fun s b => ⟨toyE key b, s, none⟩) key
      (chunks 4 (Spec.padMessage 4 (Spec.padLength 4) m))).flatten) :=
  C76_padded_encrypt toyEnc_pure (fun _ _ => rfl) rfl (.inl ⟨rfl, by decide, rfl⟩) (by decide)
    (by decide)

example : ∃ P, Streams (paddedDecrypt env32 Padding._8000 toyDec) (cipherInit env32 toyDec key) 4 P :=
  ⟨_, C76_padded_decrypt toyDec_pure (fun _ _ => rfl) rfl (.inr ⟨rfl, rfl⟩) (by decide) (by decide)⟩

example : ∃ s, arcfourInit key = .ok s ∧ Streams (streamTransform env32 arcfour) (streamInit env32 s)
    4 (fun m r => r = .ok (Spec.xorKeystream (Spec.RC4.keystream key) 0 m)) :=
  have h := arcfourInit_at (key := key) (by decide) (by decide)
  ⟨_, h.1, C76_stream (checkedStream_implements (arcfour_generates key) _) h.2 (by decide) (by decide)⟩

/-- A message of 40 million bytes under GCM and under ChaCha20-Poly1305. -/
example : ∃ t, aesGcmInit env32 true gcmToyEnc gcmKey [1, 2] [9, 9, 9] = .ok t gcmKey
    ∧ ((aesGcm env32 gcmToyEnc .encrypt).total (longOps 10000000) t).observe
      = some (.ok (Spec.GCM.crypt (gcmToy gcmKey) [9, 9, 9] (inputOf (longOps 10000000)),
          Spec.GCM.tag (gcmToy gcmKey) [9, 9, 9] [1, 2]
            (Spec.GCM.crypt (gcmToy gcmKey) [9, 9, 9] (inputOf (longOps 10000000))))) := by
  obtain ⟨h1, h2, h3⟩ := longOps_paced 10000000
  obtain ⟨t, e1, e2⟩ := C76_gcm_encrypt (L := 4) env32 true gcmToyEnc_pure rfl [1, 2] [9, 9, 9]
    (by decide) (by decide)
  refine ⟨t, e1, ?_⟩
  rw [e2 _ h2 h1]
  beta_reduce
  rw [if_pos (show (inputOf (longOps 10000000)).length ≤ Spec.GCM.maxPlaintext by rw [h3]; decide)]

example : ∃ t, chacha20Poly1305Init env32 [1, 2] (List.replicate 12 5) (List.replicate 32 7)
      = .ok t ()
    ∧ ((chacha20Poly1305 env32 12 .decrypt).total (longOps 10000000) t).observe
      = some (.ok (Spec.ChaPoly.crypt (List.replicate 32 7) (List.replicate 12 5)
          (inputOf (longOps 10000000)),
        Spec.ChaPoly.tag (List.replicate 32 7) (List.replicate 12 5) [1, 2]
          (inputOf (longOps 10000000)))) := by
  obtain ⟨h1, h2, h3⟩ := longOps_paced 10000000
  obtain ⟨t, e1, e2⟩ := C76_chapoly_decrypt (L := 4) (key := List.replicate 32 7)
    (iv := List.replicate 12 5) env32 (.inr rfl) (.inr rfl) [1, 2] (by decide) (by decide)
  exact ⟨t, e1, e2 _ h2 h1⟩

example : Streams (Hex.encode env32) (Hex.encInit env32) 4 (fun m r => r = .ok (Spec.Hex.encode m)) :=
  C76_hex_encode (by decide) (by decide)

end Example

end Verif
