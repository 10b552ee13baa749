import Verif.Model.Stream
import Verif.Spec.Stream
import Verif.Proof.Transform
import Verif.Proof.OBuf
import Verif.Proof.Xor
/-
Stream ciphers: the C loop and the `Stream.cipher` transform, against a keystream.
-/
namespace Verif

/-- `At s p`: state `s` is at keystream position `p`. -/
structure Generates (next : σ → Option (Byte × σ)) (At : σ → Nat → Prop) (ks : Nat → Byte) :
    Prop where
  step : ∀ {s p}, At s p → ∃ s', next s = some (ks p, s') ∧ At s' (p + 1)

open Spec (xorKeystream)

@[simp] theorem xorKeystream_length (ks : Nat → Byte) (p : Nat) (m : Bytes) :
    (xorKeystream ks p m).length = m.length := by simp [xorKeystream]

theorem xorKeystream_append (ks : Nat → Byte) (p : Nat) (a b : Bytes) :
    xorKeystream ks p (a ++ b) = xorKeystream ks p a ++ xorKeystream ks (p + a.length) b := by
  simp only [xorKeystream, List.mapIdx_append]
  congr 2
  funext i x
  rw [show p + (i + a.length) = p + a.length + i by omega]

@[simp] theorem xorKeystream_nil (ks : Nat → Byte) (p : Nat) : xorKeystream ks p [] = [] := rfl

theorem xorKeystream_invol (ks : Nat → Byte) (p : Nat) (m : Bytes) :
    xorKeystream ks p (xorKeystream ks p m) = m := by
  apply List.ext_getElem?
  intro i
  simp only [xorKeystream, List.getElem?_mapIdx, Option.map_map]
  cases m[i]? <;> simp [BitVec.xor_assoc]

variable {σ : Type} {next : σ → Option (Byte × σ)} {At : σ → Nat → Prop} {ks : Nat → Byte}

theorem streamLoop_ok (h : Generates next At ks) (n : Nat) : ∀ {src : Src} {so dofs : Nat}
    {s : σ} {p : Nat} {dst : Bytes}, At s p →
    so + n ≤ (src.read dst).length → dofs + n ≤ dst.length → NoFeedback src so dofs n →
    ∃ s', streamLoop next src so dofs n (s, dst)
      = .ok () (s', splice dst dofs (xorKeystream ks p (slice (src.read dst) so n)))
      ∧ At s' (p + n) := by
  induction n with
  | zero =>
    intro src so dofs s p dst hA _ _ _
    exact ⟨s, by simp [streamLoop], by simpa using hA⟩
  | succ n ih =>
    intro src so dofs s p dst hA hs hd hf
    obtain ⟨s1, h1, hA1⟩ := h.step hA
    have hr := cRead_ok (b := src.read dst) (o := so) (n := 1) (by omega)
    have hl1 : (slice (src.read dst) so 1).length = 1 := slice_length_of_le (by omega)
    have hx : ((slice (src.read dst) so 1).map (· ^^^ ks p)).length = 1 := by simp; omega
    have hw := cWrite_ok (b := dst) (o := dofs) (x := (slice (src.read dst) so 1).map (· ^^^ ks p))
      (by omega)
    have hxk : (slice (src.read dst) so 1).map (· ^^^ ks p)
        = xorKeystream ks p (slice (src.read dst) so 1) := by
      rw [slice_one (by omega)]; simp [xorKeystream]
    rw [show n + 1 = 1 + n by omega] at hf
    obtain ⟨s2, h2, hA2⟩ := ih (src := src) (so := so + 1) (dofs := dofs + 1) (s := s1) (p := p + 1)
      (dst := splice dst dofs ((slice (src.read dst) so 1).map (· ^^^ ks p))) hA1
      (by rw [read_splice_length (by omega)]; omega) (by rw [splice_length (by omega)]; omega)
      hf.step
    refine ⟨s2, ?_, by rw [show p + (n + 1) = p + 1 + n by omega]; exact hA2⟩
    simp only [streamLoop, M.bind_def, M.get_def, h1, M.orUB_some, M.modify_def]
    simp only [hr, M.orUB_some, hw]
    rw [show ((so : Int) + 1) = ((so + 1 : Nat) : Int) by omega,
      show ((dofs : Int) + 1) = ((dofs + 1 : Nat) : Int) by omega, h2]
    congr 2
    rw [read_splice_later hx hf (by omega)]
    have := splice_splice_append (b := dst) (o := dofs)
      (x := (slice (src.read dst) so 1).map (· ^^^ ks p))
      (y := xorKeystream ks (p + 1) (slice (src.read dst) (so + 1) n))
      (by rw [hx, xorKeystream_length, slice_length_of_le (by omega)]; omega)
    rw [hx] at this
    rw [this, show n + 1 = 1 + n by omega, slice_append_right, xorKeystream_append, hl1, hxk]

/-- A stream cipher object that xors with the keystream `ks`. -/
structure StreamImplements (c : StreamCipher σ) (At : σ → Nat → Prop) (ks : Nat → Byte) :
    Prop where
  run : ∀ {s p} {src : Src} {so dofs n : Nat} {dst : Bytes}, At s p →
    so + n ≤ (src.read dst).length → dofs + n ≤ dst.length → NoFeedback src so dofs n →
    ∃ s', c.transform src so dofs n (s, dst)
      = .ok () (s', splice dst dofs (xorKeystream ks p (slice (src.read dst) so n)))
      ∧ At s' (p + n)

theorem checkedStream_implements (h : Generates next At ks) (wipe : σ → σ) :
    StreamImplements (checkedStream next wipe) At ks where
  run := by
    intro s p src so dofs n dst hA hs hd hf
    obtain ⟨s', h1, h2⟩ := streamLoop_ok h n hA hs hd hf
    refine ⟨s', ?_, h2⟩
    simp only [checkedStream, M.bind_def, M.get_def]
    rw [if_neg (by omega)]
    simp only [Int.toNat_natCast, M.pure_def, h1]

/-- `Stream.cipher` at the level of data: the state is the keystream position. -/
def streamSpec (ks : Nat → Byte) : XSpec Nat where
  put p b := .ok (xorKeystream ks p b) (p + b.length)
  flush p := .ok [] p
  finish p := .ok [] p

theorem streamSpec_lawful (ks : Nat → Byte) : (streamSpec ks).Lawful where
  put_nil := by intro s; simp [streamSpec]
  put_append := by
    intro s a b
    apply SRes.Le.of_eq
    simp only [streamSpec, SRes.andThen, xorKeystream_append, List.length_append, Nat.add_assoc]

/-- Output methods inherited from `buffered_output`. -/
theorem inheritBuf_refines {τ ρ : Type} {env : Env} {get : τ → OBuf} {set : OBuf → τ → τ}
    {p : PutMethods τ} {S : XSpec ρ} {P : τ → ρ → Prop}
    (hset : ∀ {t s o}, P t s → P (set o t) s) (hgs : ∀ o t, get (set o t) = o)
    (hsg : ∀ t, set (get t) t = t)
    (putSubstring : ∀ {t s q b} {ofs len : Nat}, P t s ∧ OBuf.Rep env (get t) q →
      ofs + len ≤ b.length →
      StepRefines (fun t s q => P t s ∧ OBuf.Rep env (get t) q) env.maxLen q
        (p.putSubstring b ofs len t) (S.put s (slice b ofs len)))
    (putString : ∀ {t s q b}, P t s ∧ OBuf.Rep env (get t) q →
      StepRefines (fun t s q => P t s ∧ OBuf.Rep env (get t) q) env.maxLen q
        (p.putString b t) (S.put s b))
    (putChar : ∀ {t s q c}, P t s ∧ OBuf.Rep env (get t) q →
      StepRefines (fun t s q => P t s ∧ OBuf.Rep env (get t) q) env.maxLen q
        (p.putChar c t) (S.put s [c]))
    (putByte : ∀ {t s q b}, P t s ∧ OBuf.Rep env (get t) q →
      StepRefines (fun t s q => P t s ∧ OBuf.Rep env (get t) q) env.maxLen q
        (p.putByte b t) (S.put s [BitVec.ofInt 8 b]))
    (flush : ∀ {t s q}, P t s ∧ OBuf.Rep env (get t) q →
      StepRefines (fun t s q => P t s ∧ OBuf.Rep env (get t) q) env.maxLen q
        (p.flush t) (S.flush s))
    (finish : ∀ {t s q}, P t s ∧ OBuf.Rep env (get t) q →
      StepRefines (fun t s q => P t s ∧ OBuf.Rep env (get t) q) env.maxLen q
        (p.finish t) (S.finish s)) :
    Refines (inheritBuf get set p) S env.maxLen (fun t s q => P t s ∧ OBuf.Rep env (get t) q) where
  putSubstring := putSubstring
  putString := putString
  putChar := putChar
  putByte := putByte
  flush := flush
  finish := finish
  available := by
    intro t s q hR
    simp only [inheritBuf, M.zoom, OBuf.availableOutput_ok hR.2, hsg]
  getString := by
    intro t s q hR
    exact ⟨_, by simp only [inheritBuf, M.zoom, OBuf.getString_ok hR.2]; rfl,
      hset hR.1, by rw [hgs]; exact hR.2.clear⟩
  getSubstring := by
    intro t s q hR
    obtain ⟨h1, h2, h3⟩ := OBuf.getSubstring_ok hR.2
    exact ⟨_, _, _, by simp only [inheritBuf, M.zoom, h1]; rfl, h2, h3,
      hset hR.1, by rw [hgs]; exact hR.2.clear⟩
  getChar_nil := by
    intro t s hR
    simp only [inheritBuf, M.zoom, OBuf.getChar_nil hR.2, hsg]
  getChar_cons := by
    intro t s ch q hR
    obtain ⟨o', h1, h2⟩ := OBuf.getChar_cons hR.2
    exact ⟨_, by simp only [inheritBuf, M.zoom, h1]; rfl, hset hR.1, by rw [hgs]; exact h2⟩
  getByte_nil := by
    intro t s hR
    have : OBuf.getByte (get t) = .exn .endOfFile (get t) := M.bind_exn (OBuf.getChar_nil hR.2)
    simp only [inheritBuf, M.zoom, this, hsg]
  getByte_cons := by
    intro t s ch q hR
    obtain ⟨o', h1, h2⟩ := OBuf.getChar_cons hR.2
    have : OBuf.getByte (get t) = .ok (ch.toNat : Int) o' := M.bind_ok h1
    exact ⟨_, by simp only [inheritBuf, M.zoom, this]; rfl, hset hR.1, by rw [hgs]; exact h2⟩

variable {c : StreamCipher σ} {env : Env}

/-- The object state of `Stream.cipher` at keystream position `p`. -/
def StreamPos (At : σ → Nat → Prop) (t : StreamSt σ) (p : Nat) : Prop :=
  At t.c p ∧ t.charbuf.length = 1

theorem streamPut_refines (h : StreamImplements c At ks) {t : StreamSt σ} {p : Nat} {q b : Bytes}
    {ofs len : Nat} (hR : StreamPos At t p ∧ OBuf.Rep env t.ob q) (ho : ofs + len ≤ b.length) :
    StepRefines (fun t s q => StreamPos At t s ∧ OBuf.Rep env t.ob q) env.maxLen q
      (streamPut env c b ofs len t) ((streamSpec ks).put p (slice b ofs len)) := by
  obtain ⟨⟨hA, hcb⟩, hob⟩ := hR
  have hsl : (slice b ofs len).length = len := slice_length_of_le ho
  intro hfit
  rw [xorKeystream_length, hsl] at hfit
  obtain ⟨o', h1, h2, h3⟩ := OBuf.ensureCapacity_ok hob len hfit
  obtain ⟨s', h4, h5⟩ := h.run (src := .other b) (so := ofs) (dofs := o'.oend) (n := len)
    (dst := o'.obuf) hA ho h3 trivial
  have hw := h2.write (x := xorKeystream ks p (slice b ofs len)) (by rw [xorKeystream_length]; omega)
  rw [xorKeystream_length, hsl] at hw
  rw [Src.read_other] at h4
  refine ⟨{ t with c := s', ob := { o' with
      obuf := splice o'.obuf o'.oend (xorKeystream ks p (slice b ofs len)), oend := o'.oend + len } },
    ?_, ⟨?_, hcb⟩, hw⟩
  · simp only [streamPut, bind, M.bind, M.zoom, h1, h4, M.modify_def, Int.toNat_natCast]
  · simp only [hsl]; exact h5

theorem streamPutChar_refines (h : StreamImplements c At ks) {t : StreamSt σ} {p : Nat} {q : Bytes}
    {ch : Byte} (hR : StreamPos At t p ∧ OBuf.Rep env t.ob q) :
    StepRefines (fun t s q => StreamPos At t s ∧ OBuf.Rep env t.ob q) env.maxLen q
      (streamPutChar env c ch t) ((streamSpec ks).put p [ch]) := by
  obtain ⟨⟨hA, hcb⟩, hob⟩ := hR
  have hset := bytesSet_ok (b := t.charbuf) (i := 0) (c := ch) (by omega)
  rw [Int.natCast_zero] at hset
  have hc1 : t.charbuf.set 0 ch = [ch] := by
    match hb : t.charbuf, hcb with
    | [x], _ => rfl
  have := streamPut_refines (env := env) h (t := { t with charbuf := [ch] }) (p := p) (q := q)
    (b := [ch]) (ofs := 0) (len := 1) ⟨⟨hA, rfl⟩, hob⟩ (by simp)
  have hcode : streamPutChar env c ch t = streamPut env c [ch] 0 1 { t with charbuf := [ch] } := by
    simp only [streamPutChar, M.bind_def, M.get_def, hset, M.orRaise_some, M.modify_def, hc1]
  rw [hcode]
  exact this

theorem streamTransform_refines (env : Env) (h : StreamImplements c At ks) :
    Refines (streamTransform env c) (streamSpec ks) env.maxLen
      (fun t s q => StreamPos At t s ∧ OBuf.Rep env t.ob q) :=
  inheritBuf_refines (P := StreamPos At) (fun hP => hP) (fun _ _ => rfl) (fun _ => rfl)
    (fun hR ho => streamPut_refines h hR ho)
    (by
      intro t s q b hR
      have := streamPut_refines h (b := b) (ofs := 0) (len := b.length) hR (by omega)
      rw [slice_full] at this
      exact this)
    (fun hR => streamPutChar_refines h hR)
    (fun hR => streamPutChar_refines h hR)
    (fun hR => by
      intro _; exact ⟨_, rfl, by simpa using hR⟩)
    (fun hR => by
      intro _; exact ⟨_, rfl, by simpa using hR⟩)

theorem streamRep_init (env : Env) (hm : 256 ≤ env.maxLen) {s : σ} {p : Nat} (hA : At s p) :
    StreamPos At (streamInit env s) p ∧ OBuf.Rep env (streamInit env s).ob [] :=
  ⟨⟨hA, by simp [streamInit]⟩, OBuf.rep_init env _ (by decide) hm⟩

end Verif
