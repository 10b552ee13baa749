import Verif.Proof.Stream
import Verif.Spec.Cipher
/-
`Stream.cipher` around an object with an arbitrary data-level effect (used for
ChaCha20-Poly1305).
-/
namespace Verif

variable {σ α : Type} {c : StreamCipher σ} {At : σ → α → Prop} {f : α → Bytes → BRes α} {env : Env}

/-- The object `c` computes `f` on data of at most `lim` bytes that is not in the destination. -/
structure StreamRuns (c : StreamCipher σ) (At : σ → α → Prop) (f : α → Bytes → BRes α) (lim : Nat) :
    Prop where
  out_len : ∀ a b, (f a b).out.length = b.length
  run : ∀ {s a} {src : Bytes} {so dofs n : Nat} {dst : Bytes}, At s a → n ≤ lim →
    so + n ≤ src.length → dofs + n ≤ dst.length →
    match (f a (slice src so n)).exn with
    | none => ∃ s', c.transform (.other src) so dofs n (s, dst)
        = .ok () (s', splice dst dofs (f a (slice src so n)).out) ∧ At s' (f a (slice src so n)).st
    | some e => ∃ r, c.transform (.other src) so dofs n (s, dst) = .exn e r

/-- Data-level specification. -/
def genSpec (f : α → Bytes → BRes α) : XSpec α where
  put a b := match (f a b).exn with
    | none => .ok (f a b).out (f a b).st
    | some e => .err (f a b).out e
  flush p := .ok [] p
  finish p := .ok [] p

def GenPos (At : σ → α → Prop) (t : StreamSt σ) (a : α) : Prop := At t.c a ∧ t.charbuf.length = 1

theorem genPut_refines (h : StreamRuns c At f env.maxLen) {t : StreamSt σ} {a : α} {q b : Bytes}
    {ofs len : Nat} (hR : GenPos At t a ∧ OBuf.Rep env t.ob q) (ho : ofs + len ≤ b.length) :
    StepRefines (fun t s q => GenPos At t s ∧ OBuf.Rep env t.ob q) env.maxLen q
      (streamPut env c b ofs len t) ((genSpec f).put a (slice b ofs len)) := by
  obtain ⟨⟨hA, hcb⟩, hob⟩ := hR
  have hsl : (slice b ofs len).length = len := slice_length_of_le ho
  have hol := h.out_len a (slice b ofs len)
  simp only [genSpec]
  cases hexn : (f a (slice b ofs len)).exn with
  | none =>
    intro hfit
    rw [hol, hsl] at hfit
    obtain ⟨o', h1, h2, h3⟩ := OBuf.ensureCapacity_ok hob len hfit
    have hr := h.run (so := ofs) (dofs := o'.oend) (n := len) (dst := o'.obuf) hA (by omega) ho h3
    rw [hexn] at hr
    obtain ⟨s', h4, h5⟩ := hr
    have hw := h2.write (x := (f a (slice b ofs len)).out) (by omega)
    rw [hol, hsl] at hw
    refine ⟨{ t with c := s', ob := { o' with
        obuf := splice o'.obuf o'.oend (f a (slice b ofs len)).out, oend := o'.oend + len } },
      ?_, ⟨h5, hcb⟩, hw⟩
    simp only [streamPut, bind, M.bind, M.zoom, h1, h4, M.modify_def, Int.toNat_natCast]
  | some e =>
    intro hfit
    rw [hol, hsl] at hfit
    obtain ⟨o', h1, h2, h3⟩ := OBuf.ensureCapacity_ok hob len hfit
    have hr := h.run (so := ofs) (dofs := o'.oend) (n := len) (dst := o'.obuf) hA (by omega) ho h3
    rw [hexn] at hr
    obtain ⟨⟨s', d⟩, h4⟩ := hr
    exact ⟨_, by simp only [streamPut, bind, M.bind, M.zoom, h1, h4]; rfl⟩

theorem genPutChar_refines (h : StreamRuns c At f env.maxLen) {t : StreamSt σ} {a : α} {q : Bytes}
    {ch : Byte} (hR : GenPos At t a ∧ OBuf.Rep env t.ob q) :
    StepRefines (fun t s q => GenPos At t s ∧ OBuf.Rep env t.ob q) env.maxLen q
      (streamPutChar env c ch t) ((genSpec f).put a [ch]) := by
  obtain ⟨⟨hA, hcb⟩, hob⟩ := hR
  have hset := bytesSet_ok (b := t.charbuf) (i := 0) (c := ch) (by omega)
  rw [Int.natCast_zero] at hset
  have hc1 : t.charbuf.set 0 ch = [ch] := by
    match hb : t.charbuf, hcb with
    | [x], _ => rfl
  have := genPut_refines (env := env) h (t := { t with charbuf := [ch] }) (a := a) (q := q)
    (b := [ch]) (ofs := 0) (len := 1) ⟨⟨hA, rfl⟩, hob⟩ (by simp)
  have hcode : streamPutChar env c ch t = streamPut env c [ch] 0 1 { t with charbuf := [ch] } := by
    simp only [streamPutChar, M.bind_def, M.get_def, hset, M.orRaise_some, M.modify_def, hc1]
  rw [hcode]
  exact this

theorem genTransform_refines (env : Env) (h : StreamRuns c At f env.maxLen) :
    Refines (streamTransform env c) (genSpec f) env.maxLen
      (fun t s q => GenPos At t s ∧ OBuf.Rep env t.ob q) :=
  inheritBuf_refines (P := GenPos At) (fun hP => hP) (fun _ _ => rfl) (fun _ => rfl)
    (fun hR ho => genPut_refines h hR ho)
    (by
      intro t s q b hR
      have := genPut_refines h (b := b) (ofs := 0) (len := b.length) hR (by omega)
      rw [slice_full] at this
      exact this)
    (fun hR => genPutChar_refines h hR)
    (fun hR => genPutChar_refines h hR)
    (fun hR => by
      intro _; exact ⟨_, rfl, by simpa using hR⟩)
    (fun hR => by
      intro _; exact ⟨_, rfl, by simpa using hR⟩)

theorem genRep_init (env : Env) (hm : 256 ≤ env.maxLen) {s : σ} {a : α} (hA : At s a) :
    GenPos At (streamInit env s) a ∧ OBuf.Rep env (streamInit env s).ob [] :=
  ⟨⟨hA, by simp [streamInit]⟩, OBuf.rep_init env _ (by decide) hm⟩

end Verif
