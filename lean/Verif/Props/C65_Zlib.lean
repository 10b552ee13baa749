import Verif.Props.C64_Zlib
import Verif.Proof.Safe
/-
C65 Substring arguments: `Zlib`, with legal arguments.
C64 Large outputs of `Zlib`.
-/
namespace Verif
open Spec

/-! ### A logic like that of Proof/Safe, in which a computation may go on forever -/

/-- The outcome, if there is one, is a normal return satisfying `Q` or an exception satisfying `E`. -/
def Out.PostL (o : Out σ α) (Q : α → σ → Prop) (E : σ → Prop) : Prop :=
  match o with
  | .ok a s => Q a s
  | .exn _ s => E s
  | .ub => False
  | .loop => True

theorem PostL.bind {σ α β : Type} {Q : α → σ → Prop} {E : σ → Prop} {m : M σ α} {k : α → M σ β} {s : σ}
    {R : β → σ → Prop} (h : Out.PostL (m s) Q E) (hk : ∀ a s', Q a s' → (k a s').PostL R E) :
    ((m >>= k) s).PostL R E := by
  rw [M.bind_def]
  cases hm : m s with
  | ok a s' => rw [hm] at h; exact hk a s' h
  | exn e s' => rw [hm] at h; exact h
  | ub => rw [hm] at h; exact h.elim
  | loop => trivial

theorem PostL.of_post {σ α : Type} {Q : α → σ → Prop} {E : Exn → σ → Prop} {Q' : α → σ → Prop} {E' : σ → Prop}
    {o : Out σ α} (h : o.Post Q E) (hq : ∀ a s, Q a s → Q' a s) (he : ∀ e s, E e s → E' s) : o.PostL Q' E' := by
  cases o with
  | ok a s => exact hq a s h
  | exn e s => exact he e s h
  | ub => exact h
  | loop => trivial

set_option maxRecDepth 8000

/-- One call of zlib on a legal range. -/
theorem zStep_safe (env : Env) {fn : ZCall ζ} (hb : ZBounded fn) (fails : ZCode → Bool) {src : Bytes} {ofs len : Int}
    (hr : InRange src ofs len) (f : ZFlush) {t : ZSt ζ} (ht : t.ob.Safe) :
    (zStep env fn fails src ofs len f t).PostL (fun r t' => t'.ob.Safe ∧ 0 ≤ r.2 ∧ r.2 ≤ len) (fun t' => t'.ob.Safe) := by
  unfold zStep
  refine PostL.bind (Q := fun _ (t' : ZSt ζ) => t'.ob.Safe) ?_ ?_
  · refine PostL.of_post (Post.zoom (OBuf.ensureCapacity_safe env 256 t.ob ht) (Q' := fun _ (t' : ZSt ζ) => t'.ob.Safe)
      (E' := fun _ (t' : ZSt ζ) => t'.ob.Safe) (fun _ _ h => h.1) fun _ _ h => h.2 ▸ ht) (fun _ _ h => h) fun _ _ h => h
  · rintro - t1 h1
    obtain ⟨hp, hbeg, hle⟩ := h1
    obtain ⟨r1, r2, r3⟩ := hr
    show Out.PostL ((M.get >>= fun st => _) t1) _ _
    rw [M.bind_def, M.get_def]
    simp only
    have ha : (zAvail len : Int) ≤ len := by unfold zAvail; omega
    have hb' : (zAvail ((t1.ob.obuf.length : Int) - t1.ob.oend) : Int) ≤ (t1.ob.obuf.length : Int) - t1.ob.oend := by
      unfold zAvail; omega
    generalize hai : zAvail len = ai at ha
    generalize hao : zAvail ((t1.ob.obuf.length : Int) - t1.ob.oend) = ao at hb'
    have hsl : (slice src ofs.toNat ai).length = ai := slice_length_of_le (by omega)
    have hin := hb.usedIn f (slice src ofs.toNat ai) ao t1.zs
    have hout := hb.out f (slice src ofs.toNat ai) ao t1.zs
    rw [hsl] at hin
    rw [M.bind_def, M.zoom, zlibStub]
    simp only [hai, hao]
    rw [if_neg (by unfold InRange; omega)]
    simp only [Int.toNat_natCast]
    generalize fn f (slice src ofs.toNat ai) ao t1.zs = r at hin hout
    have hspl : (splice t1.ob.obuf t1.ob.oend r.out).length = t1.ob.obuf.length := splice_length (by omega)
    cases fails r.code with
    | true =>
      show OBuf.Safe _
      exact ⟨by simp only [hspl]; omega, hbeg, by simp only [hspl]; omega⟩
    | false =>
      refine ⟨⟨?_, ?_, ?_⟩, ?_, ?_⟩
      · show 0 < (splice t1.ob.obuf t1.ob.oend r.out).length; omega
      · show t1.ob.obeg ≤ t1.ob.oend + _; omega
      · show t1.ob.oend + ((t1.ob.obuf.length : Int) - t1.ob.oend - ((ao - r.out.length : Nat) : Int)).toNat ≤ (splice t1.ob.obuf t1.ob.oend r.out).length
        rw [hspl]
        omega
      · show 0 ≤ len - ((ai - r.usedIn : Nat) : Int); omega
      · show len - ((ai - r.usedIn : Nat) : Int) ≤ len; omega

section
variable {ζ : Type} (env : Env) {L : ZLib ζ}

theorem compressPut_safe (hb : ZBounded L.deflate) : ∀ (fuel : Nat) (src : Bytes) (ofs len : Int) (t : ZSt ζ),
    InRange src ofs len → t.ob.Safe →
    (Zlib.compressPut env L fuel src ofs len t).PostL (fun _ t' => t'.ob.Safe) (fun t' => t'.ob.Safe) := by
  intro fuel
  induction fuel with
  | zero => intro src ofs len t _ ht; unfold Zlib.compressPut; split <;> first | trivial | exact ht
  | succ fuel ih =>
    intro src ofs len t hr ht
    unfold Zlib.compressPut
    split
    · refine PostL.bind (zStep_safe env hb _ hr _ ht) ?_
      rintro ⟨b, u⟩ t1 ⟨h1, h2, h3⟩
      simp only
      simp only at h2 h3
      split
      · exact ih _ _ _ _ (by obtain ⟨r1, r2, r3⟩ := hr; exact ⟨by omega, by omega, by omega⟩) h1
      · exact h1
    · exact ht

theorem uncompressPut_safe (hb : ZBounded L.inflate) : ∀ (fuel : Nat) (src : Bytes) (ofs len : Int) (t : ZSt ζ),
    InRange src ofs len → t.ob.Safe →
    (Zlib.uncompressPut env L fuel src ofs len t).PostL (fun _ t' => t'.ob.Safe) (fun t' => t'.ob.Safe) := by
  intro fuel
  induction fuel with
  | zero => intro src ofs len t _ ht; unfold Zlib.uncompressPut; split <;> first | trivial | exact ht
  | succ fuel ih =>
    intro src ofs len t hr ht
    unfold Zlib.uncompressPut
    split
    · refine PostL.bind (zStep_safe env hb _ hr _ ht) ?_
      rintro ⟨b, u⟩ t1 ⟨h1, h2, h3⟩
      simp only at h2 h3
      simp only
      split
      · cases b with
        | true => exact h1
        | false => exact ih _ _ _ _ (by obtain ⟨r1, r2, r3⟩ := hr; exact ⟨by omega, by omega, by omega⟩) h1
      · exact h1
    · exact ht

theorem compressFlush_safe (hb : ZBounded L.deflate) : ∀ (fuel : Nat) (t : ZSt ζ), t.ob.Safe →
    (Zlib.compressFlush env L fuel t).PostL (fun _ t' => t'.ob.Safe) (fun t' => t'.ob.Safe) := by
  intro fuel
  induction fuel with
  | zero => intro t ht; trivial
  | succ fuel ih =>
    intro t ht
    unfold Zlib.compressFlush
    refine PostL.bind (zStep_safe env hb _ ⟨by omega, by omega, by simp⟩ _ ht) ?_
    rintro - t1 ⟨h1, -, -⟩
    rw [M.bind_def, M.get_def]
    simp only
    split
    · exact ih _ h1
    · exact h1

theorem zEnd_safe (f : ζ → Bool × ζ) (t : ZSt ζ) (ht : t.ob.Safe) :
    (zEnd f t).PostL (fun _ t' => t'.ob.Safe) (fun t' => t'.ob.Safe) := by
  unfold zEnd
  simp only
  split <;> exact ht

theorem compressFinish_safe (hb : ZBounded L.deflate) : ∀ (fuel : Nat) (t : ZSt ζ), t.ob.Safe →
    (Zlib.compressFinish env L fuel t).PostL (fun _ t' => t'.ob.Safe) (fun t' => t'.ob.Safe) := by
  intro fuel
  induction fuel with
  | zero => intro t ht; trivial
  | succ fuel ih =>
    intro t ht
    unfold Zlib.compressFinish
    refine PostL.bind (zStep_safe env hb _ ⟨by omega, by omega, by simp⟩ _ ht) ?_
    rintro ⟨b, u⟩ t1 ⟨h1, -, -⟩
    cases b with
    | true => exact zEnd_safe _ _ h1
    | false => exact ih _ h1

theorem doFinish_safe (hb : ZBounded L.inflate) : ∀ (fuel : Nat) (first : Bool) (t : ZSt ζ), t.ob.Safe →
    (Zlib.doFinish env L fuel first t).PostL (fun _ t' => t'.ob.Safe) (fun t' => t'.ob.Safe) := by
  intro fuel
  induction fuel with
  | zero => intro _ t ht; trivial
  | succ fuel ih =>
    intro first t ht
    unfold Zlib.doFinish
    refine PostL.bind (zStep_safe env hb _ (by cases first <;> exact ⟨by decide, by decide, by decide⟩) _ ht) ?_
    rintro ⟨b, u⟩ t1 ⟨h1, -, -⟩
    cases b with
    | true => exact h1
    | false => exact ih _ _ h1

/-- A transform that inherits `buffered_output`, whose own methods keep the buffer well-formed. -/
theorem zInvoke_safe {p : PutMethods (ZSt ζ)}
    (h1 : ∀ b ofs len t, InRange b ofs len → t.ob.Safe →
      (p.putSubstring b ofs len t).PostL (fun _ t' => t'.ob.Safe) (fun t' => t'.ob.Safe))
    (h2 : ∀ s, p.putString s = p.putSubstring s 0 s.length) (h3 : ∀ c, p.putChar c = p.putSubstring [c] 0 1)
    (h4 : ∀ b, p.putByte b = putByteChr p.putChar b)
    (h5 : ∀ t, t.ob.Safe → (p.flush t).PostL (fun _ t' => t'.ob.Safe) (fun t' => t'.ob.Safe))
    (h6 : ∀ t, t.ob.Safe → (p.finish t).PostL (fun _ t' => t'.ob.Safe) (fun t' => t'.ob.Safe))
    (h7 : p.wipe = ZSt.out OBuf.wipe) {t0 : ZSt ζ} (h0 : t0.ob.Safe) :
    NoUndefined (invoke (inheritBuf (·.ob) (fun o t => { t with ob := o }) p)) inRangeT t0 := by
  have key : ∀ c, inRangeT c → ∀ t : ZSt ζ, t.ob.Safe →
      (invoke (inheritBuf (·.ob) (fun o t => { t with ob := o }) p) c t).PostL (fun _ t' => t'.ob.Safe)
        (fun t' => t'.ob.Safe) := by
    have hc : ∀ c t, t.ob.Safe → (p.putChar c t).PostL (fun _ t' => t'.ob.Safe) (fun t' => t'.ob.Safe) := by
      intro c t ht; rw [h3]; exact h1 _ _ _ _ ⟨by decide, by decide, by simp⟩ ht
    have hz : ∀ {α : Type} {m : M OBuf α} {t : ZSt ζ} {Q : α → OBuf → Prop}, (m t.ob).Post Q (fun _ => OBuf.Safe) →
        (∀ a o, Q a o → o.Safe) →
        (M.zoom (fun t : ZSt ζ => t.ob) (fun o t => { t with ob := o }) m t).PostL (fun _ t' => t'.ob.Safe)
          (fun t' => t'.ob.Safe) := by
      intro α m t Q h hq
      exact PostL.of_post (Post.zoom h (Q' := fun _ (t' : ZSt ζ) => t'.ob.Safe)
        (E' := fun _ (t' : ZSt ζ) => t'.ob.Safe) (fun a o h => hq a o h) fun _ _ h => h) (fun _ _ h => h) fun _ _ h => h
    have hd : ∀ {α : Type} {m : M (ZSt ζ) α} {t : ZSt ζ},
        (m t).PostL (fun _ t' => t'.ob.Safe) (fun t' => t'.ob.Safe) →
        (Spec.discard m t).PostL (fun _ t' => t'.ob.Safe) (fun t' => t'.ob.Safe) :=
      fun h => PostL.bind h fun _ _ hs => hs
    intro c hr t ht
    cases c with
    | flush => exact h5 t ht
    | finish => exact h6 t ht
    | buf c =>
      cases c with
      | putSubstring b ofs len => exact h1 b ofs len t hr ht
      | putString s =>
        show Out.PostL (p.putString s t) _ _
        rw [h2]; exact h1 _ _ _ _ ⟨by omega, by omega, by omega⟩ ht
      | putChar c => exact hc c t ht
      | putByte b =>
        show Out.PostL (p.putByte b t) _ _
        rw [h4]
        unfold putByteChr
        rw [M.bind_def]
        cases charChr b with
        | none => exact ht
        | some c => exact hc c t ht
      | availableOutput => exact hd (hz (OBuf.availableOutput_safe _ ht) fun _ _ h => h)
      | getString => exact hd (hz (OBuf.getString_safe _ ht) fun _ _ h => h)
      | getSubstring => exact hd (hz (OBuf.getSubstring_safe _ ht) fun _ _ h => h.1)
      | getChar => exact hd (hz (OBuf.getChar_safe _ ht) fun _ _ h => h)
      | getByte => exact hd (hz (OBuf.getByte_safe _ ht) fun _ _ h => h)
      | wipe =>
        show Out.PostL (p.wipe t) _ _
        rw [h7]; exact hz (OBuf.wipe_safe _ ht) fun _ _ h => h
  intro t hr
  have hs : t.ob.Safe := by
    induction hr with
    | start => exact h0
    | @returned t t' c _ ha hc ih => have := key c ha t ih; rw [hc] at this; exact this
    | @raised t t' c e _ ha hc ih => have := key c ha t ih; rw [hc] at this; exact this
  intro c ha hu
  have := key c ha t hs
  rw [hu] at this
  exact this

/-- C65 for `Zlib`: with any library that stays within the input and the room that it is given, and whatever the
object has been through (large strings, large outputs, exceptions, use after `finish` or `wipe`), no call
accesses memory out of bounds, provided that `put_substring` gets a range of its argument. Missing:
other arguments (`C65_zlib_out_of_bounds`); termination, which depends on zlib. -/
theorem C65_zlib_partial (hd : ZBounded L.deflate) (hi : ZBounded L.inflate) (fuel : Nat) :
    (∀ level header t0, Zlib.compressNew env L level header = .ok t0 →
      NoUndefined (invoke (Zlib.compress env L fuel)) inRangeT t0) ∧
    (∀ header t0, Zlib.uncompressNew env L header = .ok t0 →
      NoUndefined (invoke (Zlib.uncompress env L fuel)) inRangeT t0) := by
  constructor
  · intro level header t0 h0
    have hs : t0.ob.Safe := by
      unfold Zlib.compressNew at h0
      split at h0
      · cases h0; exact OBuf.safe_init env (by decide)
      · cases h0
    exact zInvoke_safe (compressPut_safe env hd fuel) (fun _ => rfl) (fun _ => rfl) (fun _ => rfl)
      (compressFlush_safe env hd fuel) (compressFinish_safe env hd fuel) rfl hs
  · intro header t0 h0
    have hs : t0.ob.Safe := by
      unfold Zlib.uncompressNew at h0
      split at h0
      · cases h0; exact OBuf.safe_init env (by decide)
      · cases h0
    exact zInvoke_safe (uncompressPut_safe env hi fuel) (fun _ => rfl) (fun _ => rfl) (fun _ => rfl)
      (fun _ h => by exact h) (fun t h => PostL.bind (doFinish_safe env hi fuel true t h) fun _ t1 h1 => zEnd_safe _ t1 h1) rfl hs

end
end Verif

namespace Verif.Example
open Spec

/-- The hypotheses of `C65_zlib_partial` hold of the toy library. -/
example : ∃ t0, Zlib.compressNew Example.env64 toyZlib 6 false = .ok t0 ∧
    NoUndefined (invoke (Zlib.compress Example.env64 toyZlib 1000)) inRangeT t0 :=
  ⟨_, rfl, (C65_zlib_partial Example.env64 zToyD.bounded zToyI.bounded 1000).1 6 false _ rfl⟩

end Verif.Example

/-! ### Outputs of 4 GiB -/

namespace Verif
open Spec

/-- `ensure_capacity 256` on a buffer that has nothing at its beginning to reclaim. -/
theorem ensureCapacity_double {env : Env} {o : OBuf} {L : Nat} (hl : o.obuf.length = L) (h0 : o.obeg = 0)
    (he : o.oend ≤ L) (hfull : L < o.oend + 256) (h256 : 256 ≤ L) (hm : 2 * L ≤ env.maxLen) :
    ∃ o', OBuf.ensureCapacity env 256 o = .ok () o' ∧ o'.obeg = 0 ∧ o'.oend = o.oend ∧ o'.obuf.length = 2 * L
      ∧ ∀ i, o.oend ≤ i → o'.obuf[i]? = (env.create (2 * L))[i]? := by
  have hg : OBuf.growLoop ((o.oend : Int) - o.obeg + 256) (2 * o.obuf.length) = some (2 * o.obuf.length) := by
    unfold OBuf.growLoop
    rw [if_neg (by omega)]
  unfold OBuf.ensureCapacity
  simp only
  rw [if_pos (by omega), if_neg (by omega), hg]
  simp only
  rw [if_neg (by omega), if_neg (by omega)]
  have hb := bytesBlit_ok (src := o.obuf) (so := o.obeg) (dst := env.create (2 * o.obuf.length)) (dofs := 0)
    (n := o.oend - o.obeg) (by omega) (by rw [Env.create_length]; omega)
  rw [Int.natCast_zero, show ((o.oend - o.obeg : Nat) : Int) = (o.oend : Int) - o.obeg by omega] at hb
  rw [hb]
  have hsl : (slice o.obuf o.obeg (o.oend - o.obeg)).length = o.oend := by rw [slice_length_of_le (by omega)]; omega
  refine ⟨_, rfl, rfl, ?_, ?_, ?_⟩
  · simp only; omega
  · simp only
    rw [splice_length, Env.create_length, hl]
    rw [hsl, Env.create_length]; omega
  · intro i hi
    simp only
    rw [getElem?_splice (by rw [hsl, Env.create_length]; omega), if_neg (by omega), if_neg (by omega), hl]

/-- `ensure_capacity 256` on a buffer that has room. -/
theorem ensureCapacity_room {env : Env} {o : OBuf} (h : o.oend + 256 ≤ o.obuf.length) :
    OBuf.ensureCapacity env 256 o = .ok () o := by
  unfold OBuf.ensureCapacity
  simp only
  rw [if_neg (by omega)]

/-- What one call of zlib adds to the length of the output: if there are `R` bytes of room, zlib is given
`R % 2^32` bytes of room, and the other ones are counted as if zlib had written them. -/
theorem zStep_length {env : Env} {fn : ZCall ζ} (hb : ZBounded fn) {fails : ZCode → Bool} {src : Bytes} {len : Nat}
    (hs : len ≤ src.length) (hlen : len < 2 ^ 32) (f : ZFlush) {t : ZSt ζ} {o : OBuf} {R : Nat}
    (ho : OBuf.ensureCapacity env 256 t.ob = .ok () o) (hle : o.oend ≤ o.obuf.length)
    (hR : R = o.obuf.length - o.oend)
    (hc : fails (fn f (slice src 0 len) (R % 2 ^ 32) t.zs).code = false) :
    ∃ b : Bytes, b.length = o.obuf.length
      ∧ (∀ i, o.oend + (fn f (slice src 0 len) (R % 2 ^ 32) t.zs).out.length ≤ i → b[i]? = o.obuf[i]?)
      ∧ zStep env fn fails src 0 len f t
        = .ok (decide ((fn f (slice src 0 len) (R % 2 ^ 32) t.zs).code = .streamEnd),
            ((fn f (slice src 0 len) (R % 2 ^ 32) t.zs).usedIn : Int))
          ⟨(fn f (slice src 0 len) (R % 2 ^ 32) t.zs).st,
            { o with obuf := b, oend := o.oend + (R - R % 2 ^ 32 + (fn f (slice src 0 len) (R % 2 ^ 32) t.zs).out.length) }⟩ := by
  have hin := hb.usedIn f (slice src 0 len) (R % 2 ^ 32) t.zs
  have hout := hb.out f (slice src 0 len) (R % 2 ^ 32) t.zs
  rw [slice_length_of_le (by omega)] at hin
  have hai : zAvail (len : Int) = len := zAvail_nat hlen
  have hao : zAvail ((o.obuf.length : Int) - o.oend) = R % 2 ^ 32 := by unfold zAvail; omega
  have e1 : ZSt.out (OBuf.ensureCapacity env 256) t = .ok () { t with ob := o } := by
    unfold ZSt.out M.zoom
    simp only [ho]
  refine ⟨splice o.obuf o.oend (fn f (slice src 0 len) (R % 2 ^ 32) t.zs).out, splice_length (by omega), ?_, ?_⟩
  · intro i hi
    rw [getElem?_splice (by omega), if_neg (by omega), if_neg (by omega)]
  unfold zStep
  simp only [M.bind_def, e1, M.get_def, M.zoom]
  unfold zlibStub
  simp only [hai, hao, Int.toNat_zero, Int.toNat_natCast]
  rw [if_neg (by unfold InRange; omega), hc]
  generalize hr : fn f (slice src 0 len) (R % 2 ^ 32) t.zs = r at hin hout ⊢
  have x1 : (len : Int) - (len - r.usedIn : Nat) = r.usedIn := by omega
  have x2 : ((o.obuf.length : Int) - o.oend - (R % 2 ^ 32 - r.out.length : Nat)).toNat
      = R - R % 2 ^ 32 + r.out.length := by omega
  simp only [Bool.false_eq_true, if_false, x1, x2, M.modify_def, M.pure_def]

/-- C64 is false of large outputs: if 4 GiB of output less some `d < 256` bytes are waiting in a buffer of 4 GiB, then
the next byte put makes the output longer by 4 GiB than what zlib has produced; with every library. The last of these
bytes are those that the memory allocated for the buffer held before. -/
theorem C64_compress_large_output {env : Env} {L : ZLib ζ} (hb : ZBounded L.deflate) (hm : 2 ^ 33 ≤ env.maxLen)
    {t : ZSt ζ} {d : Nat} (h0 : t.ob.obeg = 0) (hl : t.ob.obuf.length = 2 ^ 32) (hd : d < 256)
    (he : t.ob.oend = 2 ^ 32 - d) (c : Byte)
    (hok : (L.deflate .noFlush [c] d t.zs).code = .ok) (hin : (L.deflate .noFlush [c] d t.zs).usedIn = 1)
    {fuel : Nat} (hf : 0 < fuel) :
    ∃ t', (Zlib.compress env L fuel).putChar c t = .ok () t' ∧
      t'.ob.oend - t'.ob.obeg = t.ob.oend - t.ob.obeg + 2 ^ 32 + (L.deflate .noFlush [c] d t.zs).out.length ∧
      t'.ob.obeg = 0 ∧ t'.ob.obuf.length = 2 ^ 33 ∧
      ∀ i, 2 ^ 32 ≤ i → i < 2 ^ 33 → t'.ob.obuf[i]? = some (env.junk (2 ^ 33) i) := by
  obtain ⟨fuel, rfl⟩ : ∃ k, fuel = k + 1 := ⟨fuel - 1, by omega⟩
  obtain ⟨o, o1, o2, o3, o4, o5⟩ := ensureCapacity_double (env := env) hl h0 (by omega) (by omega) (by omega) (by omega)
  have hR : 2 ^ 32 + d = o.obuf.length - o.oend := by omega
  have hmod : (2 ^ 32 + d) % 2 ^ 32 = d := by omega
  have hsl : slice [c] 0 1 = [c] := rfl
  have hdo := hb.out .noFlush [c] d t.zs
  obtain ⟨b, b1, b3, b2⟩ := zStep_length hb (fails := deflateFails) (src := [c]) (len := 1) (by simp) (by omega) .noFlush o1 (by omega)
    hR (by rw [hmod, hsl, hok]; rfl)
  rw [hmod, hsl, hok, hin] at b2
  rw [hmod, hsl] at b3
  refine ⟨⟨(L.deflate .noFlush [c] d t.zs).st, { o with obuf := b, oend := o.oend + (2 ^ 32 + d - d +
    (L.deflate .noFlush [c] d t.zs).out.length) }⟩, ?_, ?_, o2, by simp only; omega, ?_⟩
  · show Zlib.compressPut env L (fuel + 1) [c] 0 1 t = _
    unfold Zlib.compressPut
    rw [if_pos (by decide)]
    have b2' : zStep env L.deflate deflateFails [c] 0 1 ZFlush.noFlush t = _ := b2
    rw [M.bind_def, b2']
    simp only [Int.natCast_one, Int.lt_irrefl, if_false, M.pure_def]
  · simp only
    omega
  · intro i h1 h2
    simp only
    rw [b3 i (by omega), o5 i (by omega)]
    unfold Env.create
    rw [List.getElem?_map, List.getElem?_range (by omega)]
    rfl

end Verif

namespace Verif.Example
open Spec

/-- A full buffer, and more to write. -/
structure ToyFull (t : ZSt ToyZ) (L rest : Nat) : Prop where
  beg : t.ob.obeg = 0
  len : t.ob.obuf.length = L
  full : t.ob.oend = L
  pend : t.zs.pend.length = rest
  ended : t.zs.ended = false
  clean : t.zs.clean = false

theorem toyFlush_step {env : Env} {t : ZSt ToyZ} {L rest : Nat} (h : ToyFull t L rest) (h256 : 256 ≤ L)
    (hL : L < 2 ^ 32) (hm : 2 * L ≤ env.maxLen) :
    ∃ t', zStep env toyDeflate deflateFails [] 0 0 .syncFlush t = .ok (false, 0) t' ∧
      t'.ob.obeg = 0 ∧ t'.ob.obuf.length = 2 * L ∧ t'.ob.oend = L + min L rest ∧ t'.zs.pend.length = rest - L ∧
      t'.zs.ended = false ∧ t'.zs.clean = decide (rest < L) := by
  obtain ⟨o, o1, o2, o3, o4, _⟩ := ensureCapacity_double (env := env) h.len h.beg (by rw [h.full]; omega)
    (by rw [h.full]; omega) h256 hm
  rw [h.full] at o3
  have hR : L = o.obuf.length - o.oend := by omega
  have hmod : L % 2 ^ 32 = L := Nat.mod_eq_of_lt hL
  have hsl : slice ([] : Bytes) 0 0 = [] := rfl
  have hcode : (toyDeflate .syncFlush [] L t.zs).code = .ok := by simp [toyDeflate, h.clean]
  obtain ⟨b, b1, _, b2⟩ := zStep_length zToyD.bounded (fails := deflateFails) (src := []) (len := 0) (by simp) (by omega)
    .syncFlush o1 (by omega) hR (by rw [hmod, hsl]; show deflateFails (toyDeflate .syncFlush [] L t.zs).code = false; rw [hcode]; rfl)
  have hd : toyZlib.deflate = toyDeflate := rfl
  rw [hmod, hsl, hd, hcode] at b2
  refine ⟨_, b2, o2, by simp only; omega, ?_, ?_, ?_, ?_⟩
  · show o.oend + (L - L + (toyDeflate .syncFlush [] L t.zs).out.length) = _
    simp [toyDeflate, toyEncode, h.pend, o3]
  · simp [toyDeflate, toyEncode, h.pend]
  · simp [toyDeflate, h.ended]
  · simp [toyDeflate, toyEncode, h.pend]

theorem toyFlush_fills {env : Env} (hm : 2 ^ 32 ≤ env.maxLen) : ∀ (k j fuel : Nat) (t : ZSt ToyZ), j + k = 22 → k < fuel →
    ToyFull t (512 * 2 ^ j) (2 ^ 32 - 100 - 512 * 2 ^ j) →
    ∃ t', Zlib.compressFlush env toyZlib fuel t = .ok () t' ∧ t'.ob.obeg = 0 ∧ t'.ob.obuf.length = 2 ^ 32 ∧
      t'.ob.oend = 2 ^ 32 - 100 ∧ t'.zs.pend = [] ∧ t'.zs.ended = false := by
  intro k
  induction k with
  | zero =>
    intro j fuel t hj hf h
    obtain rfl : j = 22 := by omega
    obtain ⟨fuel, rfl⟩ : ∃ k, fuel = k + 1 := ⟨fuel - 1, by omega⟩
    obtain ⟨t', h1, h2, h3, h4, h5, h6, h7⟩ := toyFlush_step (env := env) h (by decide) (by decide) (by omega)
    refine ⟨t', ?_, h2, by rw [h3], by rw [h4]; decide, List.length_eq_zero_iff.1 (by rw [h5]), h6⟩
    unfold Zlib.compressFlush
    have hd : toyZlib.deflate = toyDeflate := rfl
    rw [hd, M.bind_def, h1]
    simp only [M.bind_def, M.get_def]
    rw [if_neg (by rw [h3, h4]; decide)]
    rfl
  | succ k ih =>
    intro j fuel t hj hf h
    obtain ⟨fuel, rfl⟩ : ∃ k, fuel = k + 1 := ⟨fuel - 1, by omega⟩
    have hp : 2 ^ j ≤ 2 ^ 21 := Nat.pow_le_pow_right (by decide) (by omega)
    have hp1 : 1 ≤ 2 ^ j := Nat.one_le_two_pow
    have h2p : 2 ^ (j + 1) = 2 * 2 ^ j := by rw [Nat.pow_succ]; omega
    generalize hx : 2 ^ j = x at *
    obtain ⟨t', h1, h2, h3, h4, h5, h6, h7⟩ := toyFlush_step (env := env) h (by omega) (by omega) (by omega)
    have hfull : ToyFull t' (512 * 2 ^ (j + 1)) (2 ^ 32 - 100 - 512 * 2 ^ (j + 1)) := by
      rw [h2p]
      exact ⟨h2, by omega, by omega, by omega, h6, by rw [h7]; exact decide_eq_false (by omega)⟩
    obtain ⟨t'', g1, g2⟩ := ih (j + 1) fuel t' (by omega) (by omega) hfull
    refine ⟨t'', ?_, g2⟩
    unfold Zlib.compressFlush
    have hd : toyZlib.deflate = toyDeflate := rfl
    rw [hd, M.bind_def, h1]
    simp only [M.bind_def, M.get_def]
    rw [if_pos (by omega)]
    exact g1

end Verif.Example

namespace Verif
open Spec Verif.Example

/-- The situation of `C64_compress_large_output` can be reached: with the toy library, which meets the documented
behaviour of zlib, put a string of `2^31 - 50` bytes, flush, put one byte; the compressed data has
`2^32 - 98` bytes but `2^33 - 98` bytes are available, those from number `2^32` on being uninitialised memory. -/
theorem C64_compress_large_output_reached {env : Env} (hm : 2 ^ 33 ≤ env.maxLen) {s : Bytes} (hs : s.length = 2 ^ 31 - 50)
    (c : Byte) {fuel : Nat} (hf : 22 < fuel) :
    ∃ t0 t1, Zlib.compressNew env toyZlib 6 false = .ok t0 ∧
      (Zlib.compress env toyZlib fuel).callsF [.call (.putString s), .flush, .call (.putChar c)] t0 = .ok [] t1 ∧
      (∃ t2, (Zlib.compress env toyZlib fuel).availableOutput t1 = .ok (2 ^ 33 - 98) t2) ∧
      (∃ r t2, (Zlib.compress env toyZlib fuel).getString t1 = .ok r t2 ∧
        ∀ i, 2 ^ 32 ≤ i → i < 2 ^ 33 - 98 → r[i]? = some (env.junk (2 ^ 33) i)) ∧
      (toyEncode (s ++ [c])).length = 2 ^ 32 - 98 := by
  obtain ⟨fuel, rfl⟩ : ∃ k, fuel = k + 1 := ⟨fuel - 1, by omega⟩
  have hd : toyZlib.deflate = toyDeflate := rfl
  -- put_string
  have hsl : slice s 0 (2 ^ 31 - 50) = s := by rw [← hs]; simp [slice]
  have hcode : (toyDeflate .noFlush s 512 {}).code = .ok := by simp [toyDeflate]
  obtain ⟨b, b1, _, b2⟩ := zStep_length (env := env) zToyD.bounded (fails := deflateFails) (src := s) (len := 2 ^ 31 - 50)
    (R := 512) (by omega) (by omega) .noFlush (t := ⟨{}, OBuf.init env 512⟩)
    (ensureCapacity_room (by simp [OBuf.init]))
    (by simp [OBuf.init]) (by simp [OBuf.init])
    (by rw [hsl, hd]; show deflateFails (toyDeflate .noFlush s 512 {}).code = false; rw [hcode]; rfl)
  rw [hsl, hd, show 512 % 2 ^ 32 = 512 from rfl, hcode] at b2
  have hout : (toyDeflate .noFlush s 512 {}).out.length = 512 := by
    simp [toyDeflate, toyEncode_length]; omega
  have huse : (toyDeflate .noFlush s 512 {}).usedIn = 2 ^ 31 - 50 := by simp [toyDeflate, hs]
  rw [huse, hout] at b2
  have e1 : (Zlib.compress env toyZlib (fuel + 1)).putString s ⟨{}, OBuf.init env 512⟩
      = .ok () ⟨(toyDeflate .noFlush s 512 {}).st, { OBuf.init env 512 with obuf := b, oend := (OBuf.init env 512).oend + (512 - 512 + 512) }⟩ := by
    show Zlib.compressPut env toyZlib (fuel + 1) s 0 s.length _ = _
    unfold Zlib.compressPut
    rw [if_pos (by omega), hd, hs, M.bind_def, b2]
    simp only [Int.lt_irrefl, if_false, M.pure_def]
  -- flush
  have hb512 : b.length = 512 := by rw [b1]; simp [OBuf.init]
  obtain ⟨t2, f1, f2, f3, f4, f5, f6⟩ := toyFlush_fills (env := env) (by omega) 22 0 (fuel + 1)
    ⟨(toyDeflate .noFlush s 512 {}).st, { OBuf.init env 512 with obuf := b, oend := (OBuf.init env 512).oend + (512 - 512 + 512) }⟩
    rfl (by omega) ⟨rfl, by simpa using hb512, by simp [OBuf.init], by simp [toyDeflate, toyEncode_length, hs],
      by simp [toyDeflate], by simp [toyDeflate]⟩
  -- put_char
  have hc1 : (toyZlib.deflate .noFlush [c] 100 t2.zs).out.length = 2 := by
    simp [toyZlib, toyDeflate, toyEncode, f5]
  obtain ⟨t3, g1, g2, g3, g4, g5⟩ := C64_compress_large_output (env := env) (L := toyZlib) zToyD.bounded hm (d := 100) f2 f3 (by decide) f4 c
    (by simp [toyZlib, toyDeflate]) (by simp [toyZlib, toyDeflate]) (fuel := fuel + 1) (by omega)
  rw [f4, f2, hc1] at g2
  have hend : t3.ob.oend = 2 ^ 33 - 98 := by omega
  refine ⟨⟨{}, OBuf.init env 512⟩, t3, rfl, ?_, ⟨t3, ?_⟩, ⟨slice t3.ob.obuf t3.ob.obeg (t3.ob.oend - t3.ob.obeg),
    { t3 with ob := { t3.ob with obeg := 0, oend := 0 } }, ?_, ?_⟩, ?_⟩
  · have f1' : (Zlib.compress env toyZlib (fuel + 1)).flush _ = .ok () t2 := f1
    simp only [Transform.callsF, Transform.callF, Transform.call, M.bind_def, e1, f1', g1, M.pure_def, List.append_nil]
  · show M.zoom (fun t : ZSt ToyZ => t.ob) (fun o t => { t with ob := o }) OBuf.availableOutput t3 = _
    have hx : (t3.ob.oend : Int) - t3.ob.obeg = 2 ^ 33 - 98 := by omega
    rw [← hx]
    rfl
  · show M.zoom (fun t : ZSt ToyZ => t.ob) (fun o t => { t with ob := o }) OBuf.getString t3 = _
    have hs : bytesSub t3.ob.obuf t3.ob.obeg ((t3.ob.oend : Int) - t3.ob.obeg)
        = some (slice t3.ob.obuf t3.ob.obeg (t3.ob.oend - t3.ob.obeg)) := by
      rw [show ((t3.ob.oend : Int) - t3.ob.obeg) = ((t3.ob.oend - t3.ob.obeg : Nat) : Int) by omega]
      exact bytesSub_ok (by omega)
    simp only [M.zoom, OBuf.getString, hs]
  · intro i h1 h2
    rw [getElem?_slice, if_pos (by omega), g3, Nat.zero_add]
    exact g5 i h1 (by omega)
  · rw [toyEncode_length, List.length_append, hs, List.length_singleton]

end Verif
