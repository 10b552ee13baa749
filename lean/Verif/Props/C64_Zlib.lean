import Verif.Proof.Zlib
import Verif.Props.Example
/-
C64 Zlib transforms feed all input and collect all output.
C65 Substring arguments: `Zlib`.
C68 Flushing: `Zlib`.
-/
namespace Verif
open Spec

/-! ### C64: `Zlib.compress` -/

/-- C64, the full statement of the first half: for every engine that behaves as zlib documents and every history
of calls, the output is a complete compressed form of the data put. It holds of histories where each call
puts less than 4 GiB, with a bound on the output; see `C64_compress_large_string` for longer strings and
`C64_compress_flush_twice` for the condition on flushes. -/
theorem C64_compress_partial {env : Env} {L : ZLib ζ} {z0 : ζ} {Valid : Bytes → Bytes → Prop}
    (D : DeflateContract L z0 Valid) {level : Int} {header : Bool} (hinit : L.deflateInit level header = some z0)
    {P : Nat} (h512 : 512 ≤ env.maxLen) (hroom : P + 256 ≤ env.maxLen) (hword : 2 * P + 512 < 2 ^ 32)
    (ops : List FOp) (hops : ∀ op ∈ ops, op.Legal ∧ FOp.ByteOk op ∧ FOp.Short op) (hff : FlushesFresh true ops)
    (hsz : ∀ z c p, D.Live z c p ∨ D.Finishing z c p → c <+: finputOf ops → p.length ≤ P)
    {fuel : Nat} (hf : P + 1 < fuel) :
    ∃ t0 x t', Zlib.compressNew env L level header = .ok t0 ∧
      (Zlib.compress env L fuel).totalF ops t0 = .ok x t' ∧ Valid x (finputOf ops) := by
  obtain ⟨x, t', h1, h2⟩ := compressTotal_ok ⟨hroom, hword⟩ h512 D (fun {z c p} h hc => hsz z c p h hc) hf hops hff
  refine ⟨_, x, t', ?_, h1, h2⟩
  unfold Zlib.compressNew
  rw [hinit]

/-- `compress` raises `Compression_error` if zlib refuses the parameters. -/
theorem C64_compress_init (env : Env) (L : ZLib ζ) (level : Int) (header : Bool) :
    Zlib.compressNew env L level header = .error (.error .compressionError) ↔ L.deflateInit level header = none := by
  unfold Zlib.compressNew
  cases L.deflateInit level header <;> simp

/-- C64 is false of longer strings: of a string of `2^32 + k` bytes, `0 < k < 2^32`, only `k` bytes are compressed
and the others silently disappear, since `avail_in` is a 32-bit number. -/
theorem C64_compress_large_string {env : Env} {L : ZLib ζ} {z0 : ζ} {Valid : Bytes → Bytes → Prop}
    (D : DeflateContract L z0 Valid) {level : Int} {header : Bool} (hinit : L.deflateInit level header = some z0)
    {P : Nat} (h512 : 512 ≤ env.maxLen) (hroom : P + 256 ≤ env.maxLen) (hword : 2 * P + 512 < 2 ^ 32)
    {s : Bytes} {k : Nat} (hk : 0 < k) (hk' : k < 2 ^ 32) (hs : s.length = 2 ^ 32 + k)
    (hsz : ∀ z c p, D.Live z c p ∨ D.Finishing z c p → c.length ≤ k → p.length ≤ P)
    {fuel : Nat} (hf : P + 1 < fuel) :
    ∃ t0 x t' w, Zlib.compressNew env L level header = .ok t0 ∧
      (Zlib.compress env L fuel).totalF [.call (.putString s)] t0 = .ok x t' ∧ Valid x w ∧ w.length = k := by
  have hr : ZRoom env P := ⟨hroom, hword⟩
  obtain ⟨t1, o, w, e1, e2, e3, e4⟩ := compressPut_large hr D hk hk' (fun {z c p} h hc => hsz z c p (.inl h) hc) hf
    (zInv_init h512 z0) D.start.1 hs
  obtain ⟨t2, o2, f1, f2, f3⟩ := compressFinish_ok hr D (data := w)
    (fun {z c p} h hc => hsz z c p h (by have := hc.length_le; omega)) fuel e2 (g := []) (.inl (by simpa using e3))
    (List.prefix_refl _) (by omega)
  refine ⟨⟨z0, OBuf.init env 512⟩, o ++ o2, ⟨t2.zs, { t2.ob with obeg := 0, oend := 0 }⟩, w, ?_, ?_,
    by simpa using f3, e4⟩
  · unfold Zlib.compressNew; rw [hinit]
  · unfold Transform.totalF
    have e1' : (Zlib.compress env L fuel).callsF [.call (.putString s)] ⟨z0, OBuf.init env 512⟩ = .ok [] t1 := by
      have : (Zlib.compress env L fuel).putString s ⟨z0, OBuf.init env 512⟩ = .ok () t1 := e1
      simp only [Transform.callsF, Transform.callF, Transform.call, M.bind_def, this, M.pure_def, List.append_nil]
    have f1' : (Zlib.compress env L fuel).finish t1 = .ok () t2 := f1
    have f4 : (Zlib.compress env L fuel).getString t2 = .ok (o ++ o2) ⟨t2.zs, { t2.ob with obeg := 0, oend := 0 }⟩ := by
      simp only [Zlib.compress, inheritBuf, M.zoom, OBuf.getString_ok f2.rep]
    simp only [M.bind_def, e1', f1', f4, M.pure_def, List.nil_append]

/-- C68 for `compress`: it is an error to flush when nothing was put since the previous flush, provided that zlib
reports that no progress is possible. -/
theorem C64_compress_flush_twice {env : Env} {L : ZLib ζ} {z0 : ζ} {Valid : Bytes → Bytes → Prop}
    (D : DeflateContract L z0 Valid) (hst : D.Strict) {level : Int} {header : Bool}
    (hinit : L.deflateInit level header = some z0)
    {P : Nat} (h512 : 512 ≤ env.maxLen) (hroom : P + 256 ≤ env.maxLen) (hword : 2 * P + 512 < 2 ^ 32)
    (ops : List FOp) (hops : ∀ op ∈ ops, op.Legal ∧ FOp.ByteOk op ∧ FOp.Short op) (hff : ¬ FlushesFresh true ops)
    (hsz : ∀ z c p, D.Live z c p → c <+: finputOf ops → p.length ≤ P)
    {fuel : Nat} (hf : P + 1 < fuel) :
    ∃ t0 t', Zlib.compressNew env L level header = .ok t0 ∧
      (Zlib.compress env L fuel).totalF ops t0 = .exn (.error .compressionError) t' := by
  obtain ⟨t', h⟩ := compressCalls_bad ⟨hroom, hword⟩ D hst (data := finputOf ops)
    (fun {z c p} h hc => hsz z c p h hc) hf ops (t := ⟨z0, OBuf.init env 512⟩) (q := []) (g := []) (c := [])
    (fresh := true) (zInv_init h512 z0) D.start.1 (fun _ => D.start.2) (by simp) hops hff (by simp)
  refine ⟨⟨z0, OBuf.init env 512⟩, t', ?_, ?_⟩
  · unfold Zlib.compressNew; rw [hinit]
  · unfold Transform.totalF
    simp only [M.bind_def, h]

/-! ### C64: `Zlib.uncompress` -/

/-- C64, second half: for every compressed format, every engine that decompresses it as zlib documents and every
history of calls: if the data put is one complete compressed stream then the output is what it stands
for. Otherwise, and in particular if there is something after the end of the stream,
`Compression_error` is raised; unless the data lacks exactly one last byte, a space, which `finish` may
supply. It holds of histories where each call puts less than 4 GiB, with a bound on the output. -/
theorem C64_uncompress_partial {env : Env} {L : ZLib ζ} {z0 : ζ} {F : ZFormat}
    (I : InflateContract L z0 F) {header : Bool} (hinit : L.inflateInit header = some z0)
    {P : Nat} (h512 : 512 ≤ env.maxLen) (hroom : P + 256 ≤ env.maxLen) (hword : 2 * P + 512 < 2 ^ 32)
    (ops : List FOp) (hops : ∀ op ∈ ops, op.Legal ∧ FOp.ByteOk op ∧ FOp.Short op)
    (hsz : ∀ a, a <+: finputOf ops ++ [0x20] → (F.out a).length ≤ P) {fuel : Nat} (hf : P + 1 < fuel) :
    ∃ t0, Zlib.uncompressNew env L header = .ok t0 ∧
      (F.Stream (finputOf ops) →
        ∃ t', (Zlib.uncompress env L fuel).totalF ops t0 = .ok (F.out (finputOf ops)) t') ∧
      (¬ F.Stream (finputOf ops) →
        (∃ t', (Zlib.uncompress env L fuel).totalF ops t0 = .exn (.error .compressionError) t') ∨
        (F.Stream (finputOf ops ++ [0x20]) ∧
          ∃ t', (Zlib.uncompress env L fuel).totalF ops t0 = .ok (F.out (finputOf ops ++ [0x20])) t')) := by
  refine ⟨_, ?_, uncompressTotal_ok ⟨hroom, hword⟩ h512 I hsz hf hops⟩
  unfold Zlib.uncompressNew
  rw [hinit]

/-- Trailing garbage is reported. -/
theorem C64_uncompress_garbage {env : Env} {L : ZLib ζ} {z0 : ζ} {F : ZFormat}
    (I : InflateContract L z0 F) {header : Bool} (hinit : L.inflateInit header = some z0)
    {P : Nat} (h512 : 512 ≤ env.maxLen) (hroom : P + 256 ≤ env.maxLen) (hword : 2 * P + 512 < 2 ^ 32)
    (ops : List FOp) (hops : ∀ op ∈ ops, op.Legal ∧ FOp.ByteOk op ∧ FOp.Short op)
    {z w : Bytes} (hz : F.Stream z) (hw : w ≠ []) (hin : finputOf ops = z ++ w)
    (hsz : ∀ a, a <+: finputOf ops ++ [0x20] → (F.out a).length ≤ P) {fuel : Nat} (hf : P + 1 < fuel) :
    ∃ t0 t', Zlib.uncompressNew env L header = .ok t0 ∧
      (Zlib.uncompress env L fuel).totalF ops t0 = .exn (.error .compressionError) t' := by
  obtain ⟨t0, h1, _, h2⟩ := C64_uncompress_partial I hinit h512 hroom hword ops hops hsz hf
  have hd : ZDead F (z ++ w) := zDead_of (List.prefix_append z w) (.inr ⟨hz.1, by simpa using hw.symm⟩)
  rcases h2 (by rw [hin]; have := hd []; simpa using this) with ⟨t', h⟩ | ⟨h, _⟩
  · exact ⟨t0, t', h1, h⟩
  · rw [hin] at h
    exact absurd h (hd _)

/-- C64: `uncompress` undoes `compress`, for every pair of engines such that what `deflate` makes of some data is a
stream that stands for this data, whatever the histories. -/
theorem C64_round_trip_partial {env : Env} {L : ZLib ζ} {z0 w0 : ζ} {F : ZFormat}
    (D : DeflateContract L z0 (fun p c => F.Stream p ∧ F.out p = c)) (I : InflateContract L w0 F)
    {level : Int} {header : Bool} (hinit : L.deflateInit level header = some z0)
    (hinit' : L.inflateInit header = some w0)
    {P : Nat} (h512 : 512 ≤ env.maxLen) (hroom : P + 256 ≤ env.maxLen) (hword : 2 * P + 512 < 2 ^ 32)
    (ops : List FOp) (hops : ∀ op ∈ ops, op.Legal ∧ FOp.ByteOk op ∧ FOp.Short op) (hff : FlushesFresh true ops)
    (hsz : ∀ z c p, D.Live z c p ∨ D.Finishing z c p → c <+: finputOf ops → p.length ≤ P)
    {fuel : Nat} (hf : P + 1 < fuel) :
    ∃ t0 x t', Zlib.compressNew env L level header = .ok t0 ∧
      (Zlib.compress env L fuel).totalF ops t0 = .ok x t' ∧
      ((∀ a, a <+: x ++ [0x20] → (F.out a).length ≤ P) →
        ∀ ops' : List FOp, (∀ op ∈ ops', op.Legal ∧ FOp.ByteOk op ∧ FOp.Short op) → finputOf ops' = x →
        ∃ u0 u', Zlib.uncompressNew env L header = .ok u0 ∧
          (Zlib.uncompress env L fuel).totalF ops' u0 = .ok (finputOf ops) u') := by
  obtain ⟨t0, x, t', h1, h2, h3, h4⟩ := C64_compress_partial D hinit h512 hroom hword ops hops hff hsz hf
  refine ⟨t0, x, t', h1, h2, ?_⟩
  intro hsz' ops' hops' hx
  subst hx
  obtain ⟨u0, f1, f2, _⟩ := C64_uncompress_partial I hinit' h512 hroom hword ops' hops' hsz' hf
  obtain ⟨u', f3⟩ := f2 h3
  exact ⟨u0, u', f1, by rw [f3, h4]⟩

/-! ### C65 for `Zlib` -/

/-- C65 is false of `Zlib`: with a range that is not within the string, `put_substring` makes zlib read outside of
the string, instead of raising `Invalid_argument`. -/
theorem C65_zlib_out_of_bounds (env : Env) (L : ZLib ζ) (z : ζ) (h512 : 512 ≤ env.maxLen)
    {src : Bytes} {ofs len : Int} (h0 : 0 < len) (hl : len < 2 ^ 32) (hbad : ¬ InRange src ofs len) {fuel : Nat}
    (hf : 0 < fuel) :
    (Zlib.compress env L fuel).putSubstring src ofs len ⟨z, OBuf.init env 512⟩ = .ub ∧
    (Zlib.uncompress env L fuel).putSubstring src ofs len ⟨z, OBuf.init env 512⟩ = .ub := by
  obtain ⟨fuel, rfl⟩ : ∃ k, fuel = k + 1 := ⟨fuel - 1, by omega⟩
  have hr : ZRoom env 0 := ⟨by omega, by omega⟩
  have e1 := zStep_ub hr L.deflate deflateFails (zInv_init h512 z) (by simp) h0 hl hbad .noFlush
  have e2 := zStep_ub hr L.inflate inflateFails (zInv_init h512 z) (by simp) h0 hl hbad .syncFlush
  constructor
  · show Zlib.compressPut env L (fuel + 1) src ofs len _ = _
    unfold Zlib.compressPut
    rw [if_pos h0]
    simp only [M.bind_def, e1]
  · show Zlib.uncompressPut env L (fuel + 1) src ofs len _ = _
    unfold Zlib.uncompressPut
    rw [if_pos h0]
    simp only [M.bind_def, e2]

end Verif

/-! ### An engine that meets the contracts -/

namespace Verif.Example
open Spec

/-- A toy compressed format: each byte is preceded by 1; the end is a 0. -/
def toyEncode : Bytes → Bytes
  | [] => []
  | b :: l => 1 :: b :: toyEncode l

def toyStatus : Bytes → ZStatus
  | [] => .more
  | [b] => if b = 0 then .done else if b = 1 then .more else .bad
  | b :: _ :: l => if b = 1 then toyStatus l else .bad

def toyDecode : Bytes → Bytes
  | b :: c :: l => if b = 1 then c :: toyDecode l else []
  | _ => []

def toyFormat : ZFormat := ⟨toyStatus, toyDecode⟩

/-- A compressor and a decompressor in one state: `pend` is not yet written; `used` and `given` are for
decompression. -/
structure ToyZ where
  pend : Bytes := []
  ended : Bool := false
  clean : Bool := false
  used : Bytes := []
  given : Nat := 0

def toyDeflate : ZCall ToyZ := fun f i n z =>
  let p := z.pend ++ toyEncode i ++ (if f = .finish ∧ ¬ z.ended then [0] else [])
  { code := if f = .syncFlush ∧ z.clean then .error else if f = .finish ∧ p.length ≤ n then .streamEnd else .ok
    usedIn := i.length
    out := p.take n
    st := { z with pend := p.drop n, ended := z.ended || (f = .finish), clean := f = .syncFlush ∧ p.length < n } }

/-- Reads input as long as more is needed: the input used, and what is left. -/
def greedy (F : ZFormat) : Bytes → Bytes → Bytes
  | c, [] => c
  | c, b :: l => if F.status c = .more then greedy F (c ++ [b]) l else c

def toyInflate (F : ZFormat) : ZCall ToyZ := fun _ i n z =>
  let c := greedy F z.used i
  let o := ((F.out c).drop z.given).take n
  { code := if F.status c = .bad then .error
      else if F.status c = .done ∧ (F.out c).length ≤ z.given + n then .streamEnd
      else if c = z.used ∧ o = [] then .error else .ok
    usedIn := c.length - z.used.length
    out := o
    st := { z with used := c, given := z.given + o.length } }

def toyZlib : ZLib ToyZ where
  deflateInit level _ := if level ≤ 9 then some {} else none
  deflate := toyDeflate
  deflateEnd z := (true, z)
  inflateInit _ := some {}
  inflate := toyInflate toyFormat
  inflateEnd z := (true, z)

theorem toyEncode_append (a b : Bytes) : toyEncode (a ++ b) = toyEncode a ++ toyEncode b := by
  induction a with
  | nil => rfl
  | cons x a ih => simp [toyEncode, ih]

theorem toyEncode_length (a : Bytes) : (toyEncode a).length = 2 * a.length := by
  induction a with
  | nil => rfl
  | cons x a ih => simp [toyEncode, ih]; omega

theorem toyStatus_encode (a l : Bytes) : toyStatus (toyEncode a ++ l) = toyStatus l := by
  induction a with
  | nil => rfl
  | cons x a ih => simp [toyEncode, toyStatus, ih]

theorem toyDecode_encode (a : Bytes) (b : Byte) : toyDecode (toyEncode a ++ [b]) = a := by
  induction a with
  | nil => rfl
  | cons x a ih => simp [toyEncode, toyDecode, ih]

theorem toyStream_encode (c : Bytes) : toyFormat.Stream (toyEncode c ++ [0]) := by
  refine ⟨by simp [toyFormat, toyStatus_encode, toyStatus], ?_⟩
  show ∀ a, a <+: toyEncode c ++ [0] → a ≠ toyEncode c ++ [0] → toyStatus a = .more
  induction c with
  | nil =>
    intro a h1 h2
    cases a with
    | nil => rfl
    | cons x a =>
      simp only [toyEncode, List.nil_append, List.cons_prefix_cons, List.prefix_nil] at h1
      obtain ⟨rfl, rfl⟩ := h1
      exact absurd rfl h2
  | cons x c ih =>
    intro a h1 h2
    match a with
    | [] => rfl
    | [y] =>
      simp only [toyEncode, List.cons_append, List.cons_prefix_cons] at h1
      simp [toyStatus, h1.1]
    | y :: y' :: a =>
      simp only [toyEncode, List.cons_append, List.cons_prefix_cons] at h1
      obtain ⟨rfl, rfl, h1⟩ := h1
      simp only [toyStatus, if_true]
      exact ih a h1 (fun h => h2 (by rw [h]; rfl))

def zToyD : DeflateContract toyZlib {} (fun p c => toyFormat.Stream p ∧ toyFormat.out p = c) where
  Live z c p := z.ended = false ∧ p ++ z.pend = toyEncode c
  Finishing z c p := z.ended = true ∧ p ++ z.pend = toyEncode c ++ [0]
  Clean z := z.clean = true
  bounded := by
    refine ⟨?_, ?_⟩
    · intro f i n z; simp [toyZlib, toyDeflate]
    · intro f i n z; simp only [toyZlib, toyDeflate, List.length_take]; omega
  start := ⟨⟨rfl, rfl⟩, by simp⟩
  put := by
    rintro z c p i n ⟨h1, h2⟩ hi hn
    refine ⟨by simp [toyZlib, toyDeflate], ⟨by simp [toyZlib, toyDeflate, h1], ?_⟩, .inl (by simp [toyZlib, toyDeflate]),
      by simp [toyZlib, toyDeflate]⟩
    simp only [toyZlib, toyDeflate]
    simp [toyEncode_append, ← h2]
  flush := by
    rintro z c p n ⟨h1, h2⟩ hc hn
    refine ⟨by simp [toyZlib, toyDeflate, hc], ⟨by simp [toyZlib, toyDeflate, h1], ?_⟩, ?_⟩
    · simp [toyZlib, toyDeflate, toyEncode, h2]
    · simp only [toyZlib, toyDeflate, List.length_take]
      intro h
      simp
      simp at h
      omega
  finish := by
    rintro z c p n h hn
    have hp : p ++ (z.pend ++ (if z.ended = false then [0] else [])) = toyEncode c ++ [0] := by
      rcases h with ⟨h1, h2⟩ | ⟨h1, h2⟩
      · rw [h1, ← List.append_assoc, h2]; rfl
      · rw [h1, ← List.append_assoc, h2]; simp
    by_cases hl : (z.pend ++ (if z.ended = false then [(0 : Byte)] else [])).length ≤ n
    · left
      have hout : (toyZlib.deflate .finish [] n z).out = z.pend ++ (if z.ended = false then [0] else []) := by
        simp only [toyZlib, toyDeflate, toyEncode, List.append_nil, true_and, Bool.not_eq_true]
        exact List.take_of_length_le hl
      refine ⟨?_, ?_, rfl⟩
      · simp only [toyZlib, toyDeflate, toyEncode, List.append_nil, true_and, Bool.not_eq_true]
        rw [if_neg (by simp), if_pos hl]
      · rw [hout, hp]
        exact ⟨toyStream_encode c, toyDecode_encode c 0⟩
    · right
      refine ⟨?_, ⟨by simp [toyZlib, toyDeflate], ?_⟩, ?_⟩
      · simp only [toyZlib, toyDeflate, toyEncode, List.append_nil, true_and, Bool.not_eq_true]
        rw [if_neg (by simp), if_neg hl]
      · simp only [toyZlib, toyDeflate, toyEncode, List.append_nil, true_and, Bool.not_eq_true]
        rw [List.append_assoc, List.take_append_drop, hp]
      · simp only [toyZlib, toyDeflate, toyEncode, List.append_nil, true_and, Bool.not_eq_true, List.length_take]
        omega

theorem zToyD_strict : zToyD.Strict where
  flushed := by
    rintro z c p n ⟨h1, h2⟩ hc hn
    intro r h
    have h' : (z.pend.take n).length ≠ n := by simpa [r, toyZlib, toyDeflate, toyEncode] using h
    have h'' : z.pend.length < n := by rw [List.length_take] at h'; omega
    show (toyZlib.deflate .syncFlush [] n z).st.clean = true
    simp [toyZlib, toyDeflate, toyEncode, h'']
  clean := by
    rintro z c p n _ hc
    have hc' : z.clean = true := hc
    simp [toyZlib, toyDeflate, hc']

/-- Like the toy format, a format delivers more and more data as it is read. -/
theorem toyOut_mono {a b : Bytes} (h : a <+: b) : toyDecode a <+: toyDecode b := by
  induction a using toyDecode.induct generalizing b with
  | case1 c l ih =>
    obtain ⟨w, rfl⟩ := h
    simp only [List.cons_append, toyDecode, if_true, List.cons_prefix_cons, true_and]
    exact ih (List.prefix_append _ _)
  | case2 b c l hb => unfold toyDecode; rw [if_neg hb]; simp
  | case3 a ha =>
    have : toyDecode a = [] := by
      unfold toyDecode
      split
      · rename_i b c l; exact absurd rfl (ha b c l)
      · rfl
    rw [this]
    exact List.nil_prefix

theorem greedy_spec (F : ZFormat) (i : Bytes) : ∀ (c : Bytes), (∀ a, a <+: c → a ≠ c → F.status a = .more) →
    ∃ a w, greedy F c i = c ++ a ∧ i = a ++ w ∧ (∀ b, b <+: c ++ a → b ≠ c ++ a → F.status b = .more) ∧
      (w = [] ∨ F.status (c ++ a) ≠ .more) := by
  induction i with
  | nil =>
    intro c hc
    exact ⟨[], [], by simp [greedy], rfl, by simpa using hc, .inl rfl⟩
  | cons b l ih =>
    intro c hc
    unfold greedy
    by_cases hm : F.status c = .more
    · rw [if_pos hm]
      obtain ⟨a, w, h1, h2, h3, h4⟩ := ih (c ++ [b]) (by
        intro a ha hne
        rcases List.prefix_concat_iff.1 ha with h | h
        · exact absurd h hne
        · by_cases hac : a = c
          · rw [hac]; exact hm
          · exact hc a h hac)
      refine ⟨b :: a, w, by rw [h1]; simp, by simp [h2], by simpa using h3, by simpa using h4⟩
    · rw [if_neg hm]
      exact ⟨[], b :: l, by simp, rfl, by simpa using hc, .inr (by simpa using hm)⟩

def zToyI : InflateContract toyZlib {} toyFormat where
  Live z c d := z.used = c ∧ d = (toyFormat.out c).take z.given ∧ d.length = z.given ∧ toyFormat.status c ≠ .bad ∧
    ∀ a, a <+: c → a ≠ c → toyFormat.status a = .more
  bounded := by
    refine ⟨?_, ?_⟩
    · intro f i n z
      have : ∀ (i c : Bytes), (greedy toyFormat c i).length ≤ c.length + i.length := by
        intro i
        induction i with
        | nil => intro c; simp [greedy]
        | cons b l ih =>
          intro c
          unfold greedy
          split
          · have := ih (c ++ [b]); simp at this ⊢; omega
          · simp
      have := this i z.used
      simp only [toyZlib, toyInflate]; omega
    · intro f i n z; simp only [toyZlib, toyInflate, List.length_take]; omega
  start := ⟨rfl, by simp, rfl, by simp [toyFormat, toyStatus], by
    intro a h1 h2; exact absurd (List.prefix_nil.1 h1) h2⟩
  live := by
    rintro z c d ⟨_, h1, _, h2, h3⟩
    exact ⟨by rw [h1]; exact List.take_prefix _ _, h2, h3⟩
  call := by
    rintro z c d i n ⟨rfl, h1, h2, h3, h4⟩ hn
    obtain ⟨a, w, g1, g2, g3, g4⟩ := greedy_spec toyFormat i z.used h4
    have hpre : toyFormat.out z.used <+: toyFormat.out (z.used ++ a) := toyOut_mono (List.prefix_append _ _)
    have hgl : z.given ≤ (toyFormat.out z.used).length := by
      rw [h1, List.length_take] at h2; omega
    have hd : d = (toyFormat.out (z.used ++ a)).take z.given := by
      obtain ⟨v, hv⟩ := hpre
      rw [h1, ← hv, List.take_append_of_le_length hgl]
    have hgl' := hpre.length_le
    simp only [toyZlib, toyInflate, g1, List.length_append, Nat.add_sub_cancel_left]
    rw [g2]
    simp only [List.take_left]
    have hlive : ∀ k, toyFormat.status (z.used ++ a) ≠ .bad →
        d ++ ((toyFormat.out (z.used ++ a)).drop z.given).take k = (toyFormat.out (z.used ++ a)).take
            (z.given + (((toyFormat.out (z.used ++ a)).drop z.given).take k).length) ∧
        (d ++ ((toyFormat.out (z.used ++ a)).drop z.given).take k).length
          = z.given + (((toyFormat.out (z.used ++ a)).drop z.given).take k).length := by
      intro k _
      refine ⟨?_, by rw [List.length_append, h2]⟩
      rw [hd, List.length_take, List.take_add, List.length_drop]
      congr 1
      rcases Nat.le_total k ((toyFormat.out (z.used ++ a)).length - z.given) with h | h
      · rw [Nat.min_eq_left h]
      · rw [Nat.min_eq_right h, List.take_of_length_le (by simpa using h), List.take_of_length_le (by simp)]
    by_cases hb : toyFormat.status (z.used ++ a) = .bad
    · rw [if_pos hb]
      left
      refine ⟨a, List.prefix_append _ _, hb, ?_⟩
      intro b hb1 hb2
      exact g3 _ ((List.prefix_append_right_inj _).2 hb1) (by simpa using hb2)
    · rw [if_neg hb]
      obtain ⟨l1, l2⟩ := hlive n hb
      by_cases hdn : toyFormat.status (z.used ++ a) = .done ∧ (toyFormat.out (z.used ++ a)).length ≤ z.given + n
      · rw [if_pos hdn]
        refine ⟨⟨trivial, l1, by rw [← l2, List.length_append], hb, g3⟩, hdn.1, ?_⟩
        rw [l1]
        apply List.take_of_length_le
        rw [List.length_take, List.length_drop]
        omega
      · rw [if_neg hdn]
        by_cases hstuck : z.used ++ a = z.used ∧ ((toyFormat.out (z.used ++ a)).drop z.given).take n = []
        · rw [if_pos hstuck]
          right
          have ha : a = [] := by simpa using hstuck.1
          subst ha
          simp only [List.append_nil] at *
          have hlen : (toyFormat.out z.used).length ≤ z.given := by
            have := congrArg List.length hstuck.2
            simp only [List.length_take, List.length_drop, List.length_nil] at this
            omega
          have hmore : toyFormat.status z.used = .more := by
            cases hs : toyFormat.status z.used with
            | more => rfl
            | done => exact absurd ⟨hs, by omega⟩ hdn
            | bad => exact absurd hs hb
          refine ⟨?_, ?_, hmore⟩
          · rcases g4 with h | h
            · simpa using h
            · exact absurd hmore h
          · rw [hd]; exact List.take_of_length_le hlen
        · rw [if_neg hstuck]
          refine ⟨⟨trivial, l1, by rw [← l2, List.length_append], hb, g3⟩, ?_, ?_⟩
          · cases a with
            | cons x a => exact .inl (by simp)
            | nil =>
              right
              apply Nat.pos_of_ne_zero
              intro h
              exact hstuck ⟨by simp, List.length_eq_zero_iff.1 h⟩
          · by_cases hfull : (((toyFormat.out (z.used ++ a)).drop z.given).take n).length = n
            · exact .inl hfull
            · right
              have hlen : (toyFormat.out (z.used ++ a)).length ≤ z.given + n := by
                rw [List.length_take, List.length_drop] at hfull; omega
              have hmore : toyFormat.status (z.used ++ a) = .more := by
                cases hs : toyFormat.status (z.used ++ a) with
                | more => rfl
                | done => exact absurd ⟨hs, hlen⟩ hdn
                | bad => exact absurd hs hb
              refine ⟨?_, ?_, hmore⟩
              · rcases g4 with h | h
                · rw [h]; simp
                · exact absurd hmore h
              · rw [l1]
                apply List.take_of_length_le
                rw [List.length_take, List.length_drop]
                omega
  stop := by intros; rfl

theorem zToyD_size {z : ToyZ} {c p : Bytes} (h : zToyD.Live z c p ∨ zToyD.Finishing z c p) :
    p.length ≤ 2 * c.length + 1 := by
  rcases h with ⟨_, h⟩ | ⟨_, h⟩ <;>
  · have := congrArg List.length h
    simp [toyEncode_length] at this
    omega

theorem toyOut_length (a : Bytes) : (toyFormat.out a).length ≤ a.length := by
  show (toyDecode a).length ≤ _
  induction a using toyDecode.induct with
  | case1 c l ih => simp only [toyDecode, if_true, List.length_cons]; omega
  | case2 b c l hb => unfold toyDecode; rw [if_neg hb]; simp
  | case3 a ha =>
    unfold toyDecode
    split
    · rename_i b c l; exact absurd rfl (ha b c l)
    · simp

instance (op : TOp) : Decidable op.Legal := by
  cases op <;> (unfold TOp.Legal; infer_instance)
instance (op : TOp) : Decidable op.ByteOk := by
  cases op <;> (unfold TOp.ByteOk; infer_instance)
instance (op : FOp) : Decidable op.Legal := by
  cases op <;> (unfold FOp.Legal; infer_instance)
instance (op : FOp) : Decidable (FOp.ByteOk op) := by
  cases op <;> (unfold FOp.ByteOk; infer_instance)
instance (op : FOp) : Decidable (FOp.Short op) := by
  cases op <;> (unfold FOp.Short; infer_instance)
instance decFlushesFresh : (b : Bool) → (ops : List FOp) → Decidable (FlushesFresh b ops)
  | _, [] => isTrue trivial
  | b, .call op :: ops => decFlushesFresh (b || !op.input.isEmpty) ops
  | b, .flush :: ops =>
    match decFlushesFresh false ops, decEq b true with
    | isTrue h, isTrue h' => isTrue ⟨h', h⟩
    | isFalse h, _ => isFalse fun h' => h h'.2
    | _, isFalse h => isFalse fun h' => h h'.1

/-- A history with flushes, output methods and all input methods; a thousand bytes, so that the output
buffer is extended. -/
def zops : List FOp :=
  [.call (.putString (List.replicate 1000 7)), .flush, .call .getChar, .call (.putByte 200),
   .call (.putSubstring [1, 2, 3, 4] 1 2), .call .getSubstring, .flush, .call (.putChar 9)]

example : ∃ t0 x t', Zlib.compressNew env64 toyZlib 6 false = .ok t0 ∧
    (Zlib.compress env64 toyZlib 4000).totalF zops t0 = .ok x t' ∧
    ((∀ a, a <+: x ++ [0x20] → (toyFormat.out a).length ≤ 3000) →
        ∀ ops' : List FOp, (∀ op ∈ ops', op.Legal ∧ FOp.ByteOk op ∧ FOp.Short op) → finputOf ops' = x →
        ∃ u0 u', Zlib.uncompressNew env64 toyZlib false = .ok u0 ∧
          (Zlib.uncompress env64 toyZlib 4000).totalF ops' u0 = .ok (finputOf zops) u') :=
  C64_round_trip_partial zToyD zToyI (level := 6) (header := false) rfl rfl (P := 3000) (by decide) (by decide)
    (by decide) zops (by decide +kernel) (by decide +kernel)
    (fun z c p h hc => by
      have h1 := zToyD_size h
      have h2 := hc.length_le
      have h3 : (finputOf zops).length = 1004 := by decide +kernel
      omega) (by decide)

/-- A flush that follows a flush. -/
example : ∃ t0 t', Zlib.compressNew env64 toyZlib 6 false = .ok t0 ∧
    (Zlib.compress env64 toyZlib 100).totalF [.call (.putChar 5), .flush, .flush] t0
      = .exn (.error .compressionError) t' :=
  C64_compress_flush_twice zToyD zToyD_strict (level := 6) (header := false) rfl (P := 50) (by decide) (by decide)
    (by decide) _ (by decide +kernel) (by decide +kernel)
    (fun z c p h hc => by
      have h1 := zToyD_size (.inl h)
      have h2 := hc.length_le
      have h3 : (finputOf [.call (.putChar 5), .flush, .flush]).length = 1 := by decide +kernel
      omega) (by decide)

/-- A string of 4 GiB and 1 byte. -/
example : ∃ t0 x t' w, Zlib.compressNew env64 toyZlib 6 false = .ok t0 ∧
    (Zlib.compress env64 toyZlib 100).totalF [.call (.putString (List.replicate (2 ^ 32 + 1) 0))] t0 = .ok x t' ∧
    (toyFormat.Stream x ∧ toyFormat.out x = w) ∧ w.length = 1 :=
  C64_compress_large_string zToyD (level := 6) (header := false) rfl (P := 50) (by decide) (by decide)
    (by decide) (k := 1) (by decide) (by decide) (by rw [List.length_replicate])
    (fun z c p h hc => by
      have h1 := zToyD_size h
      omega) (by decide)

/-- Trailing garbage. -/
example : ∃ t0 t', Zlib.uncompressNew env64 toyZlib false = .ok t0 ∧
    (Zlib.uncompress env64 toyZlib 100).totalF [.call (.putString [1, 5, 0]), .call (.putChar 7)] t0
      = .exn (.error .compressionError) t' :=
  C64_uncompress_garbage zToyI (header := false) rfl (P := 50) (by decide) (by decide)
    (by decide) _ (by decide +kernel) (z := [1, 5, 0]) (w := [7]) (toyStream_encode [5]) (by decide) (by decide +kernel)
    (fun a ha => by
      have h1 := toyOut_length a
      have h2 := ha.length_le
      have h3 : (finputOf [.call (.putString [1, 5, 0]), .call (.putChar 7)] ++ [0x20]).length = 5 := by decide +kernel
      omega) (by decide)

/-- Both outcomes of `C64_uncompress_partial`: a complete stream, a truncated one. -/
example : toyFormat.Stream [1, 5, 0] ∧ ¬ toyFormat.Stream [1, 5] :=
  ⟨toyStream_encode [5], fun h => by have := h.1; revert this; decide +kernel⟩

example : (0 : Int) < 1 ∧ ¬ InRange ([] : Bytes) 0 1 := by decide

example : Zlib.compressNew env64 toyZlib 10 false = .error (.error .compressionError) := by
  rw [C64_compress_init]; decide +kernel

end Verif.Example
