import Verif.Proof.ZlibDrain
import Verif.Props.C64_Zlib
/-
C64 Zlib transforms feed all input and collect all output: long streams, whose output is taken from time to time.
-/
namespace Verif
open Spec

/-- C64 for `compress`, whatever the amount of data: the output is taken (`get_string`, `get_substring`) at the latest
after each `K` bytes put, and the engine produces at most `P` bytes for `K` bytes. Only what is waiting is
bounded, by half of 4 GiB. -/
theorem C64_compress_streaming_partial {env : Env} {L : ZLib ζ} {z0 : ζ} {Valid : Bytes → Bytes → Prop}
    (D : DeflateContract L z0 Valid) {level : Int} {header : Bool} (hinit : L.deflateInit level header = some z0)
    {K P : Nat} (h512 : 512 ≤ env.maxLen) (hroom : P + 256 ≤ env.maxLen) (hword : 2 * P + 512 < 2 ^ 32)
    (hp : D.Paced K P)
    (ops : List FOp) (hops : ∀ op ∈ ops, op.Legal ∧ FOp.ByteOk op ∧ FOp.Short op) (hff : FlushesFresh true ops)
    (hdr : DrainedEvery K 0 ops) {fuel : Nat} (hf : P + 1 < fuel) :
    ∃ t0 x t', Zlib.compressNew env L level header = .ok t0 ∧
      (Zlib.compress env L fuel).totalF ops t0 = .ok x t' ∧ Valid x (finputOf ops) := by
  obtain ⟨x, t', h1, h2⟩ := compressDrainTotal_ok ⟨hroom, hword⟩ h512 D hp hf hops hff hdr
  refine ⟨_, x, t', ?_, h1, h2⟩
  unfold Zlib.compressNew
  rw [hinit]

/-- C64 for `uncompress`, whatever the amount of data, if the output is taken from time to time. -/
theorem C64_uncompress_streaming_partial {env : Env} {L : ZLib ζ} {z0 : ζ} {F : ZFormat}
    (I : InflateContract L z0 F) {header : Bool} (hinit : L.inflateInit header = some z0)
    {K P : Nat} (h512 : 512 ≤ env.maxLen) (hroom : P + 256 ≤ env.maxLen) (hword : 2 * P + 512 < 2 ^ 32)
    (hp : I.Paced (K + 1) P)
    (ops : List FOp) (hops : ∀ op ∈ ops, op.Legal ∧ FOp.ByteOk op ∧ FOp.Short op)
    (hdr : DrainedEvery K 0 ops) {fuel : Nat} (hf : P + 1 < fuel) :
    ∃ t0, Zlib.uncompressNew env L header = .ok t0 ∧
      (F.Stream (finputOf ops) →
        ∃ t', (Zlib.uncompress env L fuel).totalF ops t0 = .ok (F.out (finputOf ops)) t') ∧
      (¬ F.Stream (finputOf ops) →
        (∃ t', (Zlib.uncompress env L fuel).totalF ops t0 = .exn (.error .compressionError) t') ∨
        (F.Stream (finputOf ops ++ [0x20]) ∧
          ∃ t', (Zlib.uncompress env L fuel).totalF ops t0 = .ok (F.out (finputOf ops ++ [0x20])) t')) := by
  refine ⟨_, ?_, uncompressDrainTotal_ok ⟨hroom, hword⟩ h512 I hp hf hops hdr⟩
  unfold Zlib.uncompressNew
  rw [hinit]

/-- C64: `uncompress` undoes `compress`, whatever the amount of data, if the output of both is taken from time to
time. -/
theorem C64_round_trip_streaming_partial {env : Env} {L : ZLib ζ} {z0 w0 : ζ} {F : ZFormat}
    (D : DeflateContract L z0 (fun p c => F.Stream p ∧ F.out p = c)) (I : InflateContract L w0 F)
    {level : Int} {header : Bool} (hinit : L.deflateInit level header = some z0)
    (hinit' : L.inflateInit header = some w0)
    {K K' P : Nat} (h512 : 512 ≤ env.maxLen) (hroom : P + 256 ≤ env.maxLen) (hword : 2 * P + 512 < 2 ^ 32)
    (hp : D.Paced K P) (hp' : I.Paced (K' + 1) P)
    (ops : List FOp) (hops : ∀ op ∈ ops, op.Legal ∧ FOp.ByteOk op ∧ FOp.Short op) (hff : FlushesFresh true ops)
    (hdr : DrainedEvery K 0 ops) {fuel : Nat} (hf : P + 1 < fuel) :
    ∃ t0 x t', Zlib.compressNew env L level header = .ok t0 ∧
      (Zlib.compress env L fuel).totalF ops t0 = .ok x t' ∧
      ∀ ops' : List FOp, (∀ op ∈ ops', op.Legal ∧ FOp.ByteOk op ∧ FOp.Short op) → DrainedEvery K' 0 ops' →
        finputOf ops' = x →
        ∃ u0 u', Zlib.uncompressNew env L header = .ok u0 ∧
          (Zlib.uncompress env L fuel).totalF ops' u0 = .ok (finputOf ops) u' := by
  obtain ⟨t0, x, t', h1, h2, h3, h4⟩ :=
    C64_compress_streaming_partial D hinit h512 hroom hword hp ops hops hff hdr hf
  refine ⟨t0, x, t', h1, h2, ?_⟩
  intro ops' hops' hdr' hx
  subst hx
  obtain ⟨u0, f1, f2, _⟩ := C64_uncompress_streaming_partial I hinit' h512 hroom hword hp' ops' hops' hdr' hf
  obtain ⟨u', f3⟩ := f2 h3
  exact ⟨u0, u', f1, by rw [f3, h4]⟩

end Verif

/-! ### An engine that holds back at most one byte -/

namespace Verif.Example
open Spec

/-- As much input as there is room for its compressed form, rounded up. -/
def tightLen (i : Bytes) (n : Nat) (z : ToyZ) : Nat := min i.length ((n - z.pend.length + 1) / 2)

def tightDeflate : ZCall ToyZ := fun f i n z => toyDeflate f (i.take (tightLen i n z)) n z

/-- Reads input as long as more is needed and fewer than `m` bytes are decompressed. -/
def greedyUpTo (F : ZFormat) (m : Nat) : Bytes → Bytes → Bytes
  | c, [] => c
  | c, b :: l => if F.status c = .more ∧ (F.out c).length < m then greedyUpTo F m (c ++ [b]) l else c

def tightInflate (F : ZFormat) : ZCall ToyZ := fun _ i n z =>
  let c := greedyUpTo F (z.given + n) z.used i
  let o := ((F.out c).drop z.given).take n
  { code := if F.status c = .bad then .error
      else if F.status c = .done ∧ (F.out c).length ≤ z.given + n then .streamEnd
      else if c = z.used ∧ o = [] then .error else .ok
    usedIn := c.length - z.used.length
    out := o
    st := { z with used := c, given := z.given + o.length } }

def tightZlib : ZLib ToyZ where
  deflateInit level _ := if level ≤ 9 then some {} else none
  deflate := tightDeflate
  deflateEnd z := (true, z)
  inflateInit _ := some {}
  inflate := tightInflate toyFormat
  inflateEnd z := (true, z)

theorem tightDeflate_nil (f : ZFlush) (n : Nat) (z : ToyZ) : tightDeflate f [] n z = toyDeflate f [] n z := rfl

def zTightD : DeflateContract tightZlib {} (fun p c => toyFormat.Stream p ∧ toyFormat.out p = c) where
  Live z c p := zToyD.Live z c p ∧ z.pend.length ≤ 1
  Finishing z c p := zToyD.Finishing z c p ∧ z.pend.length ≤ 2
  Clean := zToyD.Clean
  bounded := by
    refine ⟨?_, ?_⟩
    · intro f i n z
      have : tightLen i n z ≤ i.length := Nat.min_le_left _ _
      simp [tightZlib, tightDeflate, toyDeflate]; omega
    · intro f i n z; simp only [tightZlib, tightDeflate, toyDeflate, List.length_take]; omega
  start := ⟨⟨zToyD.start.1, by simp⟩, zToyD.start.2⟩
  put := by
    rintro z c p i n ⟨⟨h1, h2⟩, h3⟩ hi hn
    have hk : tightLen i n z ≤ i.length := Nat.min_le_left _ _
    have hk' : tightLen i n z = i.length ∨ tightLen i n z = (n - z.pend.length + 1) / 2 := by
      unfold tightLen; omega
    have hk2 : tightLen i n z ≤ (n - z.pend.length + 1) / 2 := Nat.min_le_right _ _
    have hl : (i.take (tightLen i n z)).length = tightLen i n z := by rw [List.length_take]; omega
    refine ⟨by simp [tightZlib, tightDeflate, toyDeflate],
      ⟨⟨by simp [tightZlib, tightDeflate, toyDeflate, h1], ?_⟩, ?_⟩, ?_,
      by intro _; simp [tightZlib, tightDeflate, toyDeflate, zToyD]⟩
    · simp only [tightZlib, tightDeflate, toyDeflate, hl]
      simp [toyEncode_append, ← h2]
    · simp only [tightZlib, tightDeflate, toyDeflate]
      simp [toyEncode_length, hl]
      omega
    · simp only [tightZlib, tightDeflate, toyDeflate]
      simp only [List.length_take, List.length_append, toyEncode_length, hl]
      rcases hk' with h | h
      · left; omega
      · right
        simp
        omega
  flush := by
    rintro z c p n ⟨hL, h3⟩ hc hn
    obtain ⟨h1, h2, h4⟩ := zToyD.flush (n := n) hL hc hn
    refine ⟨h1, ⟨h2, ?_⟩, h4⟩
    simp only [tightZlib, tightDeflate_nil, toyDeflate]
    simp [toyEncode]
    omega
  finish := by
    rintro z c p n h hn
    have h' : zToyD.Live z c p ∨ zToyD.Finishing z c p := by
      rcases h with h | h
      · exact .inl h.1
      · exact .inr h.1
    have hl : (z.pend ++ toyEncode [] ++ (if ZFlush.finish = .finish ∧ ¬ z.ended then [(0 : Byte)] else [])).length ≤ 2 := by
      rcases h with ⟨⟨h1, h2⟩, h3⟩ | ⟨⟨h1, h2⟩, h3⟩
      · simp [h1, toyEncode]; omega
      · simp [h1, toyEncode]; omega
    rcases zToyD.finish (n := n) h' hn with h1 | ⟨h1, h2, h3⟩
    · exact .inl h1
    · refine .inr ⟨h1, ⟨h2, ?_⟩, h3⟩
      show ((z.pend ++ toyEncode [] ++ (if ZFlush.finish = .finish ∧ ¬ z.ended then [(0 : Byte)] else [])).drop n).length ≤ 2
      rw [List.length_drop]
      omega

theorem zTightD_paced (K : Nat) : zTightD.Paced K (2 * K + 2) := by
  rintro z c p z' c' p' ⟨⟨_, h1⟩, h2⟩ h3 _ _ hl
  have a1 := congrArg List.length h1
  simp only [List.length_append, toyEncode_length] at a1
  rcases h3 with ⟨⟨_, h4⟩, _⟩ | ⟨⟨_, h4⟩, _⟩ <;>
  · have a2 := congrArg List.length h4
    simp only [List.length_append, toyEncode_length, List.length_singleton] at a2
    omega

theorem toyOut_snoc (c : Bytes) (b : Byte) : (toyDecode (c ++ [b])).length ≤ (toyDecode c).length + 1 := by
  induction c using toyDecode.induct with
  | case1 c l ih => simp only [List.cons_append, toyDecode, if_true, List.length_cons]; omega
  | case2 x c l hb => simp only [List.cons_append, toyDecode]; rw [if_neg hb]; simp
  | case3 a ha =>
    match a, ha with
    | [], _ => simp [toyDecode]
    | [x], _ =>
      simp only [List.cons_append, List.nil_append, toyDecode]
      split <;> simp
    | x :: y :: l, ha => exact absurd rfl (ha x y l)

theorem toyOut_le {a b : Bytes} (h : a <+: b) : (toyDecode b).length ≤ (toyDecode a).length + (b.length - a.length) := by
  obtain ⟨w, rfl⟩ := h
  induction w generalizing a with
  | nil => simp
  | cons x w ih =>
    have h1 := ih (a := a ++ [x])
    have h2 := toyOut_snoc a x
    rw [List.append_assoc] at h1
    simp only [List.length_append, List.length_singleton, List.singleton_append, List.length_cons] at h1 ⊢
    omega

theorem greedyUpTo_spec (m : Nat) (i : Bytes) : ∀ (c : Bytes),
    (∀ a, a <+: c → a ≠ c → toyFormat.status a = .more) → (toyFormat.out c).length ≤ m →
    ∃ a w, greedyUpTo toyFormat m c i = c ++ a ∧ i = a ++ w ∧
      (∀ b, b <+: c ++ a → b ≠ c ++ a → toyFormat.status b = .more) ∧
      (toyFormat.out (c ++ a)).length ≤ m ∧
      (w = [] ∨ toyFormat.status (c ++ a) ≠ .more ∨ (toyFormat.out (c ++ a)).length = m) := by
  induction i with
  | nil =>
    intro c hc hm
    exact ⟨[], [], by simp [greedyUpTo], rfl, by simpa using hc, by simpa using hm, .inl rfl⟩
  | cons b l ih =>
    intro c hc hm
    unfold greedyUpTo
    by_cases hs : toyFormat.status c = .more ∧ (toyFormat.out c).length < m
    · rw [if_pos hs]
      obtain ⟨a, w, h1, h2, h3, h4, h5⟩ := ih (c ++ [b]) (by
        intro a ha hne
        rcases List.prefix_concat_iff.1 ha with h | h
        · exact absurd h hne
        · by_cases hac : a = c
          · rw [hac]; exact hs.1
          · exact hc a h hac) (by
            have h1 : (toyFormat.out (c ++ [b])).length ≤ (toyFormat.out c).length + 1 := toyOut_snoc c b
            omega)
      refine ⟨b :: a, w, by rw [h1]; simp, by simp [h2], by simpa using h3, by simpa using h4, by simpa using h5⟩
    · rw [if_neg hs]
      refine ⟨[], b :: l, by simp, rfl, by simpa using hc, by simpa using hm, .inr ?_⟩
      rw [List.append_nil]
      by_cases h : toyFormat.status c = .more
      · right
        have : ¬ (toyFormat.out c).length < m := fun h' => hs ⟨h, h'⟩
        omega
      · exact .inl h

def zTightI : InflateContract tightZlib {} toyFormat where
  Live z c d := z.used = c ∧ d = toyFormat.out c ∧ d.length = z.given ∧ toyFormat.status c ≠ .bad ∧
    ∀ a, a <+: c → a ≠ c → toyFormat.status a = .more
  bounded := by
    refine ⟨?_, ?_⟩
    · intro f i n z
      have : ∀ (m : Nat) (i c : Bytes), (greedyUpTo toyFormat m c i).length ≤ c.length + i.length := by
        intro m i
        induction i with
        | nil => intro c; simp [greedyUpTo]
        | cons b l ih =>
          intro c
          unfold greedyUpTo
          split
          · have := ih (c ++ [b]); simp at this ⊢; omega
          · simp
      have := this (z.given + n) i z.used
      simp only [tightZlib, tightInflate]; omega
    · intro f i n z; simp only [tightZlib, tightInflate, List.length_take]; omega
  start := ⟨rfl, by simp [toyFormat, toyDecode], rfl, by simp [toyFormat, toyStatus], by
    intro a h1 h2; exact absurd (List.prefix_nil.1 h1) h2⟩
  live := by
    rintro z c d ⟨_, h1, _, h2, h3⟩
    exact ⟨by rw [h1]; exact List.prefix_refl _, h2, h3⟩
  call := by
    rintro z c d i n ⟨rfl, h1, h2, h3, h4⟩ hn
    obtain ⟨a, w, g1, g2, g3, g4, g5⟩ := greedyUpTo_spec (z.given + n) i z.used h4 (by rw [← h1]; omega)
    obtain ⟨v, hv⟩ : toyFormat.out z.used <+: toyFormat.out (z.used ++ a) := toyOut_mono (List.prefix_append _ _)
    rw [← h1] at hv
    have ho : ((toyFormat.out (z.used ++ a)).drop z.given).take n = v := by
      rw [← hv, ← h2, List.drop_left]
      apply List.take_of_length_le
      rw [← hv, List.length_append] at g4
      omega
    simp only [tightZlib, tightInflate, g1, List.length_append, Nat.add_sub_cancel_left, ho]
    rw [g2]
    simp only [List.take_left]
    by_cases hb : toyFormat.status (z.used ++ a) = .bad
    · rw [if_pos hb]
      left
      refine ⟨a, List.prefix_append _ _, hb, ?_⟩
      intro b hb1 hb2
      exact g3 _ ((List.prefix_append_right_inj _).2 hb1) (by simpa using hb2)
    · rw [if_neg hb]
      by_cases hdn : toyFormat.status (z.used ++ a) = .done ∧ (toyFormat.out (z.used ++ a)).length ≤ z.given + n
      · rw [if_pos hdn]
        exact ⟨⟨trivial, hv, by rw [h2], hb, g3⟩, hdn.1, hv⟩
      · rw [if_neg hdn]
        have hmore : toyFormat.status (z.used ++ a) = .more := by
          cases hs : toyFormat.status (z.used ++ a) with
          | more => rfl
          | done => exact absurd ⟨hs, g4⟩ hdn
          | bad => exact absurd hs hb
        have hstop : w = [] ∨ v.length = n := by
          rcases g5 with h | h | h
          · exact .inl h
          · exact absurd hmore h
          · right
            rw [← hv, List.length_append] at h
            omega
        by_cases hstuck : z.used ++ a = z.used ∧ v = []
        · rw [if_pos hstuck]
          right
          have ha : a = [] := by simpa using hstuck.1
          subst ha
          rw [List.append_nil] at hmore
          refine ⟨?_, h1, hmore⟩
          rcases hstop with h | h
          · simpa using h
          · rw [hstuck.2] at h; simp at h; omega
        · rw [if_neg hstuck]
          refine ⟨⟨trivial, hv, by rw [h2], hb, g3⟩, ?_, ?_⟩
          · cases a with
            | cons x a => exact .inl (by simp)
            | nil =>
              right
              apply Nat.pos_of_ne_zero
              intro h
              exact hstuck ⟨by simp, List.length_eq_zero_iff.1 h⟩
          · rcases hstop with h | h
            · exact .inr ⟨by rw [h]; simp, hv, hmore⟩
            · exact .inl h
  stop := by intros; rfl

theorem zTightI_paced (K : Nat) : zTightI.Paced K K := by
  rintro z c d z' c' d' ⟨_, h1, _⟩ ⟨_, h2, _⟩ hc _ hl
  have h3 : (toyFormat.out c').length ≤ (toyFormat.out c).length + (c'.length - c.length) := toyOut_le hc
  rw [h1, h2]
  omega

/-- `m` times the bytes `s`, the output being taken each time. -/
def zDrainOps (s : Bytes) : Nat → List FOp
  | 0 => []
  | m + 1 => .call (.putString s) :: .flush :: .call .getString :: zDrainOps s m

theorem zDrainOps_drained {s : Bytes} {K : Nat} (hs : s.length ≤ K) (m : Nat) : DrainedEvery K 0 (zDrainOps s m) := by
  induction m with
  | zero => exact .nil
  | succ m ih => exact .call (by simpa [TOp.input] using hs) (.flush (.drain (.inl rfl) ih))

theorem zDrainOps_ok {s : Bytes} (hs : s.length < 2 ^ 32) (m : Nat) :
    ∀ op ∈ zDrainOps s m, op.Legal ∧ FOp.ByteOk op ∧ FOp.Short op := by
  induction m with
  | zero => intro _ h; cases h
  | succ m ih =>
    intro op h
    simp only [zDrainOps, List.mem_cons] at h
    rcases h with rfl | rfl | rfl | h
    · exact ⟨trivial, trivial, hs⟩
    · exact ⟨trivial, trivial, trivial⟩
    · exact ⟨trivial, trivial, by show 0 < 2 ^ 32; decide⟩
    · exact ih op h

theorem zDrainOps_fresh {s : Bytes} (hs : s ≠ []) (m : Nat) : ∀ b, FlushesFresh b (zDrainOps s m) := by
  induction m with
  | zero => intro _; trivial
  | succ m ih =>
    intro b
    refine ⟨?_, ih _⟩
    have : (TOp.putString s).input = s := rfl
    rw [this]
    cases s with
    | nil => exact absurd rfl hs
    | cons x s => simp

def longChunk : Bytes := List.replicate 1000 7

theorem longChunk_length : longChunk.length = 1000 := List.length_replicate

/-- However long the stream: with 2 kB of waiting output. -/
example (m : Nat) : ∃ t0 x t', Zlib.compressNew env64 tightZlib 6 false = .ok t0 ∧
    (Zlib.compress env64 tightZlib 4000).totalF (zDrainOps longChunk m) t0 = .ok x t' ∧
      ∀ ops' : List FOp, (∀ op ∈ ops', op.Legal ∧ FOp.ByteOk op ∧ FOp.Short op) → DrainedEvery 2000 0 ops' →
        finputOf ops' = x →
        ∃ u0 u', Zlib.uncompressNew env64 tightZlib false = .ok u0 ∧
          (Zlib.uncompress env64 tightZlib 4000).totalF ops' u0 = .ok (finputOf (zDrainOps longChunk m)) u' :=
  C64_round_trip_streaming_partial zTightD zTightI (level := 6) (header := false) rfl rfl (K := 1000) (K' := 2000)
    (P := 2002) (by decide) (by decide) (by decide) (zTightD_paced 1000)
    (fun h1 h2 h3 h4 h5 => by have := zTightI_paced 2001 h1 h2 h3 h4 h5; omega) (zDrainOps longChunk m) (zDrainOps_ok (by rw [longChunk_length]; decide) m)
    (zDrainOps_fresh (by intro h; have := congrArg List.length h; rw [longChunk_length] at this; cases this) m true)
    (zDrainOps_drained (by rw [longChunk_length]; decide) m) (by decide)

end Verif.Example
