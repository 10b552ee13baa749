import Verif.Proof.Base64
import Verif.Proof.Hex
import Verif.Props.Example
/-
C45 Base64 decoding inverts the three encoders; the encoding is that of RFC 4648.
C46 Layout of the multi-line encoding.
C47 Base64 decoding rejects exactly the ill-formed texts.
C48 Hexadecimal encoding and decoding.
-/
namespace Verif

open Spec

/-- All that `Base64.encode_compact ()` (`false false`), `encode_compact_pad ()` (`false true`)
or `encode_multiline ()` (`true true`), src/cryptokit.ml:2318-2320, shows of a history of calls
followed by `finish` and `get_string`. -/
def runBase64Encode (env : Env) (multiline padding : Bool) (ops : List TOp) :
    Option (Except Exn Bytes) :=
  ((B64.encode env multiline padding).total ops (B64.encInit env)).observe

/-- All that `Base64.decode ()` shows of a history. -/
def runBase64Decode (env : Env) (ops : List TOp) : Option (Except Exn Bytes) :=
  ((B64.decode env).total ops (B64.decInit env)).observe

/-- All that `Hexa.encode ()` shows of a history. -/
def runHexEncode (env : Env) (ops : List TOp) : Option (Except Exn Bytes) :=
  ((Hex.encode env).total ops (Hex.encInit env)).observe

/-- All that `Hexa.decode ()` shows of a history. -/
def runHexDecode (env : Env) (ops : List TOp) : Option (Except Exn Bytes) :=
  ((Hex.decode env).total ops (Hex.decInit env)).observe

/-- A history of calls with valid arguments: substrings within bounds, and bytes for
`put_byte`. -/
def CodecOps (ops : List TOp) : Prop := ∀ op ∈ ops, op.Legal ∧ op.ByteOk

variable {env : Env} {ops : List TOp}

theorem runBase64Encode_eq (hm : 256 ≤ env.maxLen) (ml pad : Bool) (h : CodecOps ops)
    (hfit : (B64.layout ml pad 0 (inputOf ops)).length ≤ env.maxLen) :
    runBase64Encode env ml pad ops = some (.ok (B64.layout ml pad 0 (inputOf ops))) := by
  obtain ⟨s, hs⟩ := B64.layout_eq ml pad 0 (inputOf ops)
  have ht := (B64.encode_refines env ml pad).total (charSpec_lawful _ _ _) ops (B64.encRep_init env hm)
    (fun op ho => (h op ho).1)
  rw [hs] at ht
  obtain ⟨t', h1, _⟩ := ht hfit
  unfold runBase64Encode
  rw [total_congr (T := B64.encode env ml pad)
    (charMethods_call (fun b h0 h1 => putByteChr_eq _ b h0 h1)) rfl rfl ops (fun op ho => (h op ho).2), h1]
  rfl

/-- C45 (encoders): for every history, `encode_compact` and `encode_compact_pad` produce the
RFC 4648 encoding, without and with padding, of the concatenation of the input. -/
theorem C45_encode_compact (hm : 256 ≤ env.maxLen) (pad : Bool) (h : CodecOps ops)
    (hfit : (Base64.encode pad (inputOf ops)).length ≤ env.maxLen) :
    runBase64Encode env false pad ops = some (.ok (Base64.encode pad (inputOf ops))) := by
  rw [← B64.layout_false pad 0] at hfit ⊢
  exact runBase64Encode_eq hm false pad h hfit

/-- C46: for every history, `encode_multiline` produces the padded encoding cut in lines. -/
theorem C46_encode_multiline (hm : 256 ≤ env.maxLen) (pad : Bool) (h : CodecOps ops)
    (hfit : (Base64.encodeLines (inputOf ops)).length ≤ env.maxLen) :
    runBase64Encode env true pad ops = some (.ok (Base64.encodeLines (inputOf ops))) := by
  rw [← B64.layout_lines pad] at hfit ⊢
  exact runBase64Encode_eq hm true pad h hfit

/-- C47 (acceptance): for every history, decoding a well-formed text returns the bytes that it
denotes. -/
theorem C47_accepts (hm : 256 ≤ env.maxLen) (h : CodecOps ops)
    (hfit : (inputOf ops).length ≤ env.maxLen) (hw : Base64.WellFormed (inputOf ops)) :
    runBase64Decode env ops = some (.ok (Base64.decode (inputOf ops))) := by
  obtain ⟨s, hs⟩ := (B64.decSpec_run (inputOf ops)).1 hw
  have ht := (B64.decode_refines env).total (charSpec_lawful _ _ _) ops (B64.decRep_init env hm)
    (fun op ho => (h op ho).1)
  rw [show B64.decSpec.put ([], false) (inputOf ops) = B64.decSpec.put ([], false) (inputOf ops) from rfl,
    hs] at ht
  have hl : (Base64.decode (inputOf ops)).length ≤ env.maxLen :=
    Nat.le_trans (Nat.le_trans (B64.dg_length _) (B64.digits_length _)) hfit
  obtain ⟨t', h1, _⟩ := ht hl
  unfold runBase64Decode
  rw [total_congr (T := B64.decode env)
    (charMethods_call (fun b h0 h1 => putByteChr_eq _ b h0 h1)) rfl rfl ops (fun op ho => (h op ho).2), h1]
  rfl

/-- C47 (rejection): for every history, decoding an ill-formed text raises `Bad_encoding`. -/
theorem C47_rejects (hm : 256 ≤ env.maxLen) (h : CodecOps ops)
    (hfit : (inputOf ops).length ≤ env.maxLen) (hw : ¬ Base64.WellFormed (inputOf ops)) :
    runBase64Decode env ops = some (.error (.error .badEncoding)) := by
  obtain ⟨out, hs, hl⟩ := (B64.decSpec_run (inputOf ops)).2 hw
  have ht := (B64.decode_refines env).total (charSpec_lawful _ _ _) ops (B64.decRep_init env hm)
    (fun op ho => (h op ho).1)
  rw [hs] at ht
  obtain ⟨t', h1⟩ := ht (by omega)
  unfold runBase64Decode
  rw [total_congr (T := B64.decode env)
    (charMethods_call (fun b h0 h1 => putByteChr_eq _ b h0 h1)) rfl rfl ops (fun op ho => (h op ho).2), h1]
  rfl

/-- C45 (round trip): whatever text an encoder produced, decoding it, cut in any way, gives back
the message. The hypothesis on lengths is that the text can be stored in a string. -/
theorem C45_round_trip (hm : 256 ≤ env.maxLen) (ml pad : Bool) {ops' : List TOp} (h : CodecOps ops)
    (h' : CodecOps ops') (hfit : 2 * (inputOf ops).length + 10 ≤ env.maxLen)
    (ht : runBase64Encode env ml pad ops = some (.ok (inputOf ops'))) :
    runBase64Decode env ops' = some (.ok (inputOf ops)) := by
  have hlen : (B64.layout ml pad 0 (inputOf ops)).length ≤ env.maxLen :=
    Nat.le_trans (B64.layout_length ml pad 0 _) hfit
  rw [runBase64Encode_eq hm ml pad h hlen] at ht
  injection ht with ht
  injection ht with ht
  obtain ⟨hw, hd⟩ := B64.layout_decode ml pad (inputOf ops)
  rw [ht] at hw hd hlen
  rw [C47_accepts hm h' hlen hw, hd]

/-- C45: a Base64 transform has no meaningful `flush`: it always raises `Wrong_data_length` and
changes nothing. -/
theorem C45_flush (ml pad : Bool) (t : B64.Enc) (u : B64.Dec) :
    (B64.encode env ml pad).flush t = .exn (.error .wrongDataLength) t
    ∧ (B64.decode env).flush u = .exn (.error .wrongDataLength) u := ⟨rfl, rfl⟩

/-- C46: the multi-line text is a sequence of lines of exactly 72 characters, each ended by a
newline, then a last line of at most 72 characters, ended by a newline or not. -/
theorem C46_lines (m : Bytes) : ∃ (full : List Bytes) (last : Bytes),
    (∀ l ∈ full, l.length = 72 ∧ 10 ∉ l) ∧ last.length ≤ 72 ∧ 10 ∉ last
    ∧ (Base64.encodeLines m = full.flatMap (· ++ [10]) ++ last
       ∨ Base64.encodeLines m = full.flatMap (· ++ [10]) ++ (last ++ [10])) :=
  B64.lines_shape m

/-- C46: without its newlines, the multi-line text is the compact padded encoding. -/
theorem C46_newlines (m : Bytes) :
    (Base64.encodeLines m).filter (· ≠ 10) = Base64.encode true m := B64.lines_filter m

/-- C48: for every history, `Hexa.encode` produces two lowercase digits for each byte. -/
theorem C48_encode (hm : 256 ≤ env.maxLen) (h : CodecOps ops)
    (hfit : 2 * (inputOf ops).length ≤ env.maxLen) :
    runHexEncode env ops = some (.ok (Spec.Hex.encode (inputOf ops))) := by
  have ht := (Hex.encode_refines env).total (charSpec_lawful _ _ _) ops (Hex.encRep_init env hm)
    (fun op ho => (h op ho).1)
  rw [Hex.enc_run] at ht
  obtain ⟨t', h1, _⟩ := ht (by rw [Hex.encode_length]; exact hfit)
  unfold runHexEncode
  rw [total_congr (T := Hex.encode env)
    (charMethods_call (fun b h0 h1 => Hex.encPutByte_eq env b h0 h1)) rfl rfl ops
    (fun op ho => (h op ho).2), h1]
  rfl

/-- C48: the encoding is twice as long and has only lowercase digits. -/
theorem C48_encode_shape (m : Bytes) :
    (Spec.Hex.encode m).length = 2 * m.length ∧ ∀ c ∈ Spec.Hex.encode m, c ∈ Spec.Hex.lower :=
  ⟨Hex.encode_length m, Hex.encode_lower m⟩

/-- C48: decoding a text with an even number of digits and only digits and blanks. -/
theorem C48_accepts (hm : 256 ≤ env.maxLen) (h : CodecOps ops)
    (hfit : (inputOf ops).length ≤ env.maxLen) (hw : Spec.Hex.WellFormed (inputOf ops)) :
    runHexDecode env ops = some (.ok (Spec.Hex.decode (inputOf ops))) := by
  have ht := (Hex.decode_refines env).total (charSpec_lawful _ _ _) ops (Hex.decRep_init env hm)
    (fun op ho => (h op ho).1)
  rw [(Hex.decSpec_run (inputOf ops)).1 hw] at ht
  have hl : (Spec.Hex.decode (inputOf ops)).length ≤ env.maxLen := by
    refine Nat.le_trans ?_ hfit
    refine Nat.le_trans ?_ (Hex.digits_length _)
    exact Hex.dg_length _
  obtain ⟨t', h1, _⟩ := ht hl
  unfold runHexDecode
  rw [total_congr (T := Hex.decode env)
    (charMethods_call (fun b h0 h1 => putByteChr_eq _ b h0 h1)) rfl rfl ops (fun op ho => (h op ho).2), h1]
  rfl

/-- C48: all other texts are rejected. -/
theorem C48_rejects (hm : 256 ≤ env.maxLen) (h : CodecOps ops)
    (hfit : (inputOf ops).length ≤ env.maxLen) (hw : ¬ Spec.Hex.WellFormed (inputOf ops)) :
    runHexDecode env ops = some (.error (.error .badEncoding)) := by
  obtain ⟨out, hs, hl⟩ := (Hex.decSpec_run (inputOf ops)).2 hw
  have ht := (Hex.decode_refines env).total (charSpec_lawful _ _ _) ops (Hex.decRep_init env hm)
    (fun op ho => (h op ho).1)
  rw [hs] at ht
  obtain ⟨t', h1⟩ := ht (by omega)
  unfold runHexDecode
  rw [total_congr (T := Hex.decode env)
    (charMethods_call (fun b h0 h1 => putByteChr_eq _ b h0 h1)) rfl rfl ops (fun op ho => (h op ho).2), h1]
  rfl

/-- C48: decoding inverts encoding, whatever the chunking on both sides. -/
theorem C48_round_trip (hm : 256 ≤ env.maxLen) {ops' : List TOp} (h : CodecOps ops)
    (h' : CodecOps ops') (hfit : 2 * (inputOf ops).length ≤ env.maxLen)
    (ht : runHexEncode env ops = some (.ok (inputOf ops'))) :
    runHexDecode env ops' = some (.ok (inputOf ops)) := by
  rw [C48_encode hm h hfit] at ht
  injection ht with ht
  injection ht with ht
  obtain ⟨hw, hd⟩ := Hex.encode_decode (inputOf ops)
  have hl := Hex.encode_length (inputOf ops)
  rw [ht] at hw hd hl
  rw [C48_accepts hm h' (by omega) hw, hd]

/-- `put_byte` of an integer that is not a byte raises `Invalid_argument` and changes nothing. (The
hexadecimal encoder first makes room for two characters; its output `q` is what it was.) -/
theorem C48_put_byte_range (ml pad : Bool) (b : Int) (hb : ¬ (0 ≤ b ∧ b < 256)) (t : B64.Enc)
    (u : B64.Dec) (o : OBuf) (q : Bytes) (ho : OBuf.Rep env o q) (hfit : q.length + 2 ≤ env.maxLen)
    (v : Hex.Dec) :
    (B64.encode env ml pad).putByte b t = .exn .invalidArg t
    ∧ (B64.decode env).putByte b u = .exn .invalidArg u
    ∧ (∃ o', (Hex.encode env).putByte b o = .exn .invalidArg o' ∧ OBuf.Rep env o' q)
    ∧ (Hex.decode env).putByte b v = .exn .invalidArg v := by
  have h1 : charChr b = none := if_neg hb
  refine ⟨?_, ?_, ?_, ?_⟩
  · show putByteChr _ b t = _
    unfold putByteChr; rw [h1]; rfl
  · show putByteChr _ b u = _
    unfold putByteChr; rw [h1]; rfl
  · show ∃ o', Hex.encPutByte env b o = .exn .invalidArg o' ∧ _
    obtain ⟨o1, h0, hr, _⟩ := OBuf.ensureCapacity_ok ho 2 hfit
    simp only [Int.cast_ofNat_Int] at h0
    refine ⟨o1, ?_, hr⟩
    unfold Hex.encPutByte
    rw [M.bind_ok h0]
    have : (if b < 0 then none else charsAt Hex.convTable [b / 16, b % 16]) = none := by
      by_cases h0 : b < 0
      · rw [if_pos h0]
      · rw [if_neg h0]
        have : bytesGet Hex.convTable (b / 16) = none := by
          have hl : Hex.convTable.length = 16 := rfl
          unfold bytesGet
          rw [if_pos (by omega)]
          exact List.getElem?_eq_none (by omega)
        simp [charsAt, this]
    rw [this]; rfl
  · show putByteChr _ b v = _
    unfold putByteChr; rw [h1]; rfl

namespace Example

/-- A history with all kinds of calls. -/
def codecOps : List TOp :=
  [.putSubstring [9, 77, 97, 110, 9] 1 3, .getString, .putChar 6, .putByte 7, .getByte, .putString [8, 9]]

theorem codecOps_ok : CodecOps codecOps := by
  intro op h
  simp only [codecOps, List.mem_cons, List.not_mem_nil, or_false] at h
  rcases h with rfl | rfl | rfl | rfl | rfl | rfl <;> simp [TOp.Legal, InRange, TOp.ByteOk]

theorem codecOps_input : inputOf codecOps = [77, 97, 110, 6, 7, 8, 9] := by decide

/-- `TWFuBgcICQ==` -/
example : runBase64Encode env64 false true codecOps
    = some (.ok [84, 87, 70, 117, 66, 103, 99, 73, 67, 81, 61, 61]) := by
  rw [C45_encode_compact (by decide) true codecOps_ok (by decide +kernel), codecOps_input]
  decide +kernel

/-- The same on one line: 7 bytes leave a partial group after full groups, so there is a newline. -/
example : runBase64Encode env64 true true codecOps
    = some (.ok [84, 87, 70, 117, 66, 103, 99, 73, 67, 81, 61, 61, 10]) := by
  rw [C46_encode_multiline (by decide) true codecOps_ok (by decide +kernel), codecOps_input]
  decide +kernel

/-- `TWFu Bgc=\n` decodes; a digit after `=`, and a single last digit, do not. -/
example : runBase64Decode env64 [.putString [84, 87, 70, 117, 32], .putString [66, 103, 99, 61, 10]]
    = some (.ok [77, 97, 110, 6, 7]) := by
  have hw : Base64.WellFormed [84, 87, 70, 117, 32, 66, 103, 99, 61, 10] := by
    rw [B64.wellFormed_iff]
    refine ⟨?_, by decide +kernel⟩
    exact B64.good_append (x := [84, 87, 70, 117, 32, 66, 103, 99]) (by decide +kernel)
      (B64.good_equals _ _ (by decide +kernel))
  have := C47_accepts (env := env64)
    (ops := [.putString [84, 87, 70, 117, 32], .putString [66, 103, 99, 61, 10]]) (by decide)
    (by simp [CodecOps, TOp.Legal, TOp.ByteOk]) (by decide) hw
  rw [this]
  decide +kernel

example : runBase64Decode env64 [.putString [84, 61, 84]] = some (.error (.error .badEncoding)) := by
  refine C47_rejects (by decide) (by simp [CodecOps, TOp.Legal, TOp.ByteOk]) (by decide) ?_
  rintro ⟨_, h, _⟩
  exact h [84] [84] rfl 84 (by simp) (by decide +kernel)

example : runBase64Decode env64 [.putString [84, 87, 70, 117, 66]]
    = some (.error (.error .badEncoding)) := by
  refine C47_rejects (by decide) (by simp [CodecOps, TOp.Legal, TOp.ByteOk]) (by decide) ?_
  rintro ⟨_, _, h⟩
  exact h (by decide +kernel)

example : runBase64Decode env64 [.putString (Base64.encodeLines (inputOf codecOps))]
    = some (.ok (inputOf codecOps)) :=
  C45_round_trip (by decide) true true codecOps_ok (by simp [CodecOps, TOp.Legal, TOp.ByteOk])
    (by decide) (by
      rw [C46_encode_multiline (by decide) true codecOps_ok (by decide +kernel)]
      simp [inputOf, TOp.input])

/-- A message of 55 bytes: the second line has only a partial group, and no newline. -/
example : (Base64.encodeLines (List.replicate 55 0)).length = 72 + 1 + 4 := by decide +kernel

example : runHexDecode env64 [.putString [52, 100, 32], .putString [54, 49, 10]]
    = some (.ok [77, 97]) := by
  rw [C48_accepts (by decide) (by simp [CodecOps, TOp.Legal, TOp.ByteOk]) (by decide)
    (by simp only [Spec.Hex.WellFormed]; decide +kernel)]
  decide +kernel

example : runHexDecode env64 [.putString [52, 100, 54]] = some (.error (.error .badEncoding)) :=
  C48_rejects (by decide) (by simp [CodecOps, TOp.Legal, TOp.ByteOk]) (by decide)
    (by simp only [Spec.Hex.WellFormed]; decide +kernel)

example : runHexDecode env64 [.putString (Spec.Hex.encode (inputOf codecOps))]
    = some (.ok (inputOf codecOps)) :=
  C48_round_trip (by decide) codecOps_ok (by simp [CodecOps, TOp.Legal, TOp.ByteOk])
    (by decide) (by
      rw [C48_encode (by decide) codecOps_ok (by decide +kernel)]
      simp [inputOf, TOp.input])

end Example
end Verif
