import Verif.Spec.Random
import Verif.Proof.ChaCha
import Verif.Proof.Block
import Verif.Proof.Bignum
/-
Random number generators.
-/
namespace Verif
open Spec (streamBytes fillRequests)

@[simp] theorem streamBytes_length (ks : Nat → Byte) (p n : Nat) : (streamBytes ks p n).length = n := by
  simp [streamBytes]

theorem streamBytes_add (ks : Nat → Byte) (p m n : Nat) :
    streamBytes ks p (m + n) = streamBytes ks p m ++ streamBytes ks (p + m) n := by
  unfold streamBytes
  rw [List.range_add, List.map_append, List.map_map]
  congr 1
  apply List.map_congr_left
  intro i _
  simp only [Function.comp_apply]
  rw [Nat.add_assoc]

theorem badRange_iff {b : Bytes} {ofs len : Int} : ¬ badRange b ofs len ↔ InRange b ofs len := by
  unfold badRange InRange
  omega

/-- From a state at position `p`, a request receives the bytes from `p` on. -/
structure RngGenerates (g : Rng ρ) (At : ρ → Nat → Prop) (ks : Nat → Byte) : Prop where
  step : ∀ {s p} (dst : Bytes) (ofs len : Nat), At s p → ofs + len ≤ dst.length →
    ∃ s', g.randomBytes ofs len (s, dst) = .ok () (s', splice dst ofs (streamBytes ks p len)) ∧
      At s' (p + len)

theorem RngGenerates.run_at {g : Rng ρ} {At : ρ → Nat → Prop} {ks : Nat → Byte} (h : RngGenerates g At ks)
    (rs : List RngRequest) : ∀ {s p}, At s p → (∀ r ∈ rs, r.Legal) →
      ∃ s', g.run rs s = .ok (fillRequests ks p rs) s' ∧ ∃ p', At s' p' := by
  induction rs with
  | nil => intro s p hs _; exact ⟨s, rfl, p, hs⟩
  | cons r rs ih =>
    intro s p hs hl
    obtain ⟨buf, ofs, len⟩ := r
    obtain ⟨h1, h2, h3⟩ := hl _ List.mem_cons_self
    simp only at h1 h2 h3
    obtain ⟨ofs, rfl⟩ := Int.eq_ofNat_of_zero_le h2
    obtain ⟨len, rfl⟩ := Int.eq_ofNat_of_zero_le h1
    obtain ⟨s1, e1, a1⟩ := h.step buf ofs len hs (by omega)
    obtain ⟨s2, e2, h2⟩ := ih a1 (fun y hy => hl y (List.mem_cons_of_mem _ hy))
    refine ⟨s2, ?_, h2⟩
    simp only [Rng.run, e1, e2]
    rfl

theorem RngGenerates.run {g : Rng ρ} {At : ρ → Nat → Prop} {ks : Nat → Byte} (h : RngGenerates g At ks)
    (rs : List RngRequest) {s : ρ} {p : Nat} (hs : At s p) (hl : ∀ r ∈ rs, r.Legal) :
    ∃ s', g.run rs s = .ok (fillRequests ks p rs) s' := by
  obtain ⟨s', h1, _⟩ := h.run_at rs hs hl
  exact ⟨s', h1⟩

theorem bytesFrom_eq : bytesFrom = streamBytes := rfl

theorem splice_stream {byte : Nat → Byte} {dst : Bytes} {ofs p m n : Nat} (h : ofs + (m + n) ≤ dst.length) :
    splice (splice dst ofs (streamBytes byte p m)) (ofs + m) (streamBytes byte (p + m) n)
      = splice dst ofs (streamBytes byte p (m + n)) := by
  have := splice_splice_append (b := dst) (o := ofs) (x := streamBytes byte p m)
    (y := streamBytes byte (p + m) n) (by rw [streamBytes_length, streamBytes_length]; omega)
  rw [streamBytes_length] at this
  rw [this, ← streamBytes_add]

/-! ### `pseudo_rng` -/

theorem extractLoop_ok {next : σ → Option (Byte × σ)} {At : σ → Nat → Prop} {ks : Nat → Byte}
    (h : Generates next At ks) (n : Nat) : ∀ {ofs : Nat} {s : σ} {p : Nat} {dst : Bytes}, At s p →
      ofs + n ≤ dst.length →
      ∃ s', extractLoop next ofs n (s, dst) = .ok () (s', splice dst ofs (streamBytes ks p n)) ∧
        At s' (p + n) := by
  induction n with
  | zero => intro ofs s p dst hA _; exact ⟨s, by simp [extractLoop, streamBytes], hA⟩
  | succ n ih =>
    intro ofs s p dst hA hd
    obtain ⟨s1, h1, hA1⟩ := h.step hA
    have hw := cWrite_ok (b := dst) (o := ofs) (x := [ks p]) (by rw [List.length_singleton]; omega)
    have hl := splice_length (b := dst) (o := ofs) (x := [ks p]) (by rw [List.length_singleton]; omega)
    obtain ⟨s2, h2, hA2⟩ := ih (ofs := ofs + 1) (s := s1) (p := p + 1)
      (dst := splice dst ofs [ks p]) hA1 (by omega)
    refine ⟨s2, ?_, by rw [show p + (n + 1) = p + 1 + n by omega]; exact hA2⟩
    unfold extractLoop
    simp only [M.bind_def, M.get_def, h1, M.orUB_some, hw, M.modify_def]
    have e1 : ((ofs : Int) + 1) = ((ofs + 1 : Nat) : Int) := rfl
    rw [e1, h2]
    have := splice_splice_append (b := dst) (o := ofs) (x := [ks p]) (y := streamBytes ks (p + 1) n)
      (by rw [List.length_singleton, streamBytes_length]; omega)
    rw [List.length_singleton] at this
    rw [this, show n + 1 = 1 + n by omega, streamBytes_add]
    rfl

theorem pseudoRng_generates {key : Bytes} (hk : key.length = 16 ∨ key.length = 32) :
    RngGenerates pseudoRng (ChaCha.At key (List.replicate 8 0) 0)
      (Spec.ChaCha20.keystream key (List.replicate 8 0) 0) where
  step := by
    intro s p dst ofs len hA hr
    obtain ⟨s', h1, h2⟩ := extractLoop_ok (chacha_generates hk (.inl rfl) 0) len (dst := dst) hA hr
    refine ⟨s', ?_, h2⟩
    unfold pseudoRng
    simp only [M.bind_def, M.get_def]
    rw [if_neg (badRange_iff.2 ⟨by omega, by omega, by omega⟩), Int.toNat_natCast]
    exact h1

theorem pseudoKey_eq (seed : Bytes) (h : 16 ≤ seed.length) :
    pseudoKey seed = Spec.seedKey seed ∧ ((pseudoKey seed).length = 16 ∨ (pseudoKey seed).length = 32) := by
  unfold pseudoKey Spec.seedKey
  by_cases h1 : seed.length ≥ 32
  · rw [if_pos h1, if_neg (by omega), List.take_append_of_le_length h1, List.length_take]
    exact ⟨rfl, by omega⟩
  · rw [if_neg h1]
    by_cases h2 : seed.length > 16
    · rw [if_pos h2, if_neg (by omega), List.take_append, List.take_of_length_le (by omega),
        List.take_replicate, List.length_append, List.length_replicate]
      refine ⟨by rw [Nat.min_eq_left (by omega)], by omega⟩
    · rw [if_neg h2, if_pos (by omega)]
      exact ⟨rfl, by omega⟩

/-! ### `pseudo_rng_aes_ctr` -/

/-- `b` blocks have been made, `opos` bytes of the last one have been used. -/
def AesCtrRng.At (k : κ) (E : Bytes → Bytes) (g : AesCtrRng κ) (p : Nat) : Prop :=
  ∃ b, g.cipher = k ∧ g.ctr = natToBE 16 b ∧ g.obuf.length = 16 ∧ g.opos ≤ 16 ∧
    p + 16 = 16 * b + g.opos ∧ (g.opos < 16 → g.obuf = E (natToBE 16 (b - 1)))

theorem incrementCounter_natToBE (b : Nat) :
    incrementCounter (natToBE 16 b) 0 16 = some (natToBE 16 (b + 1)) := by
  have := incrementCounter_ok (iv := natToBE 16 b) (n := 16) (m := 16) (natToBE_length _ _) (by omega)
  rw [Nat.sub_self] at this
  rw [this]
  unfold incBE
  rw [natToBE_length, Nat.sub_self, List.take_zero, List.drop_zero, List.nil_append, bn_beNat]
  congr 1
  rw [natToBE_mod]
  refine (natToBE_mod 16 _).symm.trans ?_
  rw [Nat.mod_add_mod, natToBE_mod]

/-- The stream of the generator over the block function `E`. -/
def ctrStream (E : Bytes → Bytes) (i : Nat) : Byte := (E (natToBE 16 (i / 16))).getD (i % 16) 0

theorem aesCtrRefill_ok {c : BlockCipher κ} {k : κ} {E : Bytes → Bytes} (hb : c.blocksize = 16)
    (hc : PureCipher c k E) {g : AesCtrRng κ} {p : Nat} (h : AesCtrRng.At k E g p) (dst : Bytes) :
    ∃ g', aesCtrRefill c (g, dst) = .ok () (g', dst) ∧ AesCtrRng.At k E g' p ∧ g'.opos < 16 := by
  obtain ⟨b, h1, h2, h3, h4, h5, h6⟩ := h
  unfold aesCtrRefill
  simp only
  by_cases ho : g.opos ≥ 16
  · rw [if_pos ho]
    have hr := hc.run' (src := .other g.ctr) (so := 0) (dofs := 0) (dst := g.obuf)
      (by rw [hb]; simp [Src.read, h2]) (by rw [hb, h3])
    have hE : (E (natToBE 16 b)).length = 16 := by
      have := hc.len (b := natToBE 16 b) (by rw [hb, natToBE_length])
      rwa [hb] at this
    have hs : slice (Src.read (.other g.ctr) g.obuf) 0 c.blocksize = natToBE 16 b := by
      simp only [Src.read]
      rw [hb, h2]
      unfold slice
      rw [List.drop_zero, List.take_of_length_le (by rw [natToBE_length])]
    rw [hs, splice_full (by rw [h3, hE])] at hr
    rw [h1]
    refine ⟨⟨k, natToBE 16 (b + 1), E (natToBE 16 b), 0⟩, ?_, ⟨b + 1, rfl, rfl, hE, Nat.zero_le 16, ?_, ?_⟩,
      by show 0 < 16; omega⟩
    · have hr' : c.transform (.other g.ctr) 0 0 (k, g.obuf) = .ok () (k, E (natToBE 16 b)) := hr
      rw [hr']
      simp only
      rw [h2, incrementCounter_natToBE]
    · show p + 16 = 16 * (b + 1) + 0
      omega
    · intro _
      rw [Nat.add_sub_cancel]
  · rw [if_neg ho]
    exact ⟨g, rfl, ⟨b, h1, h2, h3, h4, h5, h6⟩, by omega⟩

theorem aesCtrRandomBytes_ok {c : BlockCipher κ} {k : κ} {E : Bytes → Bytes} (hb : c.blocksize = 16)
    (hc : PureCipher c k E) : ∀ (fuel : Nat) {g : AesCtrRng κ} {p ofs len : Nat} {dst : Bytes},
      len ≤ fuel → AesCtrRng.At k E g p → ofs + len ≤ dst.length →
      ∃ g', aesCtrRandomBytes c fuel ofs len (g, dst)
        = .ok () (g', splice dst ofs (streamBytes (ctrStream E) p len)) ∧
        AesCtrRng.At k E g' (p + len) := by
  intro fuel
  induction fuel with
  | zero =>
    intro g p ofs len dst hf hA hr
    obtain rfl : len = 0 := by omega
    refine ⟨g, ?_, hA⟩
    unfold aesCtrRandomBytes
    simp [streamBytes]
  | succ fuel ih =>
    intro g p ofs len dst hf hA hr
    unfold aesCtrRandomBytes
    rcases Nat.eq_zero_or_pos len with h0 | h0
    · subst h0
      refine ⟨g, ?_, hA⟩
      simp [streamBytes]
    · rw [if_pos (by omega)]
      obtain ⟨g1, e1, hA1, ho⟩ := aesCtrRefill_ok hb hc hA dst
      obtain ⟨b, h1, h2, h3, h4, h5, h6⟩ := hA1
      obtain ⟨r, hrdef⟩ : ∃ r, r = min (16 - g1.opos) len := ⟨_, rfl⟩
      have hrI : min (16 - (g1.opos : Int)) (len : Int) = (r : Int) := by omega
      have hblit := bytesBlit_ok (src := g1.obuf) (so := g1.opos) (dst := dst) (dofs := ofs) (n := r)
        (by omega) (by omega)
      have hsl : slice g1.obuf g1.opos r = streamBytes (ctrStream E) p r := by
        apply List.ext_getElem?
        intro i
        rw [getElem?_slice]
        unfold streamBytes
        rw [List.getElem?_map]
        by_cases hi : i < r
        · rw [if_pos hi, List.getElem?_range hi]
          simp only [Option.map_some]
          unfold ctrStream
          have e2 : (p + i) / 16 = b - 1 := by omega
          have e3 : (p + i) % 16 = g1.opos + i := by omega
          rw [e2, e3, ← h6 ho, List.getD_eq_getElem?_getD, List.getElem?_eq_getElem (by omega)]
          rfl
        · rw [if_neg hi, List.getElem?_eq_none (by rw [List.length_range]; omega)]
          rfl
      simp only [M.bind_def, e1, M.get_def]
      rw [hrI, hblit, hsl]
      simp only [M.orRaise_some, M.modify_def, Int.toNat_natCast]
      have hA2 : AesCtrRng.At k E { g1 with opos := g1.opos + r } (p + r) := by
        refine ⟨b, h1, h2, h3, ?_, ?_, fun _ => h6 ho⟩
        · show g1.opos + r ≤ 16; omega
        · show p + r + 16 = 16 * b + (g1.opos + r); omega
      by_cases hlt : r < len
      · rw [if_pos (by omega)]
        have hl := splice_length (b := dst) (o := ofs) (x := streamBytes (ctrStream E) p r)
          (by rw [streamBytes_length]; omega)
        obtain ⟨g2, e2, hA3⟩ := ih (ofs := ofs + r) (len := len - r)
          (dst := splice dst ofs (streamBytes (ctrStream E) p r)) (by omega) hA2 (by omega)
        refine ⟨g2, ?_, by rw [show p + len = p + r + (len - r) by omega]; exact hA3⟩
        have c1 : (ofs : Int) + r = ((ofs + r : Nat) : Int) := by omega
        have c2 : (len : Int) - r = ((len - r : Nat) : Int) := by omega
        rw [c1, c2, e2]
        have := splice_splice_append (b := dst) (o := ofs) (x := streamBytes (ctrStream E) p r)
          (y := streamBytes (ctrStream E) (p + r) (len - r))
          (by rw [streamBytes_length, streamBytes_length]; omega)
        rw [streamBytes_length] at this
        rw [this, ← streamBytes_add, show r + (len - r) = len by omega]
      · rw [if_neg (by omega)]
        obtain rfl : r = len := by omega
        exact ⟨_, rfl, hA2⟩

theorem aesCtrRng_generates {c : BlockCipher κ} {k : κ} {E : Bytes → Bytes} (hb : c.blocksize = 16)
    (hc : PureCipher c k E) : RngGenerates (aesCtrRng c) (AesCtrRng.At k E) (ctrStream E) where
  step := by
    intro s p dst ofs len hA hr
    exact aesCtrRandomBytes_ok hb hc _ (by rw [Int.toNat_natCast]) hA hr

theorem aesCtrRandomBytes_bad {c : BlockCipher κ} {k : κ} {E : Bytes → Bytes} (hb : c.blocksize = 16)
    (hc : PureCipher c k E) : ∀ (fuel : Nat) {g : AesCtrRng κ} {p : Nat} {ofs len : Int} {dst : Bytes},
      len ≤ fuel → 0 < len → AesCtrRng.At k E g p → ¬ InRange dst ofs len →
      ∃ g', ∃ n : Nat, (n : Int) < len ∧ (n = 0 ∨ ofs + n ≤ dst.length) ∧ aesCtrRandomBytes c fuel ofs len (g, dst)
        = .exn .invalidArg (g', splice dst ofs.toNat (streamBytes (ctrStream E) p n)) := by
  intro fuel
  induction fuel with
  | zero => intro g p ofs len dst h1 h2; omega
  | succ fuel ih =>
    intro g p ofs len dst h1 h2 hA hbad
    unfold aesCtrRandomBytes
    rw [if_pos (by omega)]
    obtain ⟨g1, e1, hA1, ho⟩ := aesCtrRefill_ok hb hc hA dst
    obtain ⟨r, hr⟩ : ∃ r : Nat, (r : Int) = min (16 - (g1.opos : Int)) len := ⟨(min (16 - (g1.opos : Int)) len).toNat, by omega⟩
    simp only [M.bind_def, e1, M.get_def, ← hr]
    by_cases hin : InRange dst ofs r
    · obtain ⟨i1, i2, i3⟩ := hin
      obtain ⟨o, rfl⟩ := Int.eq_ofNat_of_zero_le i2
      have hlt : (r : Int) < len := by
        rcases Int.lt_or_le r len with h | h
        · exact h
        · exfalso
          apply hbad
          exact ⟨by omega, by omega, by omega⟩
      have hlen : 0 < len.toNat := by omega
      obtain ⟨l, rfl⟩ := Int.eq_ofNat_of_zero_le (Int.le_of_lt h2)
      -- the first part is that of a legal request for `r` bytes
      obtain ⟨g2, e2, hA2⟩ := aesCtrRandomBytes_ok hb hc r (ofs := o) (len := r) (dst := dst)
        (Nat.le_refl _) hA (by omega)
      cases r with
      | zero => omega
      | succ r =>
        unfold aesCtrRandomBytes at e2
        rw [if_pos (by omega)] at e2
        have hmin : min (16 - (g1.opos : Int)) ((r + 1 : Nat) : Int) = ((r + 1 : Nat) : Int) := by omega
        simp only [M.bind_def, e1, M.get_def, hmin] at e2
        cases hbl : bytesBlit g1.obuf g1.opos dst o ((r + 1 : Nat) : Int) with
        | none => rw [hbl] at e2; cases e2
        | some d =>
          rw [hbl] at e2
          simp only [M.orRaise_some, M.modify_def, Int.toNat_natCast] at e2 ⊢
          rw [if_neg (by omega)] at e2
          injection e2 with _ e3
          injection e3 with e4 e5
          rw [if_pos hlt, e4, e5]
          have hl := splice_length (b := dst) (o := o) (x := streamBytes (ctrStream E) p (r + 1))
            (by rw [streamBytes_length]; omega)
          obtain ⟨g3, n, hn, hfit, e6⟩ := ih (ofs := (o : Int) + ((r + 1 : Nat) : Int)) (len := (l : Int) - ((r + 1 : Nat) : Int))
            (dst := splice dst o (streamBytes (ctrStream E) p (r + 1))) (by omega) (by omega) hA2 (by
              intro hc
              obtain ⟨c1, c2, c3⟩ := hc
              rw [hl] at c3
              exact hbad ⟨by omega, by omega, by omega⟩)
          · rw [hl] at hfit
            refine ⟨g3, r + 1 + n, by omega, by omega, ?_⟩
            rw [e6, show ((o : Int) + ((r + 1 : Nat) : Int)).toNat = o + (r + 1) by omega,
              splice_stream (by omega)]
    · refine ⟨g1, 0, by omega, .inl rfl, ?_⟩
      rw [bytesBlit_bad_dst hin]
      simp [streamBytes]

/-! ### `system_rng` -/

theorem systemRandomLoop_ok (src : Entropy) : ∀ (fuel : Nat) {st : EntropySt} {ofs len : Nat} {dst : Bytes},
    len ≤ fuel → ofs + len ≤ dst.length →
    ((∀ i, 256 * i < len → src.fails (st.calls + i) = false) ∧
      systemRandomLoop src fuel ofs len (st, dst)
        = .ok true (⟨st.pos + len, st.calls + (len + 255) / 256⟩,
            splice dst ofs (streamBytes src.byte st.pos len))) ∨
    (∃ j, 256 * j < len ∧ src.fails (st.calls + j) = true ∧
      (∀ i, i < j → src.fails (st.calls + i) = false) ∧
      systemRandomLoop src fuel ofs len (st, dst)
        = .ok false (⟨st.pos + 256 * j, st.calls + j + 1⟩,
            splice dst ofs (streamBytes src.byte st.pos (256 * j)))) := by
  intro fuel
  induction fuel with
  | zero =>
    intro st ofs len dst hf hr
    obtain rfl : len = 0 := by omega
    refine .inl ⟨by intro i hi; omega, ?_⟩
    unfold systemRandomLoop
    simp [streamBytes]
  | succ fuel ih =>
    intro st ofs len dst hf hr
    rcases Nat.eq_zero_or_pos len with h0 | h0
    · subst h0
      refine .inl ⟨by intro i hi; omega, ?_⟩
      unfold systemRandomLoop
      simp [streamBytes]
    · unfold systemRandomLoop
      rw [if_pos (by omega)]
      obtain ⟨n, hn⟩ : ∃ n, n = min len 256 := ⟨_, rfl⟩
      have hnI : (if (len : Int) < 256 then (len : Int) else 256) = (n : Int) := by
        split <;> omega
      simp only [M.bind_def, M.get_def, hnI, Int.toNat_natCast]
      unfold getentropy
      cases hfail : src.fails st.calls with
      | true =>
        refine .inr ⟨0, by omega, hfail, by intro i hi; omega, ?_⟩
        simp [streamBytes]
        rfl
      | false =>
        have hw := cWrite_ok (b := dst) (o := ofs) (x := streamBytes src.byte st.pos n)
          (by rw [streamBytes_length]; omega)
        have hl := splice_length (b := dst) (o := ofs) (x := streamBytes src.byte st.pos n)
          (by rw [streamBytes_length]; omega)
        have c1 : (ofs : Int) + n = ((ofs + n : Nat) : Int) := by omega
        have c2 : (len : Int) - n = ((len - n : Nat) : Int) := by omega
        simp only [Bool.false_eq_true, if_false, bytesFrom_eq, M.bind_def, hw, M.orUB_some, M.modify_def, c1, c2]
        rcases ih (st := ⟨st.pos + n, st.calls + 1⟩) (ofs := ofs + n) (len := len - n)
          (dst := splice dst ofs (streamBytes src.byte st.pos n)) (by omega) (by omega) with
          ⟨h1, h2⟩ | ⟨j, h1, h2, h3, h4⟩
        · refine .inl ⟨?_, ?_⟩
          · intro i hi
            cases i with
            | zero => exact hfail
            | succ i =>
              have := h1 i (by omega)
              rwa [show st.calls + (i + 1) = st.calls + 1 + i by omega]
          · rw [h2, splice_stream (by omega), show n + (len - n) = len by omega]
            have x1 : st.pos + n + (len - n) = st.pos + len := by omega
            have x2 : st.calls + 1 + (len - n + 255) / 256 = st.calls + (len + 255) / 256 := by omega
            simp only [x1, x2]
        · have hn256 : n = 256 := by omega
          subst hn256
          refine .inr ⟨j + 1, by omega, ?_, ?_, ?_⟩
          · rw [show st.calls + (j + 1) = st.calls + 1 + j by omega]; exact h2
          · intro i hi
            cases i with
            | zero => exact hfail
            | succ i =>
              have := h3 i (by omega)
              rwa [show st.calls + (i + 1) = st.calls + 1 + i by omega]
          · rw [h4, splice_stream (by omega), show 256 + 256 * j = 256 * (j + 1) by omega]
            have x1 : st.pos + 256 + 256 * j = st.pos + 256 * (j + 1) := by omega
            have x2 : st.calls + 1 + j + 1 = st.calls + (j + 1) + 1 := by omega
            simp only [x1, x2]

/-! ### `device_rng` -/

theorem deviceRandomBytes_ok (dev : Device) : ∀ (fuel : Nat) {pos calls ofs len : Nat} {dst : Bytes},
    len ≤ fuel → ofs + len ≤ dst.length →
    ∃ n k, (∀ i, i < k → ∃ m, dev.event (calls + i) = .upto m) ∧
      ((n = len ∧ deviceRandomBytes dev fuel ofs len (⟨pos, calls, false⟩, dst)
          = .ok () (⟨pos + len, calls + k, false⟩, splice dst ofs (streamBytes dev.byte pos len))) ∨
       (n < len ∧ dev.event (calls + k) = .eof ∧
         deviceRandomBytes dev fuel ofs len (⟨pos, calls, false⟩, dst)
          = .exn (.error .entropySourceClosed)
              (⟨pos + n, calls + k + 1, false⟩, splice dst ofs (streamBytes dev.byte pos n))) ∨
       (n < len ∧ dev.event (calls + k) = .fails ∧
         deviceRandomBytes dev fuel ofs len (⟨pos, calls, false⟩, dst)
          = .exn .unixError
              (⟨pos + n, calls + k + 1, false⟩, splice dst ofs (streamBytes dev.byte pos n)))) := by
  intro fuel
  induction fuel with
  | zero =>
    intro pos calls ofs len dst hf hr
    obtain rfl : len = 0 := by omega
    refine ⟨0, 0, by intro i hi; omega, .inl ⟨rfl, ?_⟩⟩
    unfold deviceRandomBytes
    simp [streamBytes]
  | succ fuel ih =>
    intro pos calls ofs len dst hf hr
    rcases Nat.eq_zero_or_pos len with h0 | h0
    · subst h0
      refine ⟨0, 0, by intro i hi; omega, .inl ⟨rfl, ?_⟩⟩
      unfold deviceRandomBytes
      simp [streamBytes]
    · unfold deviceRandomBytes
      rw [if_pos (by omega)]
      have hbr : ¬ badRange dst (ofs : Int) (len : Int) := badRange_iff.2 ⟨by omega, by omega, by omega⟩
      simp only [M.bind_def, unixRead, if_neg hbr]
      cases hev : dev.event calls with
      | eof =>
        refine ⟨0, 0, by intro i hi; omega, .inr (.inl ⟨h0, hev, ?_⟩)⟩
        simp [streamBytes]
      | fails =>
        refine ⟨0, 0, by intro i hi; omega, .inr (.inr ⟨h0, hev, ?_⟩)⟩
        simp [streamBytes]
      | upto m =>
        obtain ⟨n, hn⟩ : ∃ n, n = min (max 1 m) (min len 65536) := ⟨_, rfl⟩
        simp only [Int.toNat_natCast, ← hn, Bool.false_eq_true, if_false, bytesFrom_eq]
        rw [if_neg (by omega)]
        by_cases hlt : n < len
        · rw [if_pos (by omega)]
          have hl := splice_length (b := dst) (o := ofs) (x := streamBytes dev.byte pos n)
            (by rw [streamBytes_length]; omega)
          have c1 : (ofs : Int) + n = ((ofs + n : Nat) : Int) := by omega
          have c2 : (len : Int) - n = ((len - n : Nat) : Int) := by omega
          rw [c1, c2]
          obtain ⟨n', k, hk, hcase⟩ := ih (pos := pos + n) (calls := calls + 1) (ofs := ofs + n) (len := len - n)
            (dst := splice dst ofs (streamBytes dev.byte pos n)) (by omega) (by omega)
          have hall : ∀ i, i < k + 1 → ∃ m, dev.event (calls + i) = .upto m := by
            intro i hi
            cases i with
            | zero => exact ⟨m, hev⟩
            | succ i =>
              have := hk i (by omega)
              rwa [show calls + (i + 1) = calls + 1 + i by omega]
          have e1 : calls + 1 + k = calls + (k + 1) := by omega
          have e2 : pos + n + n' = pos + (n + n') := by omega
          refine ⟨n + n', k + 1, hall, ?_⟩
          rcases hcase with ⟨h1, h2⟩ | ⟨h1, h2, h3⟩ | ⟨h1, h2, h3⟩
          · refine .inl ⟨by omega, ?_⟩
            rw [h2, splice_stream (by omega), show n + (len - n) = len by omega, e1,
              show pos + n + (len - n) = pos + len by omega]
          · refine .inr (.inl ⟨by omega, by rw [← e1]; exact h2, ?_⟩)
            rw [h3, splice_stream (by omega), e1, e2]
          · refine .inr (.inr ⟨by omega, by rw [← e1]; exact h2, ?_⟩)
            rw [h3, splice_stream (by omega), e1, e2]
        · rw [if_neg (by omega)]
          obtain rfl : n = len := by omega
          refine ⟨n, 1, ?_, .inl ⟨rfl, rfl⟩⟩
          intro i hi
          obtain rfl : i = 0 := by omega
          exact ⟨m, hev⟩

/-! ### `hardware_rng` -/

theorem Spec.rdrandBytes_length (rd : Nat → Option (BitVec 64)) (i n : Nat) :
    (Spec.rdrandBytes rd i n).length = 8 * ((List.range' i n).filterMap rd).length := by
  unfold Spec.rdrandBytes
  generalize (List.range' i n).filterMap rd = l
  induction l with
  | nil => rfl
  | cons v l ih => rw [List.flatMap_cons, List.length_append, ih, natToLE_length, List.length_cons]; omega

theorem rdrand64_ok (rd : Nat → Option (BitVec 64)) : ∀ (n i : Nat),
    (∃ v k, k < n ∧ rd (i + k) = some v ∧ (∀ j, j < k → rd (i + j) = none) ∧
      rdrand64 rd n i = (some v, i + k + 1)) ∨
    ((∀ j, j < n → rd (i + j) = none) ∧ rdrand64 rd n i = (none, i + n)) := by
  intro n
  induction n with
  | zero => intro i; exact .inr ⟨by intro j hj; omega, rfl⟩
  | succ n ih =>
    intro i
    cases h : rd i with
    | some v =>
      exact .inl ⟨v, 0, by omega, h, by intro j hj; omega, by simp [rdrand64, h]⟩
    | none =>
      have hj : ∀ {k}, (∀ j, j < k → rd (i + 1 + j) = none) → ∀ j, j < k + 1 → rd (i + j) = none := by
        intro k hk j hj
        cases j with
        | zero => exact h
        | succ j =>
          have := hk j (by omega)
          rwa [show i + (j + 1) = i + 1 + j by omega]
      rcases ih (i + 1) with ⟨v, k, h1, h2, h3, h4⟩ | ⟨h1, h2⟩
      · refine .inl ⟨v, k + 1, by omega, ?_, hj h3, ?_⟩
        · rw [show i + (k + 1) = i + 1 + k by omega]; exact h2
        · simp only [rdrand64, h, h4]
          congr 1
          omega
      · refine .inr ⟨hj h1, ?_⟩
        simp only [rdrand64, h, h2]
        congr 1
        omega

theorem filterMap_none (rd : Nat → Option (BitVec 64)) (n i : Nat) (h : ∀ j, j < n → rd (i + j) = none) :
    (List.range' i n).filterMap rd = [] := by
  rw [List.filterMap_eq_nil_iff]
  intro a ha
  rw [List.mem_range'_1] at ha
  have := h (a - i) (by omega)
  rwa [show i + (a - i) = a by omega] at this

theorem filterMap_first (rd : Nat → Option (BitVec 64)) (k i : Nat) {v : BitVec 64} (hv : rd (i + k) = some v)
    (h : ∀ j, j < k → rd (i + j) = none) : (List.range' i (k + 1)).filterMap rd = [v] := by
  rw [← List.range'_append_1, List.filterMap_append, filterMap_none rd k i h]
  simp [hv]

theorem hardwareLoop_ok (rd : Nat → Option (BitVec 64)) : ∀ (fuel : Nat) {i ofs len : Nat} {dst : Bytes},
    len < fuel → ofs + len ≤ dst.length →
    ∃ n, (((List.range' i n).filterMap rd).length = (len + 7) / 8 ∧
        hardwareLoop rd fuel ofs len (i, dst)
          = .ok true (i + n, splice dst ofs (Spec.rdrandBytes rd i n |>.take len))) ∨
      (8 * ((List.range' i n).filterMap rd).length < len ∧ 20 ≤ n ∧
        (∀ j, j < 20 → rd (i + (n - 20) + j) = none) ∧
        hardwareLoop rd fuel ofs len (i, dst)
          = .ok false (i + n, splice dst ofs (Spec.rdrandBytes rd i n))) := by
  intro fuel
  induction fuel with
  | zero => intro i ofs len dst hf; omega
  | succ fuel ih =>
    intro i ofs len dst hf hr
    unfold hardwareLoop
    simp only [M.bind_def, M.get_def]
    by_cases h8 : len ≥ 8
    · rw [if_pos (by omega)]
      rcases rdrand64_ok rd 20 i with ⟨v, k, h1, h2, h3, h4⟩ | ⟨h1, h2⟩
      · have hw := cWrite_ok (b := dst) (o := ofs) (x := natToLE 8 v.toNat)
          (by rw [natToLE_length]; omega)
        have hl := splice_length (b := dst) (o := ofs) (x := natToLE 8 v.toNat)
          (by rw [natToLE_length]; omega)
        have c1 : (ofs : Int) + 8 = ((ofs + 8 : Nat) : Int) := by omega
        have c2 : (len : Int) - 8 = ((len - 8 : Nat) : Int) := by omega
        simp only [h4, M.bind_def, hw, M.orUB_some, M.modify_def, c1, c2]
        have hfst := filterMap_first rd k i h2 h3
        have hrd : ∀ n, Spec.rdrandBytes rd i (k + 1 + n)
            = natToLE 8 v.toNat ++ Spec.rdrandBytes rd (i + (k + 1)) n := by
          intro n
          unfold Spec.rdrandBytes
          rw [← List.range'_append_1, List.filterMap_append, hfst]
          simp
        have hfl : ∀ n, ((List.range' i (k + 1 + n)).filterMap rd).length
            = 1 + ((List.range' (i + (k + 1)) n).filterMap rd).length := by
          intro n
          rw [← List.range'_append_1, List.filterMap_append, hfst, List.length_append,
            List.length_singleton]
        have hsp : ∀ (y : Bytes), y.length ≤ len - 8 →
            splice (splice dst ofs (natToLE 8 v.toNat)) (ofs + 8) y
              = splice dst ofs (natToLE 8 v.toNat ++ y) := by
          intro y hy
          have := splice_splice_append (b := dst) (o := ofs) (x := natToLE 8 v.toNat) (y := y)
            (by rw [natToLE_length]; omega)
          rwa [natToLE_length] at this
        obtain ⟨n, hcase⟩ := ih (i := i + k + 1) (ofs := ofs + 8) (len := len - 8)
          (dst := splice dst ofs (natToLE 8 v.toNat)) (by omega) (by omega)
        rw [show i + k + 1 = i + (k + 1) by omega] at hcase ⊢
        refine ⟨k + 1 + n, ?_⟩
        rcases hcase with ⟨a1, a2⟩ | ⟨a1, a2, a3, a4⟩
        · refine .inl ⟨by rw [hfl, a1]; omega, ?_⟩
          rw [a2, hsp _ (by rw [List.length_take]; omega), hrd, List.take_append, natToLE_length,
            List.take_of_length_le (l := natToLE 8 v.toNat) (by rw [natToLE_length]; omega)]
          rw [show i + (k + 1) + n = i + (k + 1 + n) by omega]
        · refine .inr ⟨by rw [hfl]; omega, by omega, ?_, ?_⟩
          · intro j hj
            have := a3 j hj
            rwa [show i + (k + 1 + n - 20) + j = i + (k + 1) + (n - 20) + j by omega]
          · rw [a4, hrd, hsp, show i + (k + 1) + n = i + (k + 1 + n) by omega]
            rw [Spec.rdrandBytes_length]
            omega
      · refine ⟨20, .inr ⟨?_, by omega, ?_, ?_⟩⟩
        · rw [filterMap_none rd 20 i h1]; simp; omega
        · intro j hj; exact h1 j hj
        · simp only [h2, M.bind_def, M.modify_def]
          unfold Spec.rdrandBytes
          rw [filterMap_none rd 20 i h1]
          simp
    · rw [if_neg (by omega)]
      rcases Nat.eq_zero_or_pos len with h0 | h0
      · subst h0
        refine ⟨0, .inl ⟨by simp, ?_⟩⟩
        simp
      · rw [if_pos (by omega)]
        rcases rdrand64_ok rd 20 i with ⟨v, k, h1, h2, h3, h4⟩ | ⟨h1, h2⟩
        · have hw := cWrite_ok (b := dst) (o := ofs) (x := (natToLE 8 v.toNat).take len)
            (by rw [List.length_take, natToLE_length]; omega)
          have hfst := filterMap_first rd k i h2 h3
          refine ⟨k + 1, .inl ⟨by rw [hfst]; simp; omega, ?_⟩⟩
          simp only [h4, M.bind_def, Int.toNat_natCast, hw, M.orUB_some, M.modify_def]
          unfold Spec.rdrandBytes
          rw [hfst]
          simp
          rfl
        · refine ⟨20, .inr ⟨?_, by omega, ?_, ?_⟩⟩
          · rw [filterMap_none rd 20 i h1]; simp; omega
          · intro j hj; exact h1 j hj
          · simp only [h2, M.bind_def, M.modify_def]
            unfold Spec.rdrandBytes
            rw [filterMap_none rd 20 i h1]
            simp

end Verif
