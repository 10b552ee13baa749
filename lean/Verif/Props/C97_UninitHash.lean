import Verif.Proof.Sim
import Verif.Props.ExampleUninit
import Verif.Proof.SafeHash
import Verif.Model.Ripemd
import Verif.Model.Keccak
import Verif.Model.Blake2
import Verif.Model.SipHash
import Verif.Model.Hmac
/-
C97 for the hash functions, HMAC and SipHash: what the buffers of the contexts held before does not matter.
-/
namespace Verif

open Spec

variable {τ τ' γ : Type}

/-- Both fail, or both give the same digest and related contexts. -/
abbrev SameFinal (L : τ → τ' → Prop) : Option (Bytes × τ) → Option (Bytes × τ') → Prop :=
  SameOpt fun p p' => p.1 = p'.1 ∧ L p.2 p'.2

theorem SameOpt.map {α β α' β' : Type} {P : α → β → Prop} {Q : α' → β' → Prop} {f : α → α'} {g : β → β'}
    {o : Option α} {o' : Option β} (h : SameOpt P o o') (hf : ∀ a b, P a b → Q (f a) (g b)) :
    SameOpt Q (o.map f) (o'.map g) := by
  cases o <;> cases o' <;> first | exact h | exact hf _ _ h

theorem SameOpt.bind {α β α' β' : Type} {P : α → β → Prop} {Q : α' → β' → Prop} {f : α → Option α'}
    {g : β → Option β'} {o : Option α} {o' : Option β} (h : SameOpt P o o')
    (hf : ∀ a b, P a b → SameOpt Q (f a) (g b)) : SameOpt Q (o >>= f) (o' >>= g) := by
  cases o <;> cases o' <;> first | exact h.elim | exact hf _ _ h | exact h

theorem sameOpt_self {α : Type} {P : α → α → Prop} {o : Option α} (h : ∀ a, o = some a → P a a) : SameOpt P o o := by
  cases o with
  | none => trivial
  | some a => exact h a rfl

theorem foldl_same {α β : Type} {f g : β → α → β} (l : List α) (h : ∀ b, ∀ a ∈ l, f b a = g b a) :
    ∀ b, l.foldl f b = l.foldl g b := by
  induction l with
  | nil => intro; rfl
  | cons a l ih =>
    intro b
    rw [List.foldl_cons, List.foldl_cons, h b a List.mem_cons_self]
    exact ih (fun b c hc => h b c (List.mem_cons_of_mem _ hc)) _

section stub
variable {L : τ → τ' → Prop} {u : τ → Bytes → Option τ} {u' : τ' → Bytes → Option τ'}
  {f : τ → Option (Bytes × τ)} {f' : τ' → Option (Bytes × τ')} {w : τ → τ} {w' : τ' → τ'} {n : Nat}

theorem update_keep (hu : ∀ c c' d, L c c' → SameOpt L (u c d) (u' c' d)) (d : Bytes) :
    Keep L (do let c ← M.get
               let c' ← M.orUB (u c d)
               M.modify fun _ => c')
      (do let c ← M.get
          let c' ← M.orUB (u' c d)
          M.modify fun _ => c') := by
  intro t t' ht
  have h := hu t t' d ht
  refine Sim.get ?_
  cases h1 : u t d <;> cases h2 : u' t' d <;> rw [h1, h2] at h
  · trivial
  · exact h.elim
  · exact h.elim
  · exact ⟨rfl, h⟩

theorem stub_add_keep (hu : ∀ c c' d, L c c' → SameOpt L (u c d) (u' c' d)) (op : HOp) :
    Keep L ((stubHash n u f w).call op) ((stubHash n u' f' w').call op) := by
  cases op with
  | addSubstring b ofs len =>
    intro t t' ht
    show Sim _ _ ((do if ofs < 0 ∨ len < 0 ∨ ofs > (b.length : Int) - len then M.raise .invalidArg
                      let c ← M.get
                      let c' ← M.orUB (u c (slice b ofs.toNat len.toNat))
                      M.modify fun _ => c' : M τ Unit) t)
      ((do if ofs < 0 ∨ len < 0 ∨ ofs > (b.length : Int) - len then M.raise .invalidArg
           let c ← M.get
           let c' ← M.orUB (u' c (slice b ofs.toNat len.toNat))
           M.modify fun _ => c' : M τ' Unit) t')
    split
    · exact ⟨rfl, ht⟩
    · exact update_keep hu _ t t' ht
  | addString b => exact update_keep hu _
  | addChar c => exact update_keep hu _
  | addByte c => exact update_keep hu _

theorem stub_result_keep (hf : ∀ c c', L c c' → SameFinal L (f c) (f' c')) :
    Keep L (stubHash n u f w).result (stubHash n u' f' w').result := by
  intro t t' ht
  have h := hf t t' ht
  refine Sim.get ?_
  cases h1 : f t <;> cases h2 : f' t' <;> rw [h1, h2] at h
  · trivial
  · exact h.elim
  · exact h.elim
  · exact ⟨h.1, h.2⟩

theorem stub_keep (hu : ∀ c c' d, L c c' → SameOpt L (u c d) (u' c' d))
    (hf : ∀ c c', L c c' → SameFinal L (f c) (f' c')) (x : HashCall) :
    Keep L (performHash (stubHash n u f w) x) (performHash (stubHash n u' f' w') x) := by
  cases x with
  | add op => exact (stub_add_keep hu op).unit
  | result => exact stub_result_keep hf

end stub

/-! ### The Merkle-Damgård hashes -/

theorem mdFinish_same {n l : Nat} {tr : γ → Bytes → γ} {c c' : MDBuf γ} (h : SameCtx n c c') {len : Bytes}
    (hl : len.length = l) (hln : l ≤ n) :
    SameOpt (SameCtx n) (mdFinish n l tr c len) (mdFinish n l tr c' len) := by
  unfold mdFinish
  rw [← h.num, ← h.h]
  refine SameOpt.bind (write_same (x := [0x80]) h.len h.len' h.le h.pre) fun b b' ⟨l1, l1', p1, i1⟩ => ?_
  simp only [List.length_singleton] at p1 i1
  have last : ∀ {g : γ} {b b' : Bytes} {i : Nat}, b.length = n → b'.length = n → b.take i = b'.take i → i ≤ n - l →
      SameOpt (SameCtx n)
        (do let b ← cWrite b i (List.replicate (n - l - i) 0)
            let b ← cWrite b (n - l : Nat) len
            pure { h := tr g b, numbytes := c.numbytes, buffer := b })
        (do let b ← cWrite b' i (List.replicate (n - l - i) 0)
            let b ← cWrite b (n - l : Nat) len
            pure { h := tr g b, numbytes := c.numbytes, buffer := b }) := by
    intro g b b' i l1 l1' p1 i1
    refine SameOpt.bind (write_same (x := List.replicate (n - l - i) 0) l1 l1' (by omega) p1)
      fun b b' ⟨l2, l2', p2, i2⟩ => ?_
    rw [List.length_replicate] at p2 i2
    refine SameOpt.bind (write_same (i := n - l) (x := len) l2 l2' (by omega)
      (by rw [show n - l = i + (n - l - i) by omega]; exact p2)) fun b b' ⟨l3, l3', p3, i3⟩ => ?_
    obtain rfl := take_all l3 l3' (by omega) p3
    exact ⟨rfl, rfl, h.le, l3, l3, rfl⟩
  by_cases hi : c.numbytes + 1 > n - l
  · simp only [if_pos hi]
    refine SameOpt.bind (write_same (i := c.numbytes + 1) (x := List.replicate (n - (c.numbytes + 1)) 0) l1 l1' i1 p1)
      fun b b' ⟨l2, l2', p2, i2⟩ => ?_
    rw [List.length_replicate] at p2 i2
    obtain rfl := take_all l2 l2' (by omega) p2
    exact last l2 l2 rfl (Nat.zero_le _)
  · simp only [if_neg hi]
    exact last (i := c.numbytes + 1) l1 l1' p1 (by omega)

theorem copyAndSwap_size {k : Nat} (hk : 0 < k) (b : Bytes) : (copyAndSwap k b).length = b.length := by
  unfold copyAndSwap
  rw [List.length_flatten, List.map_map]
  have : (List.length ∘ List.reverse : Bytes → Nat) = List.length := by funext x; simp
  rw [this, ← List.length_flatten, chunks_flatten hk]

theorem memOfWords_two {k w : Nat} (a b : BitVec w) : (memOfWords k [a, b]).length = 2 * k := by
  simp [memOfWords]; omega

/-- Two contexts of SHA-1 or RIPEMD-160. -/
def SameSha1 (c c' : Sha1Ctx) : Prop := SameCtx 64 c.buf c'.buf ∧ c.hi = c'.hi ∧ c.lo = c'.lo

theorem sha1_keep (x : HashCall) : Keep SameSha1 (performHash sha1 x) (performHash sha1 x) := by
  refine stub_keep ?_ ?_ x
  · rintro c c' d ⟨h1, h2, h3⟩
    unfold sha1Add
    rw [← h2, ← h3]
    exact (mdAdd_same (by decide) h1 d).map fun _ _ h => ⟨h, rfl, rfl⟩
  · rintro c c' ⟨h1, h2, h3⟩
    unfold sha1Finish
    rw [← h2, ← h3]
    exact (mdFinish_same h1 (by rw [copyAndSwap_size (by decide), memOfWords_two]) (by decide)).map
      fun _ _ h => ⟨by rw [h.h], h, rfl, rfl⟩

theorem ripemd_keep (x : HashCall) : Keep SameSha1 (performHash ripemd160 x) (performHash ripemd160 x) := by
  refine stub_keep ?_ ?_ x
  · rintro c c' d ⟨h1, h2, h3⟩
    unfold rmdAdd
    rw [← h2, ← h3]
    exact (mdAdd_same (by decide) h1 d).map fun _ _ h => ⟨h, rfl, rfl⟩
  · rintro c c' ⟨h1, h2, h3⟩
    unfold rmdFinish
    rw [← h2, ← h3]
    exact (mdFinish_same h1 (by rw [memOfWords_two]) (by decide)).map fun _ _ h => ⟨by rw [h.h], h, rfl, rfl⟩

/-- Two contexts of SHA-2. -/
def SameSha2 {w : Nat} (n : Nat) (c c' : Sha2Ctx w) : Prop := SameCtx n c.buf c'.buf ∧ c.hi = c'.hi ∧ c.lo = c'.lo

theorem sha2_keep {w : Nat} {p : Sha2Code w} (hp : 0 < p.wordBytes) {n k : Nat} (x : HashCall) :
    Keep (SameSha2 (16 * p.wordBytes)) (performHash (stubHash n (sha2Add p) (sha2Finish p k) sha2Wipe) x)
      (performHash (stubHash n (sha2Add p) (sha2Finish p k) sha2Wipe) x) := by
  refine stub_keep ?_ ?_ x
  · rintro c c' d ⟨h1, h2, h3⟩
    unfold sha2Add
    rw [← h2, ← h3]
    exact (mdAdd_same (by omega) h1 d).map fun _ _ h => ⟨h, rfl, rfl⟩
  · rintro c c' ⟨h1, h2, h3⟩
    unfold sha2Finish
    rw [← h2, ← h3]
    exact (mdFinish_same h1 (by rw [copyAndSwap_size hp, memOfWords_two]) (by omega)).map
      fun _ _ h => ⟨by rw [h.h], h, rfl, rfl⟩

/-- C97, `Hash.sha1`. -/
theorem C97_sha1 {b b' : Bytes} (hb : b.length = 64) (hb' : b'.length = 64) :
    SameHash ⟨sha1, sha1Init b⟩ ⟨sha1, sha1Init b'⟩ := fun cs =>
  traceBy_keep sha1_keep cs ⟨sameCtx_init _ hb hb', rfl, rfl⟩

/-- C97, `Hash.ripemd160`. -/
theorem C97_ripemd160 {b b' : Bytes} (hb : b.length = 64) (hb' : b'.length = 64) :
    SameHash ⟨ripemd160, rmdInit b⟩ ⟨ripemd160, rmdInit b'⟩ := fun cs =>
  traceBy_keep ripemd_keep cs ⟨sameCtx_init _ hb hb', rfl, rfl⟩

/-- C97, `Hash.sha2`: the buffer of a context has 64 bytes for SHA-224 and SHA-256, 128 for SHA-384 and SHA-512. -/
theorem C97_sha2 (sz : Int) {b b' : Bytes} (hb : b.length = if sz ≤ 256 then 64 else 128)
    (hb' : b'.length = if sz ≤ 256 then 64 else 128) :
    SameResult SameHash (some (sha2New sz b)) (some (sha2New sz b')) := by
  unfold sha2New
  have p1 : 0 < sha256Code.wordBytes := by decide
  have p2 : 0 < sha512Code.wordBytes := by decide
  by_cases h1 : sz = 224
  · rw [if_pos h1, if_pos h1]
    rw [if_pos (by omega)] at hb hb'
    exact fun cs => traceBy_keep (sha2_keep p1) cs ⟨sameCtx_init _ hb hb', rfl, rfl⟩
  rw [if_neg h1, if_neg h1]
  by_cases h2 : sz = 256
  · rw [if_pos h2, if_pos h2]
    rw [if_pos (by omega)] at hb hb'
    exact fun cs => traceBy_keep (sha2_keep p1) cs ⟨sameCtx_init _ hb hb', rfl, rfl⟩
  rw [if_neg h2, if_neg h2]
  by_cases h3 : sz = 384
  · rw [if_pos h3, if_pos h3]
    rw [if_neg (by omega)] at hb hb'
    exact fun cs => traceBy_keep (sha2_keep p2) cs ⟨sameCtx_init _ hb hb', rfl, rfl⟩
  rw [if_neg h3, if_neg h3]
  by_cases h4 : sz = 512
  · rw [if_pos h4, if_pos h4]
    rw [if_neg (by omega)] at hb hb'
    exact fun cs => traceBy_keep (sha2_keep p2) cs ⟨sameCtx_init _ hb hb', rfl, rfl⟩
  rw [if_neg h4, if_neg h4]
  rfl

/-! ### SHA-3 -/

/-- Two contexts of SHA-3. -/
def SameSha3 (c c' : Sha3Ctx) : Prop :=
  SameCtx c.rsiz c.buf c'.buf ∧ c.rsiz = c'.rsiz ∧ c.hsiz = c'.hsiz ∧ Sha3Safe c ∧ Sha3Safe c'

theorem sha3Absorb_same {c c' : Sha3Ctx} (h : SameSha3 c c') (d : Bytes) :
    SameOpt SameSha3 (sha3Absorb c d) (sha3Absorb c' d) := by
  obtain ⟨h1, h2, h3, h4, h5⟩ := h
  obtain ⟨y, e1, s1⟩ := sha3Absorb_some h4 d
  obtain ⟨y', e2, s2⟩ := sha3Absorb_some h5 d
  have hs : SameOpt (fun c c' : Sha3Ctx => SameCtx c.rsiz c.buf c'.buf ∧ c.rsiz = c'.rsiz ∧ c.hsiz = c'.hsiz)
      (sha3Absorb c d) (sha3Absorb c' d) := by
    unfold sha3Absorb
    rw [← h2]
    exact (mdAdd_same (by have := h4.buf.2; omega) h1 d).map fun _ _ h => ⟨h, rfl, h3⟩
  rw [e1, e2] at hs ⊢
  exact ⟨hs.1, hs.2.1, hs.2.2, s1, s2⟩

theorem sha3Extract_same {c c' : Sha3Ctx} (h : SameSha3 c c') (pad : Byte) :
    SameFinal SameSha3 (sha3Extract pad c) (sha3Extract pad c') := by
  obtain ⟨h1, h2, h3, h4, h5⟩ := h
  have hb := h4.buf.1
  have hn := h4.buf.2
  have le := h1.len
  have le' := h1.len'
  have w1 := cWrite_ok (b := c.buf.buffer) (o := c.buf.numbytes) (x := [pad]) (by simp; omega)
  have w1' := cWrite_ok (b := c'.buf.buffer) (o := c.buf.numbytes) (x := [pad]) (by simp; omega)
  have l1 := (cWrite_length w1).trans le
  have l1' := (cWrite_length w1').trans le'
  have p1 : (splice c.buf.buffer c.buf.numbytes [pad]).take (c.buf.numbytes + 1)
      = (splice c'.buf.buffer c.buf.numbytes [pad]).take (c.buf.numbytes + 1) := by
    have w := write_same (x := [pad]) le le' h1.le h1.pre
    rw [w1, w1'] at w
    exact w.2.2.1
  generalize splice c.buf.buffer c.buf.numbytes [pad] = b1 at *
  generalize splice c'.buf.buffer c.buf.numbytes [pad] = b1' at *
  have w := write_same (i := c.buf.numbytes + 1) (x := List.replicate (c.rsiz - (c.buf.numbytes + 1)) 0) l1 l1'
    (by omega) p1
  have w2 := cWrite_ok (b := b1) (o := c.buf.numbytes + 1)
    (x := List.replicate (c.rsiz - (c.buf.numbytes + 1)) (0 : Byte)) (by simp only [List.length_replicate]; omega)
  have w2' := cWrite_ok (b := b1') (o := c.buf.numbytes + 1)
    (x := List.replicate (c.rsiz - (c.buf.numbytes + 1)) (0 : Byte)) (by simp only [List.length_replicate]; omega)
  generalize splice b1 (c.buf.numbytes + 1) _ = b2 at *
  generalize splice b1' (c.buf.numbytes + 1) _ = b2' at *
  rw [w2, w2'] at w
  obtain ⟨l2, l2', p2, -⟩ := w
  have e2 := take_all l2 l2' (by simp only [List.length_replicate]; omega) p2
  subst e2
  have w3 := cRead_ok (b := b2) (o := c.rsiz - 1) (n := 1) (by omega)
  rw [Int.ofNat_sub (by omega)] at w3
  have w4 := cWrite_ok (b := b2) (o := c.rsiz - 1) (x := (slice b2 (c.rsiz - 1) 1).map (· ||| 0x80)) (by simp; omega)
  have l4 := (cWrite_length w4).trans l2
  rw [Int.ofNat_sub (by omega)] at w4
  generalize splice b2 (c.rsiz - 1) _ = b4 at *
  have hl := (keccakAbsorb_length c.buf.h b4).trans h4.st
  have ho := sha3Output_length h4.hsiz hl
  have e := sha3Extract_of (c := c) (pad := pad) w1 w2 w3 w4 ho
  have e' := sha3Extract_of (c := c') (pad := pad) (h1.num ▸ w1') (by rw [← h1.num, ← h2]; exact w2')
    (by rw [← h2]; exact w3) (by rw [← h2]; exact w4) (by rw [← h3, ← h1.h]; exact ho)
  rw [← h1.h, ← h2, ← h3] at e'
  have hs : ∀ (out : Bytes) (st : List W64), st.length = 25 → SameFinal SameSha3
      (some (out, { c with buf := { c.buf with h := st, buffer := b4 } }))
      (some (out, ⟨{ c'.buf with h := st, buffer := b4 }, c.rsiz, c.hsiz⟩)) := fun out st hl =>
    ⟨rfl, ⟨rfl, h1.num, h1.le, l4, l4, rfl⟩, rfl, rfl, ⟨⟨l4, hn⟩, hl, h4.hsiz⟩, ⟨l4, h2 ▸ h5.buf.2⟩, hl, h4.hsiz⟩
  have hf := hs (sha3Output c.hsiz (keccakAbsorb c.buf.h b4)) _ hl
  exact e ▸ e' ▸ hf

theorem sha3_keep (sz : Nat) (official : Bool) (x : HashCall) :
    Keep (SameOpt SameSha3) (performHash (sha3Class sz official) x) (performHash (sha3Class sz official) x) := by
  unfold sha3Class
  refine stub_keep ?_ ?_ x
  · intro c c' d h
    match c, c', h with
    | none, none, _ => trivial
    | some c, some c', h => exact (sha3Absorb_same h d).map fun _ _ h => h
  · intro c c' h
    match c, c', h with
    | none, none, _ => trivial
    | some c, some c', h => exact (sha3Extract_same h _).map fun _ _ h => h

/-- C97, `Hash.sha3` and `Hash.keccak`. The buffer holds as many bytes as one call of the permutation takes in. -/
theorem C97_sha3 (sz : Int) (official : Bool) {b b' : Bytes} (hb : b.length = 200 - 2 * (sz.toNat / 8))
    (hb' : b'.length = 200 - 2 * (sz.toNat / 8)) :
    SameResult (fun t t' => SameHash ⟨sha3Class sz.toNat official, t⟩ ⟨sha3Class sz.toNat official, t'⟩)
      (some (sha3New sz b)) (some (sha3New sz b')) := by
  unfold sha3New
  split
  · next h =>
    have hz : sz.toNat = 224 ∨ sz.toNat = 256 ∨ sz.toNat = 384 ∨ sz.toNat = 512 := by omega
    exact fun cs => traceBy_keep (sha3_keep _ _) cs
      ⟨sameCtx_init _ hb hb', rfl, rfl, sha3InitC_safe hz hb, sha3InitC_safe hz hb'⟩
  · rfl

/-! ### BLAKE2 -/

theorem lazyTail_same {n : Nat} {tr : γ → Bytes → γ} (k : Nat) : ∀ {c c' : MDBuf γ} {data : Bytes},
    data.length ≤ k → c.h = c'.h → c.buffer.length = n → c'.buffer.length = n →
    SameOpt (SameCtx n) (lazyTail n tr c data) (lazyTail n tr c' data) := by
  induction k using Nat.strongRecOn with
  | _ k ih =>
    intro c c' data hk hh l l'
    rw [lazyTail.eq_def n tr c, lazyTail.eq_def n tr c']
    by_cases hd : 0 < n ∧ n < data.length
    · rw [dif_pos hd, dif_pos hd]
      exact ih (k - n) (by omega) (by rw [List.length_drop]; omega) (by simp only [hh]) l l'
    · rw [dif_neg hd, dif_neg hd]
      have w := write_same (i := 0) (x := data) l l' (by omega) rfl
      rw [Int.natCast_zero] at w
      cases h1 : cWrite c.buffer 0 data <;> cases h2 : cWrite c'.buffer 0 data <;> rw [h1, h2] at w
      · trivial
      · exact w.elim
      · exact w.elim
      · obtain ⟨w1, w2, w3, w4⟩ := w
        rw [Nat.zero_add] at w3
        exact ⟨hh, rfl, by simp only; omega, w1, w2, w3⟩

theorem lazyAdd_same {n : Nat} {tr : γ → Bytes → γ} {c c' : MDBuf γ} (h : SameCtx n c c') (data : Bytes) :
    SameOpt (SameCtx n) (lazyAdd n tr c data) (lazyAdd n tr c' data) := by
  have hle := h.le
  rw [lazyAdd, lazyAdd, ← h.num]
  by_cases h0 : c.numbytes > 0
  · rw [if_pos h0, if_pos h0]
    simp only
    by_cases hd : data.length ≤ n - c.numbytes
    · rw [if_pos hd, if_pos hd]
      have w := write_same (x := data) h.len h.len' h.le h.pre
      cases h1 : cWrite c.buffer c.numbytes data <;> cases h2 : cWrite c'.buffer c.numbytes data <;> rw [h1, h2] at w
      · trivial
      · exact w.elim
      · exact w.elim
      · obtain ⟨w1, w2, w3, w4⟩ := w
        exact ⟨h.h, rfl, w4, w1, w2, w3⟩
    · rw [if_neg hd, if_neg hd]
      have w := write_same (x := data.take (n - c.numbytes)) h.len h.len' h.le h.pre
      cases h1 : cWrite c.buffer c.numbytes (data.take (n - c.numbytes)) <;>
        cases h2 : cWrite c'.buffer c.numbytes (data.take (n - c.numbytes)) <;> rw [h1, h2] at w
      · trivial
      · exact w.elim
      · exact w.elim
      · obtain ⟨w1, w2, w3, w4⟩ := w
        have hl : (data.take (n - c.numbytes)).length = n - c.numbytes := by rw [List.length_take]; omega
        obtain rfl := take_all w1 w2 (by omega) w3
        exact lazyTail_same _ (Nat.le_refl _) (by simp only [h.h]) w1 w1
  · rw [if_neg h0, if_neg h0]
    exact lazyTail_same _ (Nat.le_refl _) h.h h.len h.len'

theorem blake2Final_same {w : Nat} (p : Blake2Code w) {c c' : Blake2Ctx w} (h : SameCtx (16 * p.k) c c') (len : Nat) :
    SameFinal (SameCtx (16 * p.k)) (blake2Final p len c) (blake2Final p len c') := by
  unfold blake2Final
  rw [← h.num, ← h.h]
  refine SameOpt.bind (write_same h.len h.len' h.le h.pre) fun b b' ⟨l1, l1', p1, i1⟩ => ?_
  rw [List.length_replicate] at p1 i1
  obtain rfl := take_all l1 l1' (by omega) p1
  exact ⟨rfl, rfl, rfl, h.le, l1, l1, rfl⟩

theorem blake2Init_same {w : Nat} (p : Blake2Code w) {b b' : Bytes} (l : b.length = 16 * p.k)
    (l' : b'.length = 16 * p.k) (len : Nat) (key : Bytes) :
    SameOpt (SameCtx (16 * p.k)) (blake2Init p len key b) (blake2Init p len key b') := by
  unfold blake2Init
  by_cases hk : key.length > 0
  · simp only [if_pos hk]
    refine SameOpt.bind (write_same (i := 0) (x := List.replicate (16 * p.k) 0) l l' (by omega) rfl)
      fun b b' ⟨l1, l1', p1, i1⟩ => ?_
    rw [List.length_replicate] at p1 i1
    obtain rfl := take_all l1 l1' (by omega) p1
    cases e : cWrite b 0 key with
    | none => trivial
    | some b2 =>
      have l2 := (cWrite_length e).trans l1
      exact ⟨rfl, rfl, Nat.le_refl _, l2, l2, rfl⟩
  · simp only [if_neg hk]
    exact sameCtx_init _ l l'

theorem blake2_keep {w : Nat} (p : Blake2Code w) (sz : Int) (x : HashCall) :
    Keep (SameCtx (16 * p.k)) (performHash (blake2Class p sz) x) (performHash (blake2Class p sz) x) :=
  stub_keep (fun _ _ d h => lazyAdd_same h d) (fun _ _ h => blake2Final_same p h _) x

/-- C97, `Hash.blake2b` and `MAC.blake2b`. -/
theorem C97_blake2b (sz : Int) (key : Bytes) {b b' : Bytes} (hb : b.length = 128) (hb' : b'.length = 128) :
    SameResult (SameOpt fun t t' => SameHash ⟨blake2Class blake2bCode sz, t⟩ ⟨blake2Class blake2bCode sz, t'⟩)
      (some (blake2bNew sz key b)) (some (blake2bNew sz key b')) := by
  unfold blake2bNew
  split
  · have h := blake2Init_same blake2bCode hb hb' (sz / 8).toNat key
    show SameOpt _ _ _
    cases h1 : blake2Init blake2bCode (sz / 8).toNat key b <;>
      cases h2 : blake2Init blake2bCode (sz / 8).toNat key b' <;> rw [h1, h2] at h
    · trivial
    · exact h.elim
    · exact h.elim
    · exact fun cs => traceBy_keep (blake2_keep _ _) cs h
  · rfl

/-- C97, `Hash.blake2s` and `MAC.blake2s`. -/
theorem C97_blake2s (sz : Int) (key : Bytes) {b b' : Bytes} (hb : b.length = 64) (hb' : b'.length = 64) :
    SameResult (SameOpt fun t t' => SameHash ⟨blake2Class blake2sCode sz, t⟩ ⟨blake2Class blake2sCode sz, t'⟩)
      (some (blake2sNew sz key b)) (some (blake2sNew sz key b')) := by
  unfold blake2sNew
  split
  · have h := blake2Init_same blake2sCode hb hb' (sz / 8).toNat key
    show SameOpt _ _ _
    cases h1 : blake2Init blake2sCode (sz / 8).toNat key b <;>
      cases h2 : blake2Init blake2sCode (sz / 8).toNat key b' <;> rw [h1, h2] at h
    · trivial
    · exact h.elim
    · exact h.elim
    · exact fun cs => traceBy_keep (blake2_keep _ _) cs h
  · rfl

/-! ### SipHash -/

/-- Two contexts of SipHash. -/
def SameSip (c c' : SipCtx) : Prop :=
  SameCtx 8 c.buf c'.buf ∧ c.len8 = c'.len8 ∧ c.len8.toNat % 8 = c.buf.numbytes

theorem mdTail_num {n : Nat} (hn : 0 < n) {via : Bool} {tr : γ → Bytes → γ} (k : Nat) : ∀ {c r : MDBuf γ} {data : Bytes},
    data.length ≤ k → mdTail n via tr c data = some r → r.numbytes = data.length % n := by
  induction k using Nat.strongRecOn with
  | _ k ih =>
    intro c r data hk h
    rw [mdTail.eq_def] at h
    by_cases hd : 0 < n ∧ n ≤ data.length
    · rw [dif_pos hd] at h
      have hdr : (data.drop n).length = data.length - n := by rw [List.length_drop]
      have hm : (data.length - n) % n = data.length % n := (Nat.mod_eq_sub_mod hd.2).symm
      cases via with
      | true =>
        simp only [if_true] at h
        split at h
        · cases h
        · rw [ih (k - n) (by omega) (by omega) h, hdr, hm]
      | false =>
        simp only [Bool.false_eq_true, if_false] at h
        rw [ih (k - n) (by omega) (by omega) h, hdr, hm]
    · rw [dif_neg hd] at h
      split at h
      · cases h
      · cases h
        simp only
        rw [Nat.mod_eq_of_lt (by omega)]

theorem sipLen {l : BitVec 8} {k : Nat} : (l + BitVec.ofNat 8 k).toNat % 8 = (l.toNat % 8 + k) % 8 := by
  rw [BitVec.toNat_add, BitVec.toNat_ofNat]
  omega

theorem sipFinal_same {c c' : SipCtx} (h : c.buf.h = c'.buf.h)
    (hl : sipLast c.len8 c.buf.buffer = sipLast c'.len8 c'.buf.buffer) {P : SipCtx → SipCtx → Prop}
    (hP : ∀ st, P { c with buf := { c.buf with h := st } } { c' with buf := { c'.buf with h := st } }) {n : Nat} :
    SameFinal P (sipFinal n c) (sipFinal n c') := by
  unfold sipFinal
  rw [← hl, ← h]
  generalize sipMix c.buf.h _ = st
  simp only
  generalize sipFinalRounds _ = q
  cases cWrite (List.replicate n 0) 0 (toLE64 q.2) with
  | none => trivial
  | some out =>
    simp only
    split
    · generalize sipFinalRounds _ = q2
      cases cWrite out 8 (toLE64 q2.2) with
      | none => trivial
      | some out => exact ⟨rfl, hP _⟩
    · exact ⟨rfl, hP _⟩

theorem sip_keep (sz : Int) (x : HashCall) : Keep SameSip (performHash (sipClass sz) x) (performHash (sipClass sz) x) := by
  refine stub_keep ?_ ?_ x
  · rintro c c' d ⟨h, h2, h3⟩
    have hle := h.le
    have hlt : c.buf.numbytes < 8 := by omega
    unfold sipAdd
    rw [← h.num, ← h2]
    simp only
    by_cases hd : d.length < 8 - c.buf.numbytes
    · rw [if_pos hd, if_pos hd]
      have w := write_same (x := d) h.len h.len' h.le h.pre
      cases e1 : cWrite c.buf.buffer c.buf.numbytes d <;> cases e2 : cWrite c'.buf.buffer c.buf.numbytes d <;>
        rw [e1, e2] at w
      · trivial
      · exact w.elim
      · exact w.elim
      · obtain ⟨w1, w2, w3, w4⟩ := w
        exact ⟨⟨h.h, rfl, w4, w1, w2, w3⟩, rfl, by rw [sipLen, h3]; exact Nat.mod_eq_of_lt (by omega)⟩
    rw [if_neg hd, if_neg hd]
    by_cases h0 : c.buf.numbytes > 0
    · rw [if_pos h0, if_pos h0]
      have w := write_same (x := d.take (8 - c.buf.numbytes)) h.len h.len' h.le h.pre
      cases e1 : cWrite c.buf.buffer c.buf.numbytes (d.take (8 - c.buf.numbytes)) <;>
        cases e2 : cWrite c'.buf.buffer c.buf.numbytes (d.take (8 - c.buf.numbytes)) <;> rw [e1, e2] at w
      · trivial
      · exact w.elim
      · exact w.elim
      · obtain ⟨w1, w2, w3, w4⟩ := w
        have hl : (d.take (8 - c.buf.numbytes)).length = 8 - c.buf.numbytes := by rw [List.length_take]; omega
        obtain rfl := take_all w1 w2 (by omega) w3
        rename_i b
        have t := mdTail_same (n := 8) (by decide) (via := false) (tr := sipBlock) _
          (c := { c.buf with buffer := b, h := sipBlock c.buf.h b })
          (c' := { c'.buf with buffer := b, h := sipBlock c'.buf.h b }) (data := d.drop (8 - c.buf.numbytes))
          (Nat.le_refl _) (by simp only [h.h]) w1 w1
        simp only
        cases m1 : mdTail 8 false sipBlock { c.buf with buffer := b, h := sipBlock c.buf.h b } (d.drop (8 - c.buf.numbytes)) <;>
          cases m2 : mdTail 8 false sipBlock { c'.buf with buffer := b, h := sipBlock c'.buf.h b } (d.drop (8 - c.buf.numbytes)) <;>
          rw [m1, m2] at t
        · trivial
        · exact t.elim
        · exact t.elim
        · refine ⟨t, rfl, ?_⟩
          rw [sipLen, h3]
          simp only [mdTail_num (by decide) _ (Nat.le_refl _) m1, List.length_drop]
          omega
    · rw [if_neg h0, if_neg h0]
      have t := mdTail_same (n := 8) (by decide) (via := false) (tr := sipBlock) _ (data := d) (Nat.le_refl _) h.h h.len h.len'
      cases m1 : mdTail 8 false sipBlock c.buf d <;> cases m2 : mdTail 8 false sipBlock c'.buf d <;> rw [m1, m2] at t
      · trivial
      · exact t.elim
      · exact t.elim
      · refine ⟨t, rfl, ?_⟩
        rw [sipLen, h3]
        simp only [mdTail_num (by decide) _ (Nat.le_refl _) m1]
        omega
  · rintro c c' ⟨h, h2, h3⟩
    have hb : ∀ i < (c.len8 &&& 7).toNat, byteAt c.buf.buffer i = byteAt c'.buf.buffer i := by
      intro i hi
      have e : (c.len8 &&& 7).toNat = c.buf.numbytes := by
        rw [← h3, BitVec.toNat_and]
        exact Nat.and_two_pow_sub_one_eq_mod _ 3
      have hp := congrArg (fun l => l[i]?) h.pre
      simp only [List.getElem?_take, if_pos (show i < c.buf.numbytes by omega)] at hp
      unfold byteAt
      rw [List.getD_eq_getElem?_getD, List.getD_eq_getElem?_getD, hp]
    have hl : sipLast c.len8 c.buf.buffer = sipLast c'.len8 c'.buf.buffer := by
      rw [← h2]
      unfold sipLast
      exact foldl_same _ (fun w i hi => by rw [hb i (List.mem_range.1 (List.mem_reverse.1 hi))]) _
    exact sipFinal_same h.h hl fun st => ⟨⟨rfl, h.num, h.le, h.len, h.len', h.pre⟩, h2, h3⟩

/-- C97, `MAC.siphash` and `MAC.siphash128`. -/
theorem C97_siphash (sz : Int) (key : Bytes) {b b' : Bytes} (hb : b.length = 8) (hb' : b'.length = 8) :
    SameResult (fun t t' => SameHash ⟨sipClass sz, t⟩ ⟨sipClass sz, t'⟩)
      (some (sipNew sz key b)) (some (sipNew sz key b')) := by
  unfold sipNew
  split
  · exact fun cs => traceBy_keep (sip_keep sz) cs ⟨sameCtx_init _ hb hb', rfl, rfl⟩
  · rfl

/-- Two contexts that differ, and that no call tells apart. -/
example : sha1Init (List.replicate 64 0) ≠ sha1Init (List.replicate 64 0xA5)
    ∧ SameHash ⟨sha1, sha1Init (List.replicate 64 0)⟩ ⟨sha1, sha1Init (List.replicate 64 0xA5)⟩ :=
  ⟨fun h => absurd (congrArg (fun c => c.buf.buffer) h) (by decide), C97_sha1 rfl rfl⟩

/-- A hash that adds the bytes of its buffer to its result is told apart: the property is not met by every program. -/
example : ¬ SameHash ⟨{ sha1 with result := M.bind M.get fun c => M.pure c.buf.buffer }, sha1Init (List.replicate 64 0)⟩
    ⟨{ sha1 with result := M.bind M.get fun c => M.pure c.buf.buffer }, sha1Init (List.replicate 64 0xA5)⟩ := by
  intro h
  have := h [.result]
  revert this
  decide +kernel

set_option maxRecDepth 100000 in
example := And.intro (C97_ripemd160 (b := List.replicate 64 0) (b' := List.replicate 64 0xA5) rfl rfl)
  (And.intro (C97_sha2 384 (b := List.replicate 128 0) (b' := List.replicate 128 0xA5) (by simp) (by simp))
    (And.intro (C97_sha3 256 true (b := List.replicate 136 0) (b' := List.replicate 136 0xA5) (by rw [List.length_replicate]; decide) (by rw [List.length_replicate]; decide))
      (And.intro (C97_blake2b 512 [1, 2] (b := List.replicate 128 0) (b' := List.replicate 128 0xA5) (by simp) (by simp))
        (And.intro (C97_blake2s 256 [] (b := List.replicate 64 0) (b' := List.replicate 64 0xA5) rfl rfl)
          (C97_siphash 64 (List.replicate 16 1) (b := List.replicate 8 0) (b' := List.replicate 8 0xA5) rfl rfl)))))

end Verif
