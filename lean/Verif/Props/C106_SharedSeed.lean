import Verif.Spec.SeedString
import Verif.Props.C61_C62_Random
/-
C106 Every generator made from a seed string gives the stream of that seed, and the string is left alone.
-/
namespace Verif
open Spec (streamBytes Seeded pseudoStream isCreate isWipe)

/-- The generators of the model are those of the specification. -/
structure SeedWorld.Rel (At : Bytes → ρ → Nat → Prop) (w : SeedWorld ρ) (s : Seeded) : Prop where
  seed : w.seed = s.seed
  long : 16 ≤ s.seed.length
  length : List.length w.gens = List.length s.gens
  gens : ∀ {i : Nat} {k : Bytes} {p : Nat}, s.gens[i]? = some (some (k, p)) → 16 ≤ k.length ∧ ∃ x, w.gens[i]? = some x ∧ At k x p

/-- A class of generators whose outputs are the streams `ks`. -/
structure SeedClass (new : Bytes → Except Exn ρ) (g : Rng ρ) (At : Bytes → ρ → Nat → Prop)
    (ks : Bytes → Nat → Byte) : Prop where
  new : ∀ {seed : Bytes}, 16 ≤ seed.length → ∃ x, new seed = .ok x ∧ At seed x 0
  gen : ∀ {seed : Bytes}, 16 ≤ seed.length → RngGenerates g (At seed) (ks seed)
  wipe : ∀ x, ∃ x', g.wipe x = .ok () x'

theorem SeedClass.step {new : Bytes → Except Exn ρ} {g : Rng ρ} {At : Bytes → ρ → Nat → Prop}
    {ks : Bytes → Nat → Byte} (H : SeedClass new g At ks) {w : SeedWorld ρ} {s s' : Seeded} {c : SeedCall}
    {b : Bytes} (hr : w.Rel At s) (h : s.step true ks c = some (s', b)) :
    ∃ w', SeedWorld.step new g c w = .ok b w' ∧ w'.Rel At s' := by
  cases c with
  | create =>
    simp only [Seeded.step, Option.some.injEq, Prod.mk.injEq] at h
    obtain ⟨rfl, rfl⟩ := h
    obtain ⟨x, e, hx⟩ := H.new hr.long
    refine ⟨⟨w.seed, w.gens ++ [x]⟩, ?_, hr.seed, hr.long, ?_, ?_⟩
    · simp only [SeedWorld.step, hr.seed, e]
    · simp [hr.length]
    · intro i k p hi
      by_cases hl : i < s.gens.length
      · simp only [List.getElem?_append_left hl] at hi
        obtain ⟨h1, y, h2, h3⟩ := hr.gens hi
        exact ⟨h1, y, by simp only [List.getElem?_append_left (hr.length ▸ hl : i < w.gens.length), h2], h3⟩
      · simp only [List.getElem?_append_right (Nat.le_of_not_lt hl)] at hi
        obtain ⟨hl', hi⟩ := List.getElem?_eq_some_iff.1 hi
        obtain rfl : i = s.gens.length := by simp at hl'; omega
        simp at hi
        obtain ⟨rfl, rfl⟩ := hi
        exact ⟨hr.long, x, by simp [← hr.length], hx⟩
  | randomBytes i buf ofs len =>
    simp only [Seeded.step] at h
    split at h
    · rename_i k p hi
      split at h
      · rename_i hb
        obtain ⟨hb1, hb2, hb3⟩ := hb
        simp only [Option.some.injEq, Prod.mk.injEq] at h
        obtain ⟨rfl, rfl⟩ := h
        obtain ⟨hk, x, hx, hA⟩ := hr.gens hi
        obtain ⟨ofs, rfl⟩ := Int.eq_ofNat_of_zero_le hb2
        obtain ⟨len, rfl⟩ := Int.eq_ofNat_of_zero_le hb1
        obtain ⟨x', e, hA'⟩ := (H.gen hk).step buf ofs len hA (by omega)
        refine ⟨⟨w.seed, w.gens.set i x'⟩, ?_, hr.seed, hr.long, by simp [hr.length], ?_⟩
        · simp only [SeedWorld.step, hx, e]; rfl
        · intro j k' p' hj
          by_cases hij : i = j
          · subst hij
            have hl : i < s.gens.length := (List.getElem?_eq_some_iff.1 hi).1
            simp only [List.getElem?_set_self hl, Option.some.injEq, Prod.mk.injEq] at hj
            obtain ⟨rfl, rfl⟩ := hj
            exact ⟨hk, x', by simp only [List.getElem?_set_self (hr.length ▸ hl : i < w.gens.length)], hA'⟩
          · simp only [List.getElem?_set_ne hij] at hj ⊢
            exact hr.gens hj
      · cases h
    · cases h
  | wipe i =>
    simp only [Seeded.step] at h
    split at h
    · rename_i kp hi
      obtain ⟨k, p⟩ := kp
      simp only [Option.some.injEq, Prod.mk.injEq] at h
      obtain ⟨rfl, rfl⟩ := h
      obtain ⟨hk, x, hx, hA⟩ := hr.gens hi
      obtain ⟨x', e⟩ := H.wipe x
      refine ⟨⟨wipeBytes w.seed, w.gens.set i x'⟩, ?_, ?_, ?_, by simp [hr.length], ?_⟩
      · simp only [SeedWorld.step, hx, e]
      · simp [wipeBytes, hr.seed]
      · simpa using hr.long
      · intro j k' p' hj
        by_cases hij : i = j
        · subst hij
          have hl : i < s.gens.length := (List.getElem?_eq_some_iff.1 hi).1
          simp only [List.getElem?_set_self hl] at hj
          cases hj
        · simp only [List.getElem?_set_ne hij] at hj ⊢
          exact hr.gens hj
    · cases h

theorem SeedClass.run {new : Bytes → Except Exn ρ} {g : Rng ρ} {At : Bytes → ρ → Nat → Prop}
    {ks : Bytes → Nat → Byte} (H : SeedClass new g At ks) (cs : List SeedCall) :
    ∀ {w : SeedWorld ρ} {s s' : Seeded} {bs : List Bytes}, w.Rel At s → s.run true ks cs = some (s', bs) →
      ∃ w', SeedWorld.run new g cs w = .ok bs w' ∧ w'.Rel At s' := by
  induction cs with
  | nil =>
    intro w s s' bs hr h
    simp only [Seeded.run, Option.some.injEq, Prod.mk.injEq] at h
    obtain ⟨rfl, rfl⟩ := h
    exact ⟨w, rfl, hr⟩
  | cons c cs ih =>
    intro w s s' bs hr h
    unfold Seeded.run at h
    split at h
    · cases h
    · rename_i s1 b h1
      split at h
      · cases h
      · rename_i s2 bs' h2
        simp only [Option.some.injEq, Prod.mk.injEq] at h
        obtain ⟨rfl, rfl⟩ := h
        obtain ⟨w1, e1, r1⟩ := H.step hr h1
        obtain ⟨w2, e2, r2⟩ := ih r1 h2
        refine ⟨w2, ?_, r2⟩
        simp only [SeedWorld.run, M.bind_def, e1, e2]
        rfl

theorem pseudoRng_class (env : Env) : SeedClass (pseudoRngNew env) pseudoRng
    (fun seed => ChaCha.At (Spec.seedKey seed) (List.replicate 8 0) 0) pseudoStream where
  new := by
    intro seed hs
    obtain ⟨e, hk⟩ := pseudoKey_eq seed hs
    refine ⟨chachaInit env (pseudoKey seed) (List.replicate 8 0) 0, ?_, ?_⟩
    · unfold pseudoRngNew; rw [if_neg (by omega)]
    · rw [← e]; exact chachaInit_at env 0 hk (.inl rfl)
  gen := by
    intro seed hs
    obtain ⟨e, hk⟩ := pseudoKey_eq seed hs
    exact pseudoRng_generates (e ▸ hk)
  wipe := fun x => ⟨_, rfl⟩

theorem aesCtrRng_class (env : Env) (junk : List W32) :
    SeedClass (aesCtrRngNew env junk) (aesCtrRng Aes.encCipher)
      (fun seed x p => ∃ k, PureCipher Aes.encCipher k (Spec.Aes.encrypt (seed.take 16)) ∧
        AesCtrRng.At k (Spec.Aes.encrypt (seed.take 16)) x p) Spec.aesCtrStream where
  new := by
    intro seed hs
    obtain ⟨g, k, hg, hc, _, hA⟩ := aesCtrRngNew_ok env junk hs
    exact ⟨g, hg, k, hc, hA⟩
  gen := fun {seed} hs =>
    { step := by
        intro x p dst ofs len hA hr
        obtain ⟨k, hc, hA⟩ := hA
        obtain ⟨x', h1, h2⟩ := (aesCtrRng_generates rfl hc).step dst ofs len hA hr
        exact ⟨x', h1, k, hc, h2⟩ }
  wipe := fun x => ⟨_, rfl⟩

theorem Seeded.rel_new {At : Bytes → ρ → Nat → Prop} {seed : Bytes} (hs : 16 ≤ seed.length) :
    SeedWorld.Rel At ⟨seed, []⟩ ⟨seed, []⟩ :=
  ⟨rfl, hs, rfl, fun h => by simp at h⟩

/-- What happens, for every program that uses its generators as documented: each generator delivers
the stream of what the string contained when the generator was created, whatever happens to the
other generators, but wiping any of them overwrites the string. -/
theorem C106_pseudo_rng_exact (env : Env) {seed : Bytes} (hs : 16 ≤ seed.length) {cs : List SeedCall}
    {s : Seeded} {bs : List Bytes} (h : Seeded.run true pseudoStream cs ⟨seed, []⟩ = some (s, bs)) :
    ∃ w, SeedWorld.run (pseudoRngNew env) pseudoRng cs ⟨seed, []⟩ = .ok bs w ∧ w.seed = s.seed := by
  obtain ⟨w, h1, h2⟩ := (pseudoRng_class env).run cs (Seeded.rel_new hs) h
  exact ⟨w, h1, h2.seed⟩

/-- The same of `pseudo_rng_aes_ctr`. -/
theorem C106_pseudo_rng_aes_ctr_exact (env : Env) (junk : List W32) {seed : Bytes} (hs : 16 ≤ seed.length)
    {cs : List SeedCall} {s : Seeded} {bs : List Bytes}
    (h : Seeded.run true Spec.aesCtrStream cs ⟨seed, []⟩ = some (s, bs)) :
    ∃ w, SeedWorld.run (aesCtrRngNew env junk) (aesCtrRng Aes.encCipher) cs ⟨seed, []⟩ = .ok bs w ∧
      w.seed = s.seed := by
  obtain ⟨w, h1, h2⟩ := (aesCtrRng_class env junk).run cs (Seeded.rel_new hs) h
  exact ⟨w, h1, h2.seed⟩

/-! ### Programs that create all the generators before they wipe one -/

/-- Without new generators, what the string contains does not matter. -/
theorem Seeded.run_no_create {ks : Bytes → Nat → Byte} {cs : List SeedCall} :
    ∀ {a b : Bytes} {gs : List (Option (Bytes × Nat))} {s : Seeded} {bs : List Bytes},
      (∀ c ∈ cs, isCreate c = false) → Seeded.run false ks cs ⟨a, gs⟩ = some (s, bs) →
      ∃ s', Seeded.run true ks cs ⟨b, gs⟩ = some (s', bs) := by
  induction cs with
  | nil =>
    intro a b gs s bs _ h
    simp only [Seeded.run, Option.some.injEq, Prod.mk.injEq] at h
    obtain ⟨_, rfl⟩ := h
    exact ⟨_, rfl⟩
  | cons c cs ih =>
    intro a b gs s bs hc h
    have hcs := fun d hd => hc d (List.mem_cons_of_mem c hd)
    have hc0 := hc c List.mem_cons_self
    unfold Seeded.run at h ⊢
    cases c with
    | create => cases hc0
    | randomBytes i buf ofs len =>
      simp only [Seeded.step] at h ⊢
      cases hi : gs[i]? with
      | none => simp [hi] at h
      | some o =>
        cases o with
        | none => simp [hi] at h
        | some kp =>
          simp only [hi] at h ⊢
          by_cases hb : 0 ≤ len ∧ 0 ≤ ofs ∧ ofs + len ≤ buf.length
          · simp only [if_pos hb] at h ⊢
            split at h
            · cases h
            · rename_i s2 bs2 h2
              simp only [Option.some.injEq, Prod.mk.injEq] at h
              obtain ⟨rfl, rfl⟩ := h
              obtain ⟨s', e⟩ := ih (b := b) hcs h2
              exact ⟨s', by rw [e]⟩
          · simp [if_neg hb] at h
    | wipe i =>
      simp only [Seeded.step] at h ⊢
      cases hi : gs[i]? with
      | none => simp [hi] at h
      | some o =>
        cases o with
        | none => simp [hi] at h
        | some kp =>
          simp only [hi] at h ⊢
          split at h
          · cases h
          · rename_i s2 bs2 h2
            simp only [Option.some.injEq, Prod.mk.injEq] at h
            obtain ⟨rfl, rfl⟩ := h
            obtain ⟨s', e⟩ := ih (b := List.replicate b.length 0) hcs h2
            exact ⟨s', by simp only [if_true]; rw [e]⟩

/-- Before the first call of `wipe`, nothing is overwritten. -/
theorem Seeded.run_no_wipe {ks : Bytes → Nat → Byte} {cs cs' : List SeedCall} :
    ∀ {s s' : Seeded} {bs : List Bytes}, (∀ c ∈ cs, isWipe c = false) → (∀ c ∈ cs', isCreate c = false) →
      Seeded.run false ks (cs ++ cs') s = some (s', bs) →
      ∃ s'', Seeded.run true ks (cs ++ cs') s = some (s'', bs) ∧ (cs' = [] → s''.seed = s.seed) := by
  induction cs with
  | nil =>
    intro s s' bs _ hc h
    rw [List.nil_append] at h ⊢
    obtain ⟨s'', e⟩ := Seeded.run_no_create (b := s.seed) hc (show Seeded.run false ks cs' ⟨s.seed, s.gens⟩ = _ from h)
    refine ⟨s'', e, ?_⟩
    rintro rfl
    simp only [Seeded.run, Option.some.injEq, Prod.mk.injEq] at e
    obtain ⟨rfl, _⟩ := e
    rfl
  | cons c cs ih =>
    intro s s' bs hw hc h
    have hcs := fun d hd => hw d (List.mem_cons_of_mem c hd)
    have hc0 := hw c List.mem_cons_self
    rw [List.cons_append] at h ⊢
    unfold Seeded.run at h ⊢
    have e : s.step true ks c = s.step false ks c ∧ ∀ t b, s.step false ks c = some (t, b) → t.seed = s.seed := by
      cases c with
      | create =>
        refine ⟨rfl, ?_⟩
        intro t b ht
        simp only [Seeded.step, Option.some.injEq, Prod.mk.injEq] at ht
        obtain ⟨rfl, _⟩ := ht
        rfl
      | wipe i => cases hc0
      | randomBytes i buf ofs len =>
        refine ⟨rfl, ?_⟩
        intro t b ht
        simp only [Seeded.step] at ht
        split at ht
        · split at ht
          · simp only [Option.some.injEq, Prod.mk.injEq] at ht
            obtain ⟨rfl, _⟩ := ht
            rfl
          · cases ht
        · cases ht
    rw [e.1]
    cases h1 : s.step false ks c with
    | none => simp [h1] at h
    | some tb =>
      obtain ⟨t, b⟩ := tb
      simp only [h1] at h ⊢
      split at h
      · cases h
      · rename_i s2 bs2 h2
        simp only [Option.some.injEq, Prod.mk.injEq] at h
        obtain ⟨rfl, rfl⟩ := h
        obtain ⟨s3, e3, e4⟩ := ih hcs hc h2
        exact ⟨s3, by rw [e3], fun hn => (e4 hn).trans (e.2 _ _ h1)⟩

/-- C106 for `pseudo_rng`. Missing: programs that create a generator after they have wiped one. All the
generators deliver the stream of the seed, also after others have been wiped; the string is unchanged
as long as none is. -/
theorem C106_pseudo_rng_partial (env : Env) {seed : Bytes} (hs : 16 ≤ seed.length) {cs cs' : List SeedCall}
    (hw : ∀ c ∈ cs, isWipe c = false) (hc : ∀ c ∈ cs', isCreate c = false) {s : Seeded} {bs : List Bytes}
    (h : Seeded.run false pseudoStream (cs ++ cs') ⟨seed, []⟩ = some (s, bs)) :
    ∃ w, SeedWorld.run (pseudoRngNew env) pseudoRng (cs ++ cs') ⟨seed, []⟩ = .ok bs w ∧
      (cs' = [] → w.seed = seed) := by
  obtain ⟨s', h1, h2⟩ := Seeded.run_no_wipe hw hc h
  obtain ⟨w, h3, h4⟩ := C106_pseudo_rng_exact env hs h1
  exact ⟨w, h3, fun hn => h4.trans (h2 hn)⟩

/-- C106 for `pseudo_rng_aes_ctr`; missing: the same programs. -/
theorem C106_pseudo_rng_aes_ctr_partial (env : Env) (junk : List W32) {seed : Bytes} (hs : 16 ≤ seed.length)
    {cs cs' : List SeedCall} (hw : ∀ c ∈ cs, isWipe c = false) (hc : ∀ c ∈ cs', isCreate c = false)
    {s : Seeded} {bs : List Bytes} (h : Seeded.run false Spec.aesCtrStream (cs ++ cs') ⟨seed, []⟩ = some (s, bs)) :
    ∃ w, SeedWorld.run (aesCtrRngNew env junk) (aesCtrRng Aes.encCipher) (cs ++ cs') ⟨seed, []⟩ = .ok bs w ∧
      (cs' = [] → w.seed = seed) := by
  obtain ⟨s', h1, h2⟩ := Seeded.run_no_wipe hw hc h
  obtain ⟨w, h3, h4⟩ := C106_pseudo_rng_aes_ctr_exact env junk hs h1
  exact ⟨w, h3, fun hn => h4.trans (h2 hn)⟩

/-! ### The property does not hold of programs that create a generator after they have wiped one -/

/-- Create a generator, use it, wipe it, create another one from the same string, use it. -/
def SeedCall.again (r r' : RngRequest) : List SeedCall :=
  [.create, .randomBytes 0 r.buf r.ofs r.len, .wipe 0, .create, .randomBytes 1 r'.buf r'.ofs r'.len]

theorem Seeded.run_again (ks : Bytes → Nat → Byte) (erases : Bool) (seed : Bytes) (r r' : RngRequest)
    (hr : r.Legal) (hr' : r'.Legal) :
    Seeded.run erases ks (SeedCall.again r r') ⟨seed, []⟩
      = some (⟨if erases then List.replicate seed.length 0 else seed,
            [none, some (if erases then List.replicate seed.length 0 else seed, r'.len.toNat)]⟩,
          [[], splice r.buf r.ofs.toNat (streamBytes (ks seed) 0 r.len.toNat), [], [],
           splice r'.buf r'.ofs.toNat
            (streamBytes (ks (if erases then List.replicate seed.length 0 else seed)) 0 r'.len.toNat)]) := by
  obtain ⟨h1, h2, h3⟩ := hr
  obtain ⟨h4, h5, h6⟩ := hr'
  have e1 : 0 ≤ r.len ∧ 0 ≤ r.ofs ∧ r.ofs + r.len ≤ r.buf.length := by omega
  have e2 : 0 ≤ r'.len ∧ 0 ≤ r'.ofs ∧ r'.ofs + r'.len ≤ r'.buf.length := by omega
  simp [SeedCall.again, Seeded.run, Seeded.step, e1, e2]

/-- The second generator is that of the string of zeroes: whatever the seed, it delivers a stream that
only depends on the length of the seed and that everybody can compute. -/
theorem C106_pseudo_rng_predictable (env : Env) {seed : Bytes} (hs : 16 ≤ seed.length) (r r' : RngRequest)
    (hr : r.Legal) (hr' : r'.Legal) :
    ∃ w, SeedWorld.run (pseudoRngNew env) pseudoRng (SeedCall.again r r') ⟨seed, []⟩
        = .ok [[], splice r.buf r.ofs.toNat (streamBytes (pseudoStream seed) 0 r.len.toNat), [], [],
            splice r'.buf r'.ofs.toNat
              (streamBytes (pseudoStream (List.replicate seed.length 0)) 0 r'.len.toNat)] w ∧
      w.seed = List.replicate seed.length 0 :=
  C106_pseudo_rng_exact env hs (Seeded.run_again pseudoStream true seed r r' hr hr')

/-- The same of `pseudo_rng_aes_ctr`: the stream of the AES key 00...00. -/
theorem C106_pseudo_rng_aes_ctr_predictable (env : Env) (junk : List W32) {seed : Bytes} (hs : 16 ≤ seed.length)
    (r r' : RngRequest) (hr : r.Legal) (hr' : r'.Legal) :
    ∃ w, SeedWorld.run (aesCtrRngNew env junk) (aesCtrRng Aes.encCipher) (SeedCall.again r r') ⟨seed, []⟩
        = .ok [[], splice r.buf r.ofs.toNat (streamBytes (Spec.aesCtrStream seed) 0 r.len.toNat), [], [],
            splice r'.buf r'.ofs.toNat
              (streamBytes (Spec.aesCtrStream (List.replicate seed.length 0)) 0 r'.len.toNat)] w ∧
      w.seed = List.replicate seed.length 0 :=
  C106_pseudo_rng_aes_ctr_exact env junk hs (Seeded.run_again Spec.aesCtrStream true seed r r' hr hr')

namespace Example

def firstRequest : RngRequest := ⟨List.replicate 10 7, 2, 4⟩

theorem firstRequest_legal : firstRequest.Legal := ⟨by decide, by decide, by decide⟩

/-- Two generators, one of which is wiped while the other goes on. -/
def twoGenerators : List SeedCall := [.create, .create, .randomBytes 0 (List.replicate 10 7) 2 4]

def afterWipe : List SeedCall := [.wipe 0, .randomBytes 1 (List.replicate 3 1) 0 3, .randomBytes 1 [1, 2, 3] 1 2]

example : ∃ s bs, Seeded.run false pseudoStream (twoGenerators ++ afterWipe) ⟨rngSeed, []⟩ = some (s, bs) ∧
    ∃ w, SeedWorld.run (pseudoRngNew env64) pseudoRng (twoGenerators ++ afterWipe) ⟨rngSeed, []⟩ = .ok bs w := by
  obtain ⟨⟨s, bs⟩, h⟩ := Option.isSome_iff_exists.1
    (show (Seeded.run false pseudoStream (twoGenerators ++ afterWipe) ⟨rngSeed, []⟩).isSome by decide +kernel)
  obtain ⟨w, h', _⟩ := C106_pseudo_rng_partial env64 (seed := rngSeed) (by decide) (by decide) (by decide) h
  exact ⟨s, bs, h, w, h'⟩

example : ∃ s bs, Seeded.run false Spec.aesCtrStream (twoGenerators ++ afterWipe) ⟨rngSeed, []⟩ = some (s, bs) ∧
    ∃ w, SeedWorld.run (aesCtrRngNew env64 []) (aesCtrRng Aes.encCipher) (twoGenerators ++ afterWipe) ⟨rngSeed, []⟩
      = .ok bs w := by
  obtain ⟨⟨s, bs⟩, h⟩ := Option.isSome_iff_exists.1
    (show (Seeded.run false Spec.aesCtrStream (twoGenerators ++ afterWipe) ⟨rngSeed, []⟩).isSome by decide +kernel)
  obtain ⟨w, h', _⟩ := C106_pseudo_rng_aes_ctr_partial env64 [] (seed := rngSeed) (by decide) (by decide)
    (by decide) h
  exact ⟨s, bs, h, w, h'⟩

end Example

open Example in
/-- The program gets other bytes than the seed's. -/
theorem C106_pseudo_rng_fails (env : Env) :
    ∃ s bs, Seeded.run false pseudoStream (SeedCall.again firstRequest firstRequest) ⟨rngSeed, []⟩ = some (s, bs) ∧
      ∃ bs' w, SeedWorld.run (pseudoRngNew env) pseudoRng (SeedCall.again firstRequest firstRequest) ⟨rngSeed, []⟩
        = .ok bs' w ∧ bs' ≠ bs := by
  refine ⟨_, _, Seeded.run_again _ false _ _ _ firstRequest_legal firstRequest_legal, ?_⟩
  obtain ⟨w, h, _⟩ := C106_pseudo_rng_predictable env (seed := rngSeed) (by decide) firstRequest firstRequest
    firstRequest_legal firstRequest_legal
  exact ⟨_, w, h, by decide +kernel⟩

end Verif
