import Verif.Proof.Sim
import Verif.Props.C97_Uninit
/-
C97, stream ciphers and ChaCha20-Poly1305.
-/
namespace Verif

open Spec

variable {env env' : Env} {σ : Type}

/-- The effect of a checked stream cipher. -/
def checkedF (next : σ → Option (Byte × σ)) (s : σ) (b : Bytes) : Option (Bytes × σ × Option Exn) :=
  (keyLoop next s b).map fun r => (r.1, r.2, none)

theorem checked_det (next : σ → Option (Byte × σ)) (wipe : σ → σ) :
    StreamDet (checkedStream next wipe) (checkedF next) := by
  intro s src dst so dofs n hs hd
  have h := streamLoop_any next src n (s := s) hs hd
  have he : (checkedStream next wipe).transform (.other src) so dofs n (s, dst)
      = match keyLoop next s (slice src so n) with
        | none => .ub
        | some (o, s') => .ok () (s', splice dst dofs o) := by
    simp only [checkedStream, M.bind_def, M.get_def]
    rw [if_neg (by simp only [Src.read_other]; omega)]
    simp only [Int.toNat_natCast]
    exact h
  rw [he, checkedF]
  cases hk : keyLoop next s (slice src so n) with
  | none => rfl
  | some r =>
    refine ⟨?_, rfl⟩
    rw [keyLoop_length _ hk, slice_length_of_le hs]

theorem checked_bad (next : σ → Option (Byte × σ)) (wipe : σ → σ) : StreamBad (checkedStream next wipe) := by
  intro src so len hr
  right
  intro s dst dofs
  simp only [checkedStream, M.bind_def, M.get_def]
  rw [if_pos (by simp only [Src.read_other]; unfold InRange at hr; omega)]
  rfl

/-- The generator gives the same bytes from related states. -/
def SameNext (V : σ → σ → Prop) (next : σ → Option (Byte × σ)) : Prop :=
  ∀ s s', V s s' → SameOpt (fun r r' => r.1 = r'.1 ∧ V r.2 r'.2) (next s) (next s')

theorem keyLoop_same {V : σ → σ → Prop} {next : σ → Option (Byte × σ)} (h : SameNext V next) (b : Bytes) :
    ∀ {s s'}, V s s' → SameOpt (fun r r' => r.1 = r'.1 ∧ V r.2 r'.2) (keyLoop next s b) (keyLoop next s' b) := by
  induction b with
  | nil => intro s s' hs; exact ⟨rfl, hs⟩
  | cons x b ih =>
    intro s s' hs
    have a := h s s' hs
    rw [keyLoop, keyLoop]
    cases h1 : next s <;> cases h2 : next s' <;> rw [h1, h2] at a
    · trivial
    · exact a.elim
    · exact a.elim
    · rename_i r r'
      obtain ⟨a1, a2⟩ := a
      have c := ih a2
      simp only
      cases h3 : keyLoop next r.2 b <;> cases h4 : keyLoop next r'.2 b <;> rw [h3, h4] at c
      · trivial
      · exact c.elim
      · exact c.elim
      · simp only [SameOpt, a1, c.1, true_and]; exact c.2

theorem checked_same {V : σ → σ → Prop} {next : σ → Option (Byte × σ)} (h : SameNext V next) :
    SameEffect V (checkedF next) := by
  intro s s' b hs
  have a := keyLoop_same h b hs
  unfold checkedF
  cases h1 : keyLoop next s b <;> cases h2 : keyLoop next s' b <;> rw [h1, h2] at a
  · trivial
  · exact a.elim
  · exact a.elim
  · exact ⟨a.1, rfl, a.2⟩

/-- Two ChaCha20 contexts: the block of keystream has the same contents once it has been computed. -/
def ChaLike (c c' : ChaCha) : Prop :=
  c.input = c'.input ∧ c.next = c'.next ∧ c.ivLength = c'.ivLength ∧ (c.next < 64 → c.output = c'.output)

theorem chacha_same : SameNext ChaLike chachaNext := by
  rintro ⟨i, o, n, l⟩ ⟨i', o', n', l'⟩ ⟨h1, h2, h3, h4⟩
  simp only at h1 h2 h3 h4
  subst h1; subst h2; subst h3
  unfold chachaNext
  simp only
  by_cases hn : n ≥ 64
  · simp only [if_pos hn, chachaBlock]
    split
    · trivial
    · exact ⟨rfl, rfl, rfl, rfl, fun _ => rfl⟩
  · rw [h4 (by omega)]
    simp only [if_neg hn]
    split
    · trivial
    · exact ⟨rfl, rfl, rfl, rfl, fun _ => rfl⟩

/-- C97, `Cipher.arcfour`. -/
theorem C97_arcfour (he : SameMachine env env') (hm : 256 ≤ env.maxLen) (key : Bytes) (dir : Dir) :
    SameResult SameTransform (some (Cipher.arcfour env key dir)) (some (Cipher.arcfour env' key dir)) := by
  simp only [Cipher.arcfour]
  cases arcfourInit key with
  | error e => rfl
  | ok s =>
    simp only [Except.map, SameResult]
    intro cs
    refine trace_keep (stream_keep he (checked_det _ _) (checked_bad _ _) (checked_same (V := Eq) ?_)) cs
      (streamLike_init he hm rfl)
    rintro s s' rfl
    cases arcfourNext s with
    | none => trivial
    | some r => exact ⟨rfl, rfl⟩

theorem chacha_init_same (key : Bytes) (iv : Option Bytes) (ctr : Option W64) :
    SameResult ChaLike (some (chacha20Init env key iv ctr)) (some (chacha20Init env' key iv ctr)) := by
  unfold chacha20Init
  simp only
  split
  · rfl
  · cases iv with
    | none => exact ⟨rfl, rfl, rfl, fun h => absurd h (by simp [chachaInit])⟩
    | some s =>
      simp only
      split
      · exact ⟨rfl, rfl, rfl, fun h => absurd h (by simp [chachaInit])⟩
      · rfl

/-- C97, `Cipher.chacha20`. -/
theorem C97_chacha20 (he : SameMachine env env') (hm : 256 ≤ env.maxLen) (iv : Option Bytes) (ctr : Option W64)
    (key : Bytes) (dir : Dir) :
    SameResult SameTransform (some (Cipher.chacha20 env iv ctr key dir))
      (some (Cipher.chacha20 env' iv ctr key dir)) := by
  have h := chacha_init_same (env := env) (env' := env') key iv ctr
  simp only [Cipher.chacha20]
  cases h1 : chacha20Init env key iv ctr <;> cases h2 : chacha20Init env' key iv ctr <;> rw [h1, h2] at h
  · simpa only [Except.map, SameResult] using h
  · exact h.elim
  · exact h.elim
  · simp only [Except.map, SameResult]
    intro cs
    exact trace_keep (stream_keep he (checked_det _ _) (checked_bad _ _) (checked_same chacha_same)) cs
      (streamLike_init he hm h)

/-! ### ChaCha20-Poly1305 -/

/-- Two states of the authenticated cipher. -/
structure ChaPolyLike (s s' : ChaPolySt) : Prop where
  cha : ChaLike s.cha s'.cha
  h : SameCtx 16 s.h s'.h
  header : s.headerlen = s'.headerlen
  cipher : s.cipherlen = s'.cipherlen

theorem polyUpdate_same {h h' : PolyCtx} (hh : SameCtx 16 h h') (src : Bytes) (ofs len : Int) :
    SameOpt (SameCtx 16) (polyUpdate h src ofs len) (polyUpdate h' src ofs len) := by
  unfold polyUpdate
  split
  · trivial
  · cases cRead src ofs len.toNat with
    | none => trivial
    | some m => exact mdAdd_same (by decide) hh m

theorem polyUpdatePad_same {h h' : PolyCtx} (hh : SameCtx 16 h h') (n : Nat) :
    SameOpt (SameCtx 16) (polyUpdatePad h n) (polyUpdatePad h' n) := by
  unfold polyUpdatePad
  simp only
  split
  · exact polyUpdate_same hh _ _ _
  · exact hh

theorem chapolyEnc_same (n : Nat) : SameEffect ChaPolyLike (chapolyEncAny n) := by
  intro s s' b hs
  have a := keyLoop_same chacha_same b hs.cha
  simp only [chapolyEncAny]
  cases h1 : keyLoop chachaNext s.cha b <;> cases h2 : keyLoop chachaNext s'.cha b <;> rw [h1, h2] at a
  · trivial
  · exact a.elim
  · exact a.elim
  · rename_i r r'
    obtain ⟨o, c⟩ := r
    obtain ⟨o', c'⟩ := r'
    obtain ⟨a1, a2⟩ := a
    simp only at a1 a2
    subst a1
    have u := mdAdd_same (via := false) (tr := poly64Block) (by decide) hs.h o
    simp only [poly64Update]
    cases h3 : mdAdd 16 false poly64Block s.h o <;> cases h4 : mdAdd 16 false poly64Block s'.h o <;> rw [h3, h4] at u
    · trivial
    · exact u.elim
    · exact u.elim
    · simp only [hs.cipher, true_and]
      exact ⟨a2, u, hs.header, rfl⟩

theorem chapolyDec_same : SameEffect ChaPolyLike chapolyDecAny := by
  intro s s' b hs
  have a := keyLoop_same chacha_same b hs.cha
  have u := mdAdd_same (via := false) (tr := poly64Block) (by decide) hs.h b
  simp only [chapolyDecAny, poly64Update]
  cases h3 : mdAdd 16 false poly64Block s.h b <;> cases h4 : mdAdd 16 false poly64Block s'.h b <;> rw [h3, h4] at u
  · trivial
  · exact u.elim
  · exact u.elim
  · simp only
    cases h1 : keyLoop chachaNext s.cha b <;> cases h2 : keyLoop chachaNext s'.cha b <;> rw [h1, h2] at a
    · trivial
    · exact a.elim
    · exact a.elim
    · exact ⟨a.1, rfl, a.2, u, hs.header, by simp only [hs.cipher]⟩

theorem poly64Final_same {c c' : PolyCtx} (h : SameCtx 16 c c') :
    SameOpt (fun r r' => r.1 = r'.1 ∧ SameCtx 16 r.2 r'.2) (poly64Final c) (poly64Final c') := by
  obtain ⟨a, i, b⟩ := c
  obtain ⟨a', i', b'⟩ := c'
  obtain ⟨h1, h2, h3, h4, h5, h6⟩ := h
  simp only at h1 h2 h3 h4 h5 h6
  subst h1; subst h2
  unfold poly64Final
  simp only
  by_cases h0 : i ≠ 0
  · simp only [if_pos h0]
    have w := write_same (x := [1]) h4 h5 h3 h6
    cases e1 : cWrite b i [1] <;> cases e2 : cWrite b' i [1] <;> rw [e1, e2] at w
    · trivial
    · exact w.elim
    · exact w.elim
    · rename_i d d'
      obtain ⟨w1, w2, w3, w4⟩ := w
      simp only [List.length_singleton] at w3 w4
      have v := write_same (x := List.replicate (16 - (i + 1)) 0) w1 w2 w4 w3
      simp only [Option.bind_eq_bind, Option.bind_some]
      cases e3 : cWrite d (i + 1 : Nat) (List.replicate (16 - (i + 1)) 0) <;>
        cases e4 : cWrite d' (i + 1 : Nat) (List.replicate (16 - (i + 1)) 0) <;> rw [e3, e4] at v
      · trivial
      · exact v.elim
      · exact v.elim
      · obtain ⟨v1, v2, v3, v4⟩ := v
        simp only [List.length_replicate] at v3 v4
        obtain rfl := take_all v1 v2 (by omega) v3
        exact ⟨rfl, rfl, rfl, h3, v1, v1, rfl⟩
  · simp only [if_neg h0]
    exact ⟨rfl, rfl, rfl, h3, h4, h5, h6⟩

theorem polyTag_same : Keep ChaPolyLike (polyFinishAndGetTag env) (polyFinishAndGetTag env') := by
  intro s s' hs
  obtain ⟨b1, e2, e3⟩ := setInt64LE_two (env.create 16) (by simp) s'.headerlen s'.cipherlen
  obtain ⟨b1', e2', e3'⟩ := setInt64LE_two (env'.create 16) (by simp) s'.headerlen s'.cipherlen
  simp only [polyFinishAndGetTag, M.bind_def, M.get_def, hs.header, hs.cipher]
  have p := polyUpdatePad_same hs.h (s'.cipherlen.toNat % 16)
  cases h1 : polyUpdatePad s.h (s'.cipherlen.toNat % 16) <;> cases h2 : polyUpdatePad s'.h (s'.cipherlen.toNat % 16) <;>
    rw [h1, h2] at p
  · trivial
  · exact p.elim
  · exact p.elim
  · simp only [M.orUB_some, e2, e3, e2', e3', M.orRaise_some]
    have u := polyUpdate_same p (toLE64 s'.headerlen ++ toLE64 s'.cipherlen) 0 16
    rename_i g g'
    cases h3 : polyUpdate g (toLE64 s'.headerlen ++ toLE64 s'.cipherlen) 0 16 <;>
      cases h4 : polyUpdate g' (toLE64 s'.headerlen ++ toLE64 s'.cipherlen) 0 16 <;> rw [h3, h4] at u
    · trivial
    · exact u.elim
    · exact u.elim
    · rename_i f f'
      simp only [M.orUB_some]
      have l := poly64Final_same u
      cases h5 : poly64Final f <;> cases h6 : poly64Final f' <;> rw [h5, h6] at l
      · trivial
      · exact l.elim
      · exact l.elim
      · exact ⟨l.1, hs.cha, l.2, hs.header, hs.cipher⟩

theorem streamLoop_sim {V : σ → σ → Prop} {next : σ → Option (Byte × σ)} (h : SameNext V next) (src : Src) (n : Nat) :
    ∀ (so dofs : Int), Keep (fun (p p' : σ × Bytes) => V p.1 p'.1 ∧ p.2 = p'.2) (streamLoop next src so dofs n)
      (streamLoop next src so dofs n) := by
  induction n with
  | zero => exact fun _ _ _ _ h => ⟨rfl, h⟩
  | succ n ih =>
    rintro so dofs ⟨s, d⟩ ⟨s', d'⟩ ⟨hs, hd⟩
    simp only at hs hd
    subst hd
    have a := h s s' hs
    rw [streamLoop, M.bind_ok (M.get_def _), M.bind_ok (M.get_def _)]
    simp only
    cases h1 : next s <;> cases h2 : next s' <;> rw [h1, h2] at a
    · trivial
    · exact a.elim
    · exact a.elim
    · rename_i r r'
      obtain ⟨a1, a2⟩ := a
      simp only [M.bind_def, M.orUB_some, a1]
      cases cRead (src.read d) so 1 with
      | none => trivial
      | some x =>
        simp only [M.orUB_some]
        cases cWrite d dofs (x.map (· ^^^ r'.1)) with
        | none => trivial
        | some d' =>
          simp only [M.orUB_some, M.modify_def]
          exact ih _ _ _ _ ⟨a2, rfl⟩

theorem chachaLocal_same (b : Bytes) : Keep ChaLike (chachaLocal b) (chachaLocal b) := by
  intro s s' hs
  have a : Sim (fun _ (p p' : ChaCha × Bytes) => ChaLike p.1 p'.1 ∧ p.2 = p'.2) (fun p p' => ChaLike p.1 p'.1 ∧ p.2 = p'.2)
      (chacha20.transform .self 0 0 64 (s, b)) (chacha20.transform .self 0 0 64 (s', b)) := by
    simp only [chacha20, checkedStream, M.bind_def, M.get_def]
    by_cases hc : (64 : Int) < 0 ∨ (0 : Int) < 0 ∨ (0 : Int) > ((Src.self.read b).length : Int) - 64 ∨ (0 : Int) < 0
        ∨ (0 : Int) > (b.length : Int) - 64
    · simp only [if_pos hc]; exact ⟨rfl, hs, rfl⟩
    · simp only [if_neg hc]
      exact streamLoop_sim chacha_same .self _ _ _ (s, b) (s', b) ⟨hs, rfl⟩
  unfold chachaLocal
  cases h1 : chacha20.transform .self 0 0 64 (s, b) <;> cases h2 : chacha20.transform .self 0 0 64 (s', b) <;>
    rw [h1, h2] at a <;> first
    | exact a.elim
    | exact ⟨a.2.2, a.2.1⟩
    | exact ⟨a.1, a.2.1⟩
    | trivial

theorem chapolyInit_same (header iv key : Bytes) :
    SameResult ChaPolyLike (built (chapolyInit env header iv key)) (built (chapolyInit env' header iv key)) := by
  have h := chacha_init_same (env := env) (env' := env') key (some iv) none
  unfold chapolyInit
  cases h1 : chacha20Init env key (some iv) none <;> cases h2 : chacha20Init env' key (some iv) none <;> rw [h1, h2] at h
  · exact h
  · exact h.elim
  · exact h.elim
  · rename_i c c'
    have hp : SameResult (fun r r' : PolyCtx × ChaCha => SameCtx 16 r.1 r'.1 ∧ ChaLike r.2 r'.2)
        (match polyInitHash env header c with
          | .ok h cha => some (.ok (h, cha))
          | .exn e _ => some (.error e)
          | .ub => none
          | .loop => none)
        (match polyInitHash env' header c' with
          | .ok h cha => some (.ok (h, cha))
          | .exn e _ => some (.error e)
          | .ub => none
          | .loop => none) := by
      have a := chachaLocal_same (List.replicate 64 0) c c' h
      simp only [polyInitHash, M.bind_def]
      cases e1 : chachaLocal (List.replicate 64 0) c <;> cases e2 : chachaLocal (List.replicate 64 0) c' <;>
        rw [e1, e2] at a <;> first
        | exact a.elim
        | exact a.1
        | trivial
        | skip
      obtain ⟨a1, a2⟩ := a
      simp only [a1]
      rename_i x _ y _
      have p := polyUpdate_same (sameCtx_init (n := 16) (poly64Init (y.take 32) []).h (b := env.create 16)
        (b' := env'.create 16) (by simp) (by simp)) header 0 header.length
      change SameOpt (SameCtx 16) (polyUpdate (poly64Init (y.take 32) (env.create 16)) header 0 header.length)
        (polyUpdate (poly64Init (y.take 32) (env'.create 16)) header 0 header.length) at p
      cases h3 : polyUpdate (poly64Init (y.take 32) (env.create 16)) header 0 header.length <;>
        cases h4 : polyUpdate (poly64Init (y.take 32) (env'.create 16)) header 0 header.length <;> rw [h3, h4] at p
      · trivial
      · exact p.elim
      · exact p.elim
      · rename_i g g'
        simp only [M.orUB_some]
        have u := polyUpdatePad_same p (header.length % 16)
        cases h5 : polyUpdatePad g (header.length % 16) <;> cases h6 : polyUpdatePad g' (header.length % 16) <;>
          rw [h5, h6] at u
        · trivial
        · exact u.elim
        · exact u.elim
        · exact ⟨u, a2⟩
    simp only
    cases e1 : polyInitHash env header c <;> cases e2 : polyInitHash env' header c' <;> rw [e1, e2] at hp <;> first
      | exact hp.elim
      | exact hp
      | exact ⟨hp.2, hp.1, rfl, rfl⟩

/-- C97, `AEAD.chacha20_poly1305`. -/
theorem C97_chacha20_poly1305 (he : SameMachine env env') (hm : 256 ≤ env.maxLen) (header iv key : Bytes) (dir : Dir) :
    SameResult (fun t t' => SameAuth ⟨chacha20Poly1305 env iv.length dir, t⟩ ⟨chacha20Poly1305 env' iv.length dir, t'⟩)
      (built (chacha20Poly1305Init env header iv key)) (built (chacha20Poly1305Init env' header iv key)) := by
  have h := chapolyInit_same (env := env) (env' := env') header iv key
  unfold chacha20Poly1305Init
  cases e1 : chapolyInit env header iv key <;> cases e2 : chapolyInit env' header iv key <;> rw [e1, e2] at h <;> first
    | exact h.elim
    | exact h
    | skip
  intro cs
  have hf : Keep (StreamLike env env' ChaPolyLike) (chapolyFinish env) (chapolyFinish env') := fun t t' ht =>
    Sim.zoom (polyTag_same _ _ ht.1) (fun _ _ _ x => ⟨x, ht.2.1, ht.2.2.1, ht.2.2.2⟩)
      fun _ _ x => ⟨x, ht.2.1, ht.2.2.1, ht.2.2.2⟩
  refine traceBy_keep (fun x => ?_) cs (streamLike_init he hm h)
  cases dir with
  | encrypt =>
    cases x with
    | call c => exact stream_keep he (chapolyEnc_det _) (chapolyEnc_bad _) (chapolyEnc_same _) c
    | finishAndGetTag => exact hf
  | decrypt =>
    cases x with
    | call c => exact stream_keep he chapolyDec_det chapolyDec_bad chapolyDec_same c
    | finishAndGetTag => exact hf

open Example in
/-- The ciphers are made. -/
example : ∃ A B, Cipher.arcfour env64 key .encrypt = .ok A ∧ Cipher.arcfour envA5 key .encrypt = .ok B
    ∧ SameTransform A B := by
  have hi := arcfourInit_at (key := key) (by decide) (by decide)
  have h := C97_arcfour same_A5 (by decide) key .encrypt
  have h1 : ∀ env, Cipher.arcfour env key .encrypt
      = .ok ⟨streamTransform env arcfour, streamInit env (arcfourCookKey key)⟩ := fun env => by
    simp only [Cipher.arcfour, hi.1, Except.map]
  rw [h1, h1] at h
  exact ⟨_, _, h1 _, h1 _, h⟩

open Example in
example := C97_chacha20 same_A5 (by decide) (some (List.replicate 12 9)) (some 7) (List.replicate 32 1) .decrypt

open Example in
/-- The objects are made on both machines. -/
example (iv key : Bytes) (hi : iv.length = 12) (hk : key.length = 32) :
    ∃ t t', built (chacha20Poly1305Init env64 [1] iv key) = some (.ok t)
    ∧ built (chacha20Poly1305Init envA5 [1] iv key) = some (.ok t')
    ∧ SameAuth ⟨chacha20Poly1305 env64 iv.length .decrypt, t⟩ ⟨chacha20Poly1305 envA5 iv.length .decrypt, t'⟩ := by
  have h := C97_chacha20_poly1305 same_A5 (show 256 ≤ env64.maxLen by decide) [1] iv key .decrypt
  have mk : ∀ env, ∃ t, built (chacha20Poly1305Init env [1] iv key) = some (.ok t) := by
    intro env
    obtain ⟨st, e0, _⟩ := chapolyInit_ok (.inr hk) (.inr hi) env [1]
    exact ⟨streamInit env st, by rw [e0]; rfl⟩
  obtain ⟨t, ht⟩ := mk env64
  obtain ⟨t', ht'⟩ := mk envA5
  rw [ht, ht'] at h
  exact ⟨t, t', ht, ht', h⟩

end Verif
