import Verif.Proof.Gc
/-
C66: creating a context uses the key passed by the caller even if the allocation of the context
triggers a garbage collection that moves the key. True of all stubs but two.
-/
namespace Verif
open Gc Spec

/-- C66: AES key schedules, with or without AES-NI, for every behaviour of the collector. -/
theorem C66_aes (junk : List W32) (junk' pad k : Bytes) :
    Creates (aesCookEncrypt junk) .ckey [(.key, .str k)] (.ctx (Aes.cookEnc junk k)) ∧
    Creates (aesCookDecrypt junk) .ckey [(.key, .str k)] (.ctx (Aes.cookDec junk k)) ∧
    (∀ c, Aesni.cookEnc junk' k pad = some c →
      Creates (aesniCookEncrypt junk' pad) .ckey [(.key, .str k)] (.ctx c)) ∧
    (∀ c, Aesni.cookDec junk' k pad = some c →
      Creates (aesniCookDecrypt junk' pad) .ckey [(.key, .str k)] (.ctx c)) := by
  refine ⟨?_, ?_, fun c hc => ?_, fun c hc => ?_⟩ <;>
    refine creates_of_init rfl (by simp) (by simp) (by simp) ?_ <;> simp [*]

/-- C66: DES, Blowfish and ARCfour key schedules. -/
theorem C66_des_blowfish_arcfour (k : Bytes) :
    (∀ ofs dir c, Des.camlCookKey k ofs dir = some c →
      Creates (desCookKey ofs dir) .ckey [(.key, .str k)] (.ctx c)) ∧
    Creates blowfishCookKey .ckey [(.key, .str k)] (.ctx (Blowfish.init k)) ∧
    Creates Gc.arcfourCookKey .ckey [(.key, .str k)] (.ctx (Verif.arcfourCookKey k)) := by
  refine ⟨fun ofs dir c hc => ?_, ?_, ?_⟩ <;>
    refine creates_of_init rfl (by simp) (by simp) (by simp) ?_ <;> simp [*]

/-- C66: ChaCha20 contexts use the key, the IV and the boxed counter of the caller. -/
theorem C66_chacha20 (env : Env) (k iv : Bytes) (n : W64) :
    Creates (chacha20CookKey env) .ckey [(.key, .str k), (.iv, .str iv), (.counter, .int64 n)]
      (.ctx (chachaInit env k iv n)) :=
  creates_of_init rfl (by simp) (by simp) (by simp) rfl

/-- C66: BLAKE2b, BLAKE2s, BLAKE3 and Poly1305 contexts. -/
theorem C66_keyed_hashes {w : Nat} (p : Blake2Code w) (hashlen : Nat) (buf0 stack0 k : Bytes) :
    (∀ c, blake2Init p hashlen k buf0 = some c →
      Creates (blake2InitStub p hashlen buf0) .ctx [(.key, .str k)] (.ctx c)) ∧
    Creates (blake3InitStub stack0) .res [(.key, .str k)] (.ctx (b3Init k stack0)) ∧
    Creates (poly1305InitStub buf0) .ctx [(.key, .str k)] (.ctx (poly64Init k buf0)) := by
  refine ⟨fun c hc => ?_, ?_, ?_⟩ <;>
    refine creates_of_init rfl (by simp) (by simp) (by simp) ?_ <;> simp [*]

/-- C66, for the results: the hash of a context is that of the context passed by the caller, and the
caller sees the state of the context afterwards. -/
theorem C66_results :
    (∀ c d c', sha1Finish c = some (d, c') → Finishes sha1FinalStub c (.str d) c') ∧
    (∀ c d c', rmdFinish c = some (d, c') → Finishes ripemd160FinalStub c (.str d) c') ∧
    (∀ (w : Nat) (p : Sha2Code w) k c d c', sha2Finish p k c = some (d, c') →
      Finishes (sha2FinalStub p k) c (.str d) c') ∧
    (∀ padding c d c', sha3Extract padding c = some (d, c') →
      Finishes (sha3ExtractStub padding) c (.str d) c') ∧
    (∀ (w : Nat) (p : Blake2Code w) n c d c', blake2Final p n c = some (d, c') →
      Finishes (blake2FinalStub p n) c (.str d) c') ∧
    (∀ c n d, b3Finalize c n = some d → Finishes (blake3ExtractStub n) c (.str d) c) ∧
    (∀ c d c', poly64Final c = some (d, c') → Finishes poly1305FinalStub c (.str d) c') ∧
    (∀ n c d c', sipFinal n c = some (d, c') → Finishes (siphashFinal n) c (.str d) c') := by
  refine ⟨fun c d c' h => ?_, fun c d c' h => ?_, fun w p k c d c' h => ?_, fun pd c d c' h => ?_,
    fun w p k c d c' h => ?_, fun c n d h => ?_, fun c d c' h => ?_, fun n c d c' h => ?_⟩
  case refine_6 => exact finishes_of_extract (by simp [h])
  all_goals exact finishes_of_final (by simp [h]) (by simp [h])

/-- C66, MD5: like the other hashes. -/
theorem C66_md5 (E : Md5Engine γ) :
    Creates (md5InitStub E) .ctx [] (.ctx (md5Init E)) ∧
    ∀ c d c', md5Final E c = some (d, c') → Finishes (md5FinalStub E) c (.str d) c' :=
  ⟨creates_of_keyless (by simp) rfl, fun c d c' h => finishes_of_final (by simp [h]) (by simp [h])⟩

/-- C66, hash contexts that are created without a key: nothing else than the new block changes. -/
theorem C66_keyless (buf0 : Bytes) (sz : Nat) :
    Creates (sha1InitStub buf0) .ctx [] (.ctx (sha1Init buf0)) ∧
    Creates (ripemd160InitStub buf0) .ctx [] (.ctx (rmdInit buf0)) ∧
    (∀ (w : Nat) (init : Bytes → Sha2Ctx w), Creates (sha2InitStub init buf0) .ctx [] (.ctx (init buf0))) ∧
    Creates (sha3InitStub sz buf0) .res [] (.ctx (sha3InitC sz buf0)) :=
  ⟨creates_of_keyless (by simp) rfl, creates_of_keyless (by simp) rfl,
    fun _ _ => creates_of_keyless (by simp) rfl, creates_of_keyless (by simp) rfl⟩

/-- What remains of C66 for `caml_siphash_init`: it uses the caller's key if the collector leaves the
key where it is. Missing: the collections that move it, for which `C66_siphash_moved` shows that the
property fails. -/
theorem C66_siphash_partial (outlen : Nat) (buf0 k : Bytes) (s : State SipCtx) (ρ : Addr → Addr)
    (a : Addr) (r) (ha : s.env .key = some a) (hk : s.heap a = some (.str k))
    (hlive : s.Live a) (hr : .key ∉ s.roots) (hstay : ρ a = a)
    (h : Exec [ρ] (siphashInit outlen buf0) s r) :
    ∃ s', r = some s' ∧ s'.read .ctx = some (.ctx (sipInit k outlen buf0)) := by
  cases h with
  | alloc hc hf h => ?_
  rename_i s1 b x
  have h1 : s1.env .key = some a := by rw [hc.unrooted _ hr, ha]
  have h2 : s1.heap a = some (.str k) := by rw [← hk, ← hc.heap a hlive, hstay]
  have hab : a ≠ b := fun e => by rw [e, hf] at h2; exact nomatch h2
  cases h with
  | readBad hb => simp [State.read, h1, h2, hab] at hb
  | writeBad hb => simp [State.read] at hb
  | write e1 e2 e3 e4 e5 => ?_
  cases e5
  refine ⟨_, rfl, ?_⟩
  simp [State.read, h1, h2, hab] at e1
  simp at e3
  subst e1 e3
  rw [← e2]
  simp [State.read]

/-- What remains of C66 for `caml_ghash_init` without PCLMUL, likewise. Missing: the collections that
move the key, for which `C66_ghash_moved` shows that the property fails. -/
theorem C66_ghash_partial (k : Bytes) (hlen : 16 ≤ k.length) (s : State GhashCtx) (ρ : Addr → Addr)
    (a : Addr) (r) (ha : s.env .key = some a) (hk : s.heap a = some (.str k))
    (hlive : s.Live a) (hr : .key ∉ s.roots) (hstay : ρ a = a)
    (h : Exec [ρ] ghashInitStub s r) :
    ∃ s', r = some s' ∧ s'.read .res = some (.ctx (ghashInit k)) := by
  cases h with
  | alloc hc hf h => ?_
  rename_i s1 b x
  have h1 : s1.env .key = some a := by rw [hc.unrooted _ hr, ha]
  have h2 : s1.heap a = some (.str k) := by rw [← hk, ← hc.heap a hlive, hstay]
  have hab : a ≠ b := fun e => by rw [e, hf] at h2; exact nomatch h2
  cases h with
  | readBad hb => simp [State.read, h1, h2, hab] at hb; omega
  | writeBad hb => simp [State.read] at hb
  | write e1 e2 e3 e4 e5 => ?_
  cases e5
  refine ⟨_, rfl, ?_⟩
  simp [State.read, h1, h2, hab] at e1
  simp at e3
  subst e1 e3
  rw [← e2]
  simp [State.read, hlen]

/-- The heap of an OCaml program that holds a string, and calls a stub on it. -/
def holding (γ : Type) (k : Bytes) : State γ where
  heap b := if b = 1 then some (.str k) else none
  env v := if v = .key ∨ v = .caller 0 then some 1 else none
  roots := [.caller 0]

theorem holding_live {k : Bytes} {b : Addr} : (holding γ k).Live b ↔ b = 1 := by
  constructor
  · rintro ⟨v, hv, h⟩
    simp only [holding, List.mem_singleton] at hv h
    subst hv
    simpa using h.symm
  · rintro rfl
    exact ⟨.caller 0, by simp [holding], by simp [holding]⟩

theorem holding_called (k : Bytes) : CalledFromOCaml (holding γ k) := by
  intro v hv
  simp only [holding, List.mem_singleton] at hv
  subst hv
  exact ⟨⟨0, rfl⟩, by simp [State.read, holding]⟩

/-- The same heap after a collection that moved the string; `old` is now where it was. -/
def holdingMoved (k : Bytes) (old : Option (Obj γ)) : State γ where
  heap b := if b = 2 then some (.str k) else if b = 1 then old else none
  env v := if v = .key then some 1 else if v = .caller 0 then some 2 else none
  roots := [.caller 0]

theorem holding_moves (k : Bytes) (old : Option (Obj γ)) :
    Collect (fun _ => 2) (holding γ k) (holdingMoved k old) where
  inj a b ha hb _ := by rw [holding_live.1 ha, holding_live.1 hb]
  heap a ha := by rw [holding_live.1 ha]; simp [holding, holdingMoved]
  rooted v hv := by
    simp only [holding, List.mem_singleton] at hv
    subst hv
    simp [holding, holdingMoved]
  unrooted v hv := by
    simp only [holding, List.mem_singleton] at hv
    simp [holding, holdingMoved, hv]
  roots := rfl

/-- C66 fails for `caml_siphash_init`: if the collection moves the key, which the caller still holds,
the context may be that of any other key `k'`, or the stub may access invalid memory. -/
theorem C66_siphash_moved (outlen : Nat) (buf0 k k' : Bytes) :
    ∃ moves, CalledFromOCaml (holding SipCtx k) ∧ (holding SipCtx k).read .key = some (.str k) ∧
      (∃ s', Exec moves (siphashInit outlen buf0) (holding _ k) (some s') ∧
        s'.read .ctx = some (.ctx (sipInit k' outlen buf0))) ∧
      Exec moves (siphashInit outlen buf0) (holding _ k) none := by
  refine ⟨[fun _ => 2], holding_called k, by simp [State.read, holding], ⟨_, Exec.alloc (a := 3) (x := .str [])
    (holding_moves k (some (.str k'))) (by simp [holdingMoved])
    (Exec.write (a := 3) (xs := [.str k']) (y := .ctx (sipInit k' outlen buf0)) (by simp [State.read, holdingMoved]) rfl (by simp) (by simp) .done), ?_⟩, ?_⟩
  · simp [State.read]
  · exact Exec.alloc (a := 3) (x := .str []) (holding_moves k none) (by simp [holdingMoved])
      (Exec.readBad (by simp [State.read, holdingMoved]))

/-- C66 fails for `caml_ghash_init` without PCLMUL, in the same way. -/
theorem C66_ghash_moved (k k' : Bytes) (hk' : 16 ≤ k'.length) :
    ∃ moves, CalledFromOCaml (holding GhashCtx k) ∧ (holding GhashCtx k).read .key = some (.str k) ∧
      (∃ s', Exec moves ghashInitStub (holding _ k) (some s') ∧
        s'.read .res = some (.ctx (ghashInit k'))) ∧
      Exec moves ghashInitStub (holding _ k) none := by
  refine ⟨[fun _ => 2], holding_called k, by simp [State.read, holding], ⟨_, Exec.alloc (a := 3) (x := .str [])
    (holding_moves k (some (.str k'))) (by simp [holdingMoved])
    (Exec.write (a := 3) (xs := [.str k']) (y := .ctx (ghashInit k')) (by simp [State.read, holdingMoved]) (by simp; omega) (by simp) (by simp) .done), ?_⟩, ?_⟩
  · simp [State.read]
  · exact Exec.alloc (a := 3) (x := .str []) (holding_moves k none) (by simp [holdingMoved])
      (Exec.readBad (by simp [State.read, holdingMoved]))

/-- Hence `caml_siphash_init` does not create its context from the caller's key. -/
theorem C66_siphash_unrooted (outlen : Nat) (buf0 k : Bytes) :
    ¬ Creates (siphashInit outlen buf0) .ctx [(.key, .str k)] (.ctx (sipInit k outlen buf0)) := by
  intro h
  obtain ⟨moves, h1, h2, _, h3⟩ := C66_siphash_moved outlen buf0 k k
  obtain ⟨s', e, _⟩ := h _ moves none h1 (by simpa using h2) h3
  exact nomatch e

/-- Hence `caml_ghash_init` without PCLMUL does not create its context from the caller's key. -/
theorem C66_ghash_unrooted (k : Bytes) (hk : 16 ≤ k.length) :
    ¬ Creates ghashInitStub .res [(.key, .str k)] (.ctx (ghashInit k)) := by
  intro h
  obtain ⟨moves, h1, h2, _, h3⟩ := C66_ghash_moved k k hk
  obtain ⟨s', e, _⟩ := h _ moves none h1 (by simpa using h2) h3
  exact nomatch e

/-! ### The hypotheses are met -/

/-- A run of `caml_blowfish_cook_key` during which the key is moved and its place reused. -/
example (k k' : Bytes) : ∃ s', Exec [fun _ => 2] blowfishCookKey (holding _ k) (some s') ∧
    s'.read .ckey = some (.ctx (Blowfish.init k)) ∧ s'.env (.caller 0) = some 2 := by
  have hc : Collect (fun _ => 2) { holding Blowfish.Ctx k with roots := [.key] ++ (holding Blowfish.Ctx k).roots }
      ⟨fun b => if b = 2 then some (.str k) else if b = 1 then some (.str k') else none,
       fun v => if v = .key ∨ v = .caller 0 then some 2 else none, [.key, .caller 0]⟩ := by
    have hl : ∀ b, State.Live { holding Blowfish.Ctx k with roots := [.key] ++ (holding Blowfish.Ctx k).roots } b → b = 1 := by
      rintro b ⟨v, hv, h⟩
      simp only [holding] at h
      by_cases hv' : v = .key ∨ v = .caller 0
      · rw [if_pos hv'] at h; exact (Option.some.inj h).symm
      · rw [if_neg hv'] at h; exact nomatch h
    refine ⟨fun a b ha hb _ => by rw [hl a ha, hl b hb], fun a ha => ?_, fun v hv => ?_, fun v hv => ?_, rfl⟩
    · rw [hl a ha]; simp [holding]
    · simp [holding] at hv
      simp [holding, hv]
    · simp [holding] at hv
      simp [holding, hv]
  refine ⟨_, Exec.register (Exec.alloc (a := 3) (x := .str []) hc (by simp)
    (Exec.write (a := 3) (xs := [.str k]) (y := .ctx (Blowfish.init k)) (by simp [State.read]) rfl (by simp) (by simp) .done)), ?_, ?_⟩
  · simp [State.read]
  · simp

/-- A run of `caml_siphash_init` during which nothing moves. -/
example (k : Bytes) : ∃ r, Exec [id] (siphashInit 8 []) (holding _ k) r ∧
    (holding SipCtx k).env .key = some 1 ∧ (holding SipCtx k).heap 1 = some (.str k) ∧
    (holding SipCtx k).Live 1 ∧ Var.key ∉ (holding SipCtx k).roots := by
  have hc : Collect id (holding SipCtx k) (holding SipCtx k) :=
    ⟨fun a b _ _ h => h, fun a _ => rfl, fun v _ => by simp, fun v _ => rfl, rfl⟩
  refine ⟨_, Exec.alloc (a := 3) (x := .str []) hc (by simp [holding])
    (Exec.write (a := 3) (xs := [.str k]) (y := .ctx (sipInit k 8 [])) (by simp [State.read, holding]) rfl
      (by simp) (by simp) .done), ?_, ?_, holding_live.2 rfl, ?_⟩ <;> simp [holding]

/-- A run of `caml_poly1305_final` on a context that the caller holds, and that is moved. -/
example (c c' : PolyCtx) (d : Bytes) (h : poly64Final c = some (d, c')) :
    ∃ s s', CalledFromOCaml s ∧ s.read .ctx = some (.ctx c) ∧
      Exec [fun _ => 2] poly1305FinalStub s (some s') ∧ s'.read .res = some (.str d) ∧
      s'.read (.caller 0) = some (.ctx c') := by
  let s : State PolyCtx := ⟨fun b => if b = 1 then some (.ctx c) else none,
    fun v => if v = .ctx ∨ v = .caller 0 then some 1 else none, [.caller 0]⟩
  have hs : CalledFromOCaml s := by
    intro v hv
    have e : v = .caller 0 := by simpa [s] using hv
    subst e
    exact ⟨⟨0, rfl⟩, by simp [State.read, s]⟩
  have hx : s.read .ctx = some (.ctx c) := by simp [State.read, s]
  have hc : Collect (fun _ => 2) { s with roots := .res :: ([.ctx] ++ s.roots), env := fun w => if w = .res then none else s.env w }
      ⟨fun b => if b = 2 then some (.ctx c) else none,
       fun v => if v = .ctx ∨ v = .caller 0 then some 2 else none, [.res, .ctx, .caller 0]⟩ := by
    have hl : ∀ b, State.Live { s with roots := .res :: ([.ctx] ++ s.roots), env := fun w => if w = .res then none else s.env w } b → b = 1 := by
      rintro b ⟨v, hv, h⟩
      simp only [s] at h
      by_cases h1 : v = .res
      · rw [if_pos h1] at h; exact nomatch h
      rw [if_neg h1] at h
      by_cases hv' : v = .ctx ∨ v = .caller 0
      · rw [if_pos hv'] at h; exact (Option.some.inj h).symm
      · rw [if_neg hv'] at h; exact nomatch h
    refine ⟨fun a b ha hb _ => by rw [hl a ha, hl b hb], fun a ha => ?_, fun v hv => ?_, fun v hv => ?_, rfl⟩
    · rw [hl a ha]; simp [s]
    · simp [s] at hv
      rcases hv with rfl | rfl | rfl <;> simp [s]
    · simp [s] at hv
      simp [s, hv]
  have hrun : ∃ s', Exec [fun _ => 2] poly1305FinalStub s (some s') :=
    ⟨_, Exec.register (Exec.declare (Exec.alloc (a := 3) (x := .str []) hc (by simp)
      (Exec.write (a := 3) (xs := [.ctx c]) (y := .str d) (by simp [State.read]) (by simp [h]) (by simp) (by simp)
        (Exec.write (a := 2) (xs := [.ctx c]) (y := .ctx c') (by simp [State.read]) (by simp [h]) (by simp) (by simp) .done))))⟩
  obtain ⟨s', hr⟩ := hrun
  obtain ⟨s'', e, h1, h2⟩ := C66_results.2.2.2.2.2.2.1 c d c' h s _ _ hs hx hr
  cases e
  exact ⟨s, s', hs, hx, hr, h1, by rw [h2 0 (by simp [s])]; simp [s]⟩

/-- A run of `caml_md5_init` during which the caller's string is moved. -/
example (E : Md5Engine γ) (k : Bytes) : ∃ s', Exec [fun _ => 2] (md5InitStub E) (holding _ k) (some s') ∧
    s'.read .ctx = some (.ctx (md5Init E)) ∧ s'.read (.caller 0) = some (.str k) ∧ s'.env (.caller 0) = some 2 := by
  refine ⟨_, Exec.alloc (a := 3) (x := .str []) (holding_moves k none) (by simp [holdingMoved])
    (Exec.write (a := 3) (xs := []) (y := .ctx (md5Init E)) rfl rfl (by simp) (by simp) .done), ?_, ?_, ?_⟩ <;>
    simp [State.read, holdingMoved]

end Verif
