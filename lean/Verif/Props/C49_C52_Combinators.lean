import Verif.Proof.ThenHash
import Verif.Proof.Parts
import Verif.Proof.Hex
import Verif.Proof.Cipher
import Verif.Props.C37_AuthCheck
import Verif.Props.C25_HashSize
import Verif.Props.C45_C48_Codec
import Verif.Props.Example
/-
C49: compose. C50: transform_channel. C51: hash_channel. C52: transform_then_hash and
transform_and_hash. These hold for any transforms and hashes whose results do not depend on how the
data is cut into calls (`TComputes`, `HComputes`).
-/
namespace Verif

open Spec

variable {τ τ1 τ2 η : Type}

/-! ### C49 -/

/-- C49: if `t1` computes `F1` and `t2` computes `F2`, then `compose t1 t2` computes `F2` of `F1`:
for every cut of the data, every read of the output and every flush, the outputs up to each flush
and up to the end are those of `t2` on the outputs of `t1`. -/
theorem C49_compose {T1 : Transform τ1} {T2 : Transform τ2} {t1 : τ1} {t2 : τ2}
    {ok1 ok2 : List Bytes → Prop} {F1 F2 : List Bytes → Except Exn (List Bytes)}
    (h1 : TComputes T1 t1 ok1 F1) (h2 : TComputes T2 t2 ok2 F2) :
    TComputes (compose T1 T2) (t1, t2) (fun m => ok1 m ∧ ∃ xs, F1 m = .ok xs ∧ ok2 xs)
      (fun m => F1 m >>= F2) := by
  rintro ps hne hl ⟨hok, xs, hF, hok2⟩
  have hl1 : ∀ p ∈ liftParts ps, p.Legal := by
    intro p hp
    simp only [liftParts, List.mem_map] at hp
    obtain ⟨q, hq, rfl⟩ := hp
    exact liftOps_legal (hl q hq)
  have hr := h1 (liftParts ps) (by simpa [liftParts] using hne) hl1 (by rw [liftParts_data]; exact hok)
  rw [liftParts_data, hF] at hr
  cases hrun : runParts T1 (liftParts ps) t1 <;> rw [hrun] at hr <;> simp only [Out.observe] at hr <;>
    cases hr
  obtain ⟨ps2, k1, k2, k3⟩ := compose_parts T1 T2 ps hl hrun
  have hne2 : ps2 ≠ [] := by
    rintro rfl
    have e1 := runParts_length _ _ hrun
    rw [← k2] at e1
    cases ps <;> simp_all [liftParts]
  have := (k3 t2).observe (fun _ _ _ _ h => h.1)
  rw [this, h2 ps2 hne2 k1 (by rw [k2]; exact hok2), k2]
  show some (F2 xs) = some (F1 _ >>= F2)
  rw [hF]
  rfl

/-- C49 (errors are not lost): if `t1` raises an exception on the data, the composition does not
return normally. (`Invalid_argument` is excluded since here it could come from `get_substring`
returning an invalid range.) -/
theorem C49_errors {T1 : Transform τ1} {T2 : Transform τ2} {t1 : τ1} {t2 : τ2}
    {ok1 : List Bytes → Prop} {F1 : List Bytes → Except Exn (List Bytes)}
    (h1 : TComputes T1 t1 ok1 F1) {ps : List Part} (hne : ps ≠ []) (hl : ∀ p ∈ ps, p.Legal)
    (hok : ok1 (ps.map Part.data)) {e : Exn} (he : F1 (ps.map Part.data) = .error e)
    (hia : e ≠ .invalidArg) : ∀ y st, runParts (compose T1 T2) ps (t1, t2) ≠ .ok y st := by
  rintro y ⟨t1', t2'⟩ hr
  have hl1 : ∀ p ∈ liftParts ps, p.Legal := by
    intro p hp
    simp only [liftParts, List.mem_map] at hp
    obtain ⟨q, hq, rfl⟩ := hp
    exact liftOps_legal (hl q hq)
  have hr1 := h1 (liftParts ps) (by simpa [liftParts] using hne) hl1 (by rw [liftParts_data]; exact hok)
  rw [liftParts_data, he] at hr1
  rcases compose_parts_rev T1 T2 ps hr with ⟨x, hx⟩ | ⟨t, hx⟩
  · rw [hx] at hr1; cases hr1
  · rw [hx] at hr1
    simp only [Out.observe] at hr1
    injection hr1 with hr1
    injection hr1 with hr1
    exact hia hr1.symm

/-! An instance with transforms of the library: hexadecimal encoding, then decoding. -/

theorem Hex.encode_computes (env : Env) (hm : 256 ≤ env.maxLen) :
    TComputes (Hex.encode env) (Hex.encInit env)
      (fun ms => ∀ m ∈ ms, 2 * m.length ≤ env.maxLen) (fun ms => .ok (ms.map Spec.Hex.encode)) := by
  refine TComputes.congr (T' := _)
    (charMethods_call (fun b h0 h1 => Hex.encPutByte_eq env b h0 h1)) rfl rfl ?_
  have hp : ∀ m, Hex.encSpec.put () m = .ok (Spec.Hex.encode m) () := by
    intro m
    have := Hex.enc_run m
    cases h : Hex.encSpec.put () m with
    | err o e => rw [h] at this; cases this
    | ok o s =>
      rw [h] at this
      simpa [SRes.andThen, Hex.encSpec, charSpec] using this
  have he : ∀ l, Hex.encSpec.endPart l () = .ok [] () := by intro l; cases l <;> rfl
  have hparts : ∀ ms, Hex.encSpec.parts () ms = .ok (ms.map Spec.Hex.encode) := by
    intro ms
    induction ms with
    | nil => rfl
    | cons m ms ih =>
      rw [XSpec.parts, hp]
      simp only [SRes.andThen, he, List.append_nil]
      rw [ih]; rfl
  have hfits : ∀ ms : List Bytes, (∀ m ∈ ms, 2 * m.length ≤ env.maxLen) →
      Hex.encSpec.fits env.maxLen () ms := by
    intro ms
    induction ms with
    | nil => intro _; trivial
    | cons m ms ih =>
      intro h
      rw [XSpec.fits, hp]
      simp only [SRes.andThen, he, List.append_nil]
      exact ⟨by rw [Hex.encode_length]; exact h m (by simp), ih (fun x hx => h x (by simp [hx]))⟩
  intro ps h1 h2 h3
  rw [(Hex.encode_refines env).tcomputes (charSpec_lawful _ _ _) (Hex.encRep_init env hm) ps h1 h2
    (hfits _ h3), hparts]

/-- `Hexa.decode` on texts that are encodings (each part is). -/
theorem Hex.decode_computes (env : Env) (hm : 256 ≤ env.maxLen) :
    TComputes (Hex.decode env) (Hex.decInit env)
      (fun xs => ∃ ms : List Bytes, xs = ms.map Spec.Hex.encode ∧ ∀ m ∈ ms, m.length ≤ env.maxLen)
      (fun xs => .ok (xs.map Spec.Hex.decode)) := by
  refine TComputes.congr (T' := _)
    (charMethods_call (fun b h0 h1 => putByteChr_eq _ b h0 h1)) rfl rfl ?_
  have hp : ∀ m, Hex.decSpec.put [] (Spec.Hex.encode m) = .ok m [] := by
    intro m
    obtain ⟨w, d⟩ := Hex.encode_decode m
    have := (Hex.decSpec_run (Spec.Hex.encode m)).1 w
    rw [d] at this
    cases h : Hex.decSpec.put [] (Spec.Hex.encode m) with
    | err o e => rw [h] at this; cases this
    | ok o s =>
      rw [h] at this
      simp only [SRes.andThen, Hex.decSpec, charSpec] at this
      by_cases hs : s = []
      · subst hs; simpa using this
      · simp [hs] at this
  have he : ∀ l, Hex.decSpec.endPart l [] = .ok [] [] := by intro l; cases l <;> rfl
  have hparts : ∀ ms : List Bytes, Hex.decSpec.parts [] (ms.map Spec.Hex.encode) = .ok ms := by
    intro ms
    induction ms with
    | nil => rfl
    | cons m ms ih =>
      rw [List.map_cons, XSpec.parts, hp]
      simp only [SRes.andThen, he, List.append_nil]
      rw [ih]; rfl
  have hfits : ∀ ms : List Bytes, (∀ m ∈ ms, m.length ≤ env.maxLen) →
      Hex.decSpec.fits env.maxLen [] (ms.map Spec.Hex.encode) := by
    intro ms
    induction ms with
    | nil => intro _; trivial
    | cons m ms ih =>
      intro h
      rw [List.map_cons, XSpec.fits, hp]
      simp only [SRes.andThen, he, List.append_nil]
      exact ⟨h m (by simp), ih (fun x hx => h x (by simp [hx]))⟩
  rintro ps h1 h2 ⟨ms, h3, h4⟩
  rw [(Hex.decode_refines env).tcomputes (charSpec_lawful _ _ _) (Hex.decRep_init env hm) ps h1 h2
    (by rw [h3]; exact hfits _ h4), h3, hparts]
  simp [(Hex.encode_decode _).2, Function.comp_def]

/-- C49, for the hexadecimal transforms of the library: encoding composed with decoding gives back
the data, with the flushes at the same places. -/
theorem C49_hex_identity (env : Env) (hm : 256 ≤ env.maxLen) :
    TComputes (compose (Hex.encode env) (Hex.decode env)) (Hex.encInit env, Hex.decInit env)
      (fun ms => ∀ m ∈ ms, 2 * m.length ≤ env.maxLen) (fun ms => .ok ms) := by
  intro ps h1 h2 h3
  rw [C49_compose (Hex.encode_computes env hm) (Hex.decode_computes env hm) ps h1 h2
    ⟨h3, _, rfl, _, rfl, fun m hmem => by have := h3 m hmem; omega⟩]
  simp [(Hex.encode_decode _).2, Function.comp_def, bind, Except.bind]

/-! ### C50 -/

/-- The bytes that `transform_channel ?len` and `hash_channel ?len` must read. -/
def Spec.toRead (len : Option Int) (ic : Bytes) : Bytes :=
  match len with
  | none => ic
  | some l => ic.take l.toNat

/-- The bytes that they must leave. -/
def Spec.toLeave (len : Option Int) (ic : Bytes) : Bytes :=
  match len with
  | none => []
  | some l => ic.drop l.toNat

/-- The channel has enough bytes. -/
def Spec.enough (len : Option Int) (ic : Bytes) : Prop := ∀ l, len = some l → l ≤ ic.length

theorem runParts_single {T : Transform τ} {ops : List TOp} {sub : Bool} {t : τ} {r : Except Exn Bytes}
    (hs : ((do
      let x ← T.calls ops
      T.finish
      let y ← T.call (if sub then .getSubstring else .getString)
      pure (x ++ y) : M τ Bytes) t).observe = some r) :
    (runParts T [⟨ops, sub⟩] t).observe = some (r.map ([·])) := by
  simp only [runParts, endPart, List.isEmpty_nil, if_true, M.bind_def] at hs ⊢
  cases h1 : T.calls ops t with
  | ok x ta =>
    simp only [h1] at hs ⊢
    cases h2 : T.finish ta with
    | ok u tb =>
      simp only [h2] at hs ⊢
      cases h3 : T.call (if sub then .getSubstring else .getString) tb with
      | ok y tc =>
        simp only [h3, M.pure_def, Out.observe] at hs ⊢
        cases hs; rfl
      | exn e tc => simp only [h3, Out.observe] at hs ⊢; cases hs; rfl
      | ub => simp only [h3, Out.observe] at hs; cases hs
      | loop => simp only [h3, Out.observe] at hs; cases hs
    | exn e tc => simp only [h2, Out.observe] at hs ⊢; cases hs; rfl
    | ub => simp only [h2, Out.observe] at hs; cases hs
    | loop => simp only [h2, Out.observe] at hs; cases hs
  | exn e tc => simp only [h1, Out.observe] at hs ⊢; cases hs; rfl
  | ub => simp only [h1, Out.observe] at hs; cases hs
  | loop => simp only [h1, Out.observe] at hs; cases hs

/-- What `transform_string` returns is what `F` says for data with no flush. -/
theorem Spec.TComputes.transformString {T : Transform τ} {t : τ} {ok : List Bytes → Prop}
    {F : List Bytes → Except Exn (List Bytes)} (hT : TComputes T t ok F)
    (hw : ∀ t, ∃ t', T.wipe t = .ok () t') {d : Bytes} (hok : ok [d]) {r : Except Exn Bytes}
    (hs : (transformString T d t).observe = some r) : F [d] = r.map ([·]) := by
  rw [Cipher.transformString_observe hw] at hs
  have h1 : (runParts T [⟨[.putString d], false⟩] t).observe = some (r.map ([·])) :=
    runParts_single hs
  have hin : inputOf [.putString d] = d := by simp [inputOf, TOp.input]
  have h2 := hT [⟨[.putString d], false⟩] (by simp)
    (by intro p hp; simp only [List.mem_singleton] at hp; subst hp
        intro op ho; simp only [List.mem_singleton] at ho; subst ho; exact ⟨trivial, trivial⟩)
    (by simpa [Part.data, hin] using hok)
  rw [h1] at h2
  injection h2 with h2
  simpa [Part.data, hin] using h2.symm

/-- The loop of `transform_channel`, whatever `len`. -/
theorem transformChannel_sim (env : Env) (T : Transform τ) (sched : Nat → Nat) (len : Option Int)
    (ic : Bytes) (n : Nat) (hen : enough len ic) :
    ∃ ops : List TOp, (∀ op ∈ ops, op.Proper) ∧ Paced 256 0 ops ∧ inputOf ops = toRead len ic ∧ ∃ n', ∀ t oc,
      Out.Sim (fun _ p ys _ => p.2 = ⟨toLeave len ic, n', oc ++ ys.flatten⟩)
        (transformChannel env T sched len (t, ⟨ic, n, oc⟩))
        ((do let ys ← runParts T [⟨ops, true⟩]
             T.wipe
             pure ys : M τ (List Bytes)) t) := by
  have hib : (env.create 256).length = 256 := by simp
  -- the calls made by the loop
  have loop : ∃ ops : List TOp, (∀ op ∈ ops, op.Proper) ∧ Paced 256 0 ops ∧ inputOf ops = toRead len ic ∧
      ∃ n', ∀ t oc,
        Out.Sim (fun b p x t' => b.length = 256 ∧ p = (t', ⟨toLeave len ic, n', oc ++ x⟩))
          ((match len with
            | none => transfToEof T sched (ic.length + 1) (env.create 256)
            | some l => transfBounded T sched (l.toNat + 1) l (env.create 256))
            (t, ⟨ic, n, oc⟩)) (T.calls ops t) := by
    cases len with
    | none => exact transfToEof_sim T sched _ _ ic n hib (by omega)
    | some l =>
      obtain ⟨ops, h1, hp, h2, n', h3⟩ := transfBounded_sim T sched (l.toNat + 1) l (env.create 256) ic n
        hib (by omega)
      refine ⟨ops, h1, hp, h2, n', fun t oc => ?_⟩
      have := h3 t oc
      have hle : ¬ l > (ic.length : Int) := by have := hen l rfl; omega
      simp only [hle, if_false] at this
      have hT : (T.calls ops >>= fun x => (pure x : M τ Bytes)) t = T.calls ops t := by
        rw [M.bind_def]; cases T.calls ops t <;> rfl
      rw [hT] at this
      exact this
  obtain ⟨ops, h1, hp, h2, n', h3⟩ := loop
  refine ⟨ops, h1, hp, h2, n', fun t oc => ?_⟩
  rw [transformChannel, M.bind_ok (M.get_def _)]
  simp only [runParts, M.bind_assoc]
  refine Out.Sim.bind (h3 t oc) ?_
  rintro b _ x t' ⟨_, rfl⟩
  refine Out.Sim.bind (M.onFst_sim T.finish t' _) ?_
  rintro _ _ _ t2 ⟨_, rfl⟩
  rw [if_pos trivial]
  refine Out.Sim.bind (outputPending_sim T t2 _) ?_
  rintro _ _ y t3 rfl
  have e : ∀ f : List Bytes → M τ (List Bytes), ((pure [] : M τ (List Bytes)) >>= fun ys =>
      (pure ((x ++ y) :: ys) : M τ (List Bytes)) >>= f) t3 = f [x ++ y] t3 := fun f => rfl
  rw [e]
  have hw := M.onFst_sim T.wipe t3 (⟨toLeave len ic, n', oc ++ x ++ y⟩ : Chan)
  rw [M.bind_def]
  cases hL : M.onFst T.wipe (t3, (⟨toLeave len ic, n', oc ++ x ++ y⟩ : Chan)) <;> rw [hL] at hw <;>
    cases hT : T.wipe t3 <;> rw [hT] at hw <;> simp only [Out.Sim, M.pure_def] at hw ⊢
  · rw [hw.2]; simp
  · exact hw

/-- C50: `transform_channel` writes exactly what `transform_string` returns on the bytes read,
whatever the sizes of the individual reads (`sched`); without `~len` it reads everything, with
`~len:l` it reads exactly `l` bytes. If `transform_string` raises an exception, so does
`transform_channel`. -/
theorem C50_transform_channel (env : Env) {T : Transform τ} {t : τ} {ok : List Bytes → Prop}
    {F : List Bytes → Except Exn (List Bytes)} (hT : TComputes T t ok F)
    (hw : ∀ t, ∃ t', T.wipe t = .ok () t') (sched : Nat → Nat) (len : Option Int) (ic oc : Bytes)
    (n : Nat) (hen : enough len ic) (hok : ok [toRead len ic]) :
    (∀ y, (transformString T (toRead len ic) t).observe = some (.ok y) →
      ∃ t' n', transformChannel env T sched len (t, ⟨ic, n, oc⟩)
        = .ok () (t', ⟨toLeave len ic, n', oc ++ y⟩))
    ∧ (∀ e, (transformString T (toRead len ic) t).observe = some (.error e) →
      ∃ st, transformChannel env T sched len (t, ⟨ic, n, oc⟩) = .exn e st) := by
  obtain ⟨ops, h1, _, h2, n', h3⟩ := transformChannel_sim env T sched len ic n hen
  have hrun := hT [⟨ops, true⟩] (by simp)
    (by intro p hp; simp only [List.mem_singleton] at hp; subst hp; exact h1)
    (by simpa [Part.data, h2] using hok)
  simp only [List.map_cons, List.map_nil, Part.data, h2] at hrun
  have hsim := h3 t oc
  refine ⟨fun y hs => ?_, fun e hs => ?_⟩
  · rw [hT.transformString hw hok hs] at hrun
    cases hr : runParts T [⟨ops, true⟩] t <;> rw [hr] at hrun <;> cases hrun
    rename_i t1
    obtain ⟨t2, e2⟩ := hw t1
    rw [M.bind_ok hr, M.bind_ok e2] at hsim
    cases hL : transformChannel env T sched len (t, ⟨ic, n, oc⟩) <;> rw [hL] at hsim <;>
      simp only [Out.Sim, M.pure_def] at hsim
    rename_i u p
    refine ⟨p.1, n', ?_⟩
    rw [show p = (p.1, p.2) from rfl, hsim]
    simp
  · rw [hT.transformString hw hok hs] at hrun
    cases hr : runParts T [⟨ops, true⟩] t <;> rw [hr] at hrun <;> cases hrun
    rw [M.bind_exn hr] at hsim
    cases hL : transformChannel env T sched len (t, ⟨ic, n, oc⟩) <;> rw [hL] at hsim <;>
      simp only [Out.Sim] at hsim
    subst hsim
    exact ⟨_, rfl⟩

/-- C50 (`~len` larger than the channel): `transform_channel` never returns, and raises
`End_of_file` provided the transform accepts the bytes of the channel. -/
theorem C50_end_of_file (env : Env) (T : Transform τ) (t : τ) (sched : Nat → Nat) (l : Int)
    (ic oc : Bytes) (n : Nat) (hl : l > ic.length) :
    (∀ u st, transformChannel env T sched (some l) (t, ⟨ic, n, oc⟩) ≠ .ok u st)
    ∧ ((∀ ops : List TOp, (∀ op ∈ ops, op.Proper) → inputOf ops = ic →
          ∃ x t', T.calls ops t = .ok x t') →
        ∃ st, transformChannel env T sched (some l) (t, ⟨ic, n, oc⟩) = .exn .endOfFile st) := by
  obtain ⟨ops, h1, _, h2, n', h3⟩ := transfBounded_sim T sched (l.toNat + 1) l (env.create 256) ic n
    (by simp) (by omega)
  have hin : inputOf ops = ic := by rw [h2, List.take_of_length_le (by omega)]
  have hsim := h3 t oc
  simp only [hl, if_true] at hsim
  rw [transformChannel, M.bind_ok (M.get_def _)]
  simp only
  refine ⟨?_, fun hc => ?_⟩
  · intro u st hh
    obtain ⟨a, s1, g1, g2⟩ := M.bind_eq_ok hh
    rw [g1, M.bind_def] at hsim
    cases hT : T.calls ops t <;> rw [hT] at hsim <;> exact hsim
  · obtain ⟨x, t', e⟩ := hc ops h1 hin
    rw [M.bind_ok e] at hsim
    cases hL : transfBounded T sched (l.toNat + 1) l (env.create 256) (t, ⟨ic, n, oc⟩) <;>
      rw [hL] at hsim <;> simp only [Out.Sim, M.raise_def] at hsim
    subst hsim
    exact ⟨_, M.bind_exn hL⟩

/-- A transform that computes a result on the bytes of the channel accepts them. -/
theorem Spec.TComputes.accepts {T : Transform τ} {t : τ} {ok : List Bytes → Prop}
    {F : List Bytes → Except Exn (List Bytes)} (hT : TComputes T t ok F) {d : Bytes} (hok : ok [d])
    {ys : List Bytes} (hF : F [d] = .ok ys) :
    ∀ ops : List TOp, (∀ op ∈ ops, op.Proper) → inputOf ops = d →
      ∃ x t', T.calls ops t = .ok x t' := by
  intro ops hl hi
  have hrun := hT [⟨ops, true⟩] (by simp)
    (by intro p hp; simp only [List.mem_singleton] at hp; subst hp; exact hl)
    (by simpa [Part.data, hi] using hok)
  simp only [List.map_cons, List.map_nil, Part.data, hi, hF] at hrun
  cases hr : runParts T [⟨ops, true⟩] t <;> rw [hr] at hrun <;> cases hrun
  rw [runParts] at hr
  obtain ⟨x, ta, h1, _⟩ := M.bind_eq_ok hr
  exact ⟨x, ta, h1⟩

/-! ### C51 -/

/-- What `hash_string` returns is what `f` says. -/
theorem Spec.HComputes.hashString {H : HashObj η} {s : η} {f : Bytes → Except Exn Bytes}
    (hH : HComputes H s f) (hw : ∀ s, ∃ s', H.wipe s = .ok () s') (d : Bytes)
    (hd : d.length ≤ maxString) : (hashString H d s).observe = some (f d) := by
  have h := hH [.addString d] (by
    intro op ho; simp only [List.mem_singleton] at ho; subst ho; exact hd)
  have hin : hinputOf [.addString d] = d := by simp [hinputOf, HOp.input]
  rw [hin, HashObj.digest_eq] at h
  rw [← h]
  simp only [Verif.hashString, HashObj.callsM, HashObj.call, M.bind_def]
  cases H.addString d s with
  | ok u s1 =>
    simp only [M.pure_def]
    cases H.result s1 with
    | ok r s2 =>
      obtain ⟨s3, e⟩ := hw s2
      simp [e, Out.observe]
    | _ => rfl
  | _ => rfl

theorem hashChannel_sim (env : Env) (H : HashObj η) (sched : Nat → Nat) (len : Option Int)
    (ic : Bytes) (n : Nat) (hen : enough len ic) :
    ∃ ops : List HOp, (∀ op ∈ ops, op.Legal) ∧ hinputOf ops = toRead len ic ∧ ∃ n', ∀ s oc,
      Out.Sim (fun a p b _ => a = b ∧ p.2 = ⟨toLeave len ic, n', oc⟩)
        (hashChannel env H sched len (s, ⟨ic, n, oc⟩))
        ((do H.callsM ops
             let r ← H.result
             H.wipe
             pure r : M η Bytes) s) := by
  have hib : (env.create 256).length = 256 := by simp
  have loop : ∃ ops : List HOp, (∀ op ∈ ops, op.Legal) ∧ hinputOf ops = toRead len ic ∧
      ∃ n', ∀ s oc,
        Out.Sim (fun b p _ s' => b.length = 256 ∧ p = (s', ⟨toLeave len ic, n', oc⟩))
          ((match len with
            | none => hashToEof H sched (ic.length + 1) (env.create 256)
            | some l => hashBounded H sched (l.toNat + 1) l (env.create 256))
            (s, ⟨ic, n, oc⟩)) (H.callsM ops s) := by
    cases len with
    | none => exact hashToEof_sim H sched _ _ ic n hib (by omega)
    | some l =>
      obtain ⟨ops, h1, h2, n', h3⟩ := hashBounded_sim H sched (l.toNat + 1) l (env.create 256) ic n
        hib (by omega)
      refine ⟨ops, h1, h2, n', fun s oc => ?_⟩
      have := h3 s oc
      have hle : ¬ l > (ic.length : Int) := by have := hen l rfl; omega
      simp only [hle, if_false] at this
      have hT : (H.callsM ops >>= fun _ => (pure () : M η Unit)) s = H.callsM ops s := by
        rw [M.bind_def]; cases H.callsM ops s <;> rfl
      rw [hT] at this
      exact this
  obtain ⟨ops, h1, h2, n', h3⟩ := loop
  refine ⟨ops, h1, h2, n', fun s oc => ?_⟩
  rw [hashChannel, M.bind_ok (M.get_def _)]
  refine Out.Sim.bind (h3 s oc) ?_
  rintro b _ _ s' ⟨_, rfl⟩
  refine Out.Sim.bind (M.onFst_sim H.result s' _) ?_
  rintro r _ _ s2 ⟨rfl, rfl⟩
  refine Out.Sim.bind (M.onFst_sim H.wipe s2 _) ?_
  rintro _ _ _ s3 ⟨_, rfl⟩
  exact ⟨rfl, rfl⟩

/-- C51: `hash_channel` returns (or raises) what `hash_string` does on the bytes read, whatever the
sizes of the individual reads; without `~len` it reads everything, with `~len:l` exactly `l`
bytes. -/
theorem C51_hash_channel (env : Env) {H : HashObj η} {s : η} {f : Bytes → Except Exn Bytes}
    (hH : HComputes H s f) (hw : ∀ s, ∃ s', H.wipe s = .ok () s') (sched : Nat → Nat)
    (len : Option Int) (ic oc : Bytes) (n : Nat) (hen : enough len ic)
    (hd : (toRead len ic).length ≤ maxString) :
    (hashChannel env H sched len (s, ⟨ic, n, oc⟩)).observe
        = (hashString H (toRead len ic) s).observe
    ∧ (hashString H (toRead len ic) s).observe = some (f (toRead len ic))
    ∧ ∀ r st, hashChannel env H sched len (s, ⟨ic, n, oc⟩) = .ok r st →
        st.2.ic = toLeave len ic ∧ st.2.oc = oc := by
  obtain ⟨ops, h1, h2, n', h3⟩ := hashChannel_sim env H sched len ic n hen
  have hdig := hH ops h1
  rw [h2, HashObj.digest_eq] at hdig
  have hsim := h3 s oc
  have hhs := hH.hashString hw (toRead len ic) hd
  refine ⟨?_, hhs, ?_⟩
  · rw [hhs, hsim.observe (fun _ _ _ _ h => h.1), ← hdig]
    simp only [M.bind_def]
    cases H.callsM ops s with
    | ok u s1 =>
      simp only
      cases H.result s1 with
      | ok r s2 =>
        obtain ⟨s3, e⟩ := hw s2
        simp [e, Out.observe]
      | _ => rfl
    | _ => rfl
  · intro r st hr
    rw [hr] at hsim
    cases hR : (do H.callsM ops
                   let r ← H.result
                   H.wipe
                   pure r : M η Bytes) s <;> rw [hR] at hsim <;> simp only [Out.Sim] at hsim
    rw [hsim.2]
    exact ⟨rfl, rfl⟩

/-- C51 (`~len` larger than the channel): `hash_channel` never returns, and raises `End_of_file`
provided that the hash accepts the bytes of the channel. -/
theorem C51_end_of_file (env : Env) (H : HashObj η) (s : η) (sched : Nat → Nat) (l : Int)
    (ic oc : Bytes) (n : Nat) (hl : l > ic.length) :
    (∀ u st, hashChannel env H sched (some l) (s, ⟨ic, n, oc⟩) ≠ .ok u st)
    ∧ ((∀ ops : List HOp, (∀ op ∈ ops, op.Legal) → hinputOf ops = ic →
          ∃ s', H.calls ops s = .ok () s') →
        ∃ st, hashChannel env H sched (some l) (s, ⟨ic, n, oc⟩) = .exn .endOfFile st) := by
  obtain ⟨ops, h1, h2, n', h3⟩ := hashBounded_sim H sched (l.toNat + 1) l (env.create 256) ic n
    (by simp) (by omega)
  have hin : hinputOf ops = ic := by rw [h2, List.take_of_length_le (by omega)]
  have hsim := h3 s oc
  simp only [hl, if_true] at hsim
  rw [hashChannel, M.bind_ok (M.get_def _)]
  simp only
  refine ⟨?_, fun hc => ?_⟩
  · intro u st hh
    obtain ⟨a, s1, g1, g2⟩ := M.bind_eq_ok hh
    rw [g1, M.bind_def] at hsim
    cases hT : H.callsM ops s <;> rw [hT] at hsim <;> exact hsim
  · obtain ⟨t', e⟩ := hc ops h1 hin
    rw [← HashObj.callsM_eq] at e
    rw [M.bind_ok e] at hsim
    cases hL : hashBounded H sched (l.toNat + 1) l (env.create 256) (s, ⟨ic, n, oc⟩) <;>
      rw [hL] at hsim <;> simp only [Out.Sim, M.raise_def] at hsim
    subst hsim
    exact ⟨_, M.bind_exn hL⟩

/-! ### C52 -/

theorem liftOps_single_legal {ops : List TOp} (h : ∀ op ∈ ops, op.Proper) :
    ∀ p ∈ [(⟨liftOps ops, true⟩ : Part)], p.Legal := by
  intro p hp; simp only [List.mem_singleton] at hp; subst hp; exact liftOps_legal h

/-- C52 (`transform_then_hash`): for every cut of the input and every read of the output, if the
transform computes `y` from the input then the output is `y` and the tag is the hash of `y`
(if the hash raises an exception, so does the combination). -/
theorem C52_then_hash (env : Env) {T : Transform τ} {H : HashObj η} {t : τ} {s : η}
    {ok : List Bytes → Prop} {F : List Bytes → Except Exn (List Bytes)}
    {g : Bytes → Except Exn Bytes} (hT : TComputes T t ok F) (hH : HComputes H s g)
    (h256 : 256 ≤ env.maxLen) {ops : List TOp} (hl : ∀ op ∈ ops, op.Proper)
    (hok : ok [inputOf ops]) {y : Bytes} (hF : F [inputOf ops] = .ok [y])
    (hy : y.length ≤ env.maxLen) (hy' : y.length ≤ maxString) :
    ((transformThenHash env T H).total ops (thenHashInit env t s)).observe
      = some ((g y).map fun tag => (y, tag)) := by
  have hrun := hT [⟨liftOps ops, true⟩] (by simp) (liftOps_single_legal hl)
    (by simpa [Part.data, liftOps_input] using hok)
  simp only [List.map_cons, List.map_nil, Part.data, liftOps_input, hF] at hrun
  cases hr : runParts T [⟨liftOps ops, true⟩] t <;> rw [hr] at hrun <;> cases hrun
  obtain ⟨hops, k1, k2, k3⟩ := thenHash_total env T H ops hr hy' hy h256
  have hdig := hH hops k1
  rw [k2] at hdig
  have hsim := k3 s
  cases hD : H.digest hops s <;> rw [hD] at hdig hsim <;> simp only [Out.observe] at hdig <;>
    cases hL : (transformThenHash env T H).total ops (thenHashInit env t s) <;>
    rw [hL] at hsim <;> simp only [Out.Sim] at hsim
  · injection hdig with hdig
    rw [← hdig, hsim]; rfl
  · injection hdig with hdig
    rw [← hdig, hsim]; rfl
  · cases hdig
  · cases hdig

/-- C52 (`transform_then_hash`): if the transform raises an exception on the input, the combination
does not return. -/
theorem C52_then_hash_errors (env : Env) {T : Transform τ} {H : HashObj η} {t : τ} {s : η}
    {ok : List Bytes → Prop} {F : List Bytes → Except Exn (List Bytes)} (hT : TComputes T t ok F)
    {ops : List TOp} (hl : ∀ op ∈ ops, op.Proper) (hok : ok [inputOf ops]) {e : Exn}
    (hF : F [inputOf ops] = .error e) (he : e ≠ .invalidArg) :
    ∀ r st, (transformThenHash env T H).total ops (thenHashInit env t s) ≠ .ok r st := by
  intro r st hr
  have hrun := hT [⟨liftOps ops, true⟩] (by simp) (liftOps_single_legal hl)
    (by simpa [Part.data, liftOps_input] using hok)
  simp only [List.map_cons, List.map_nil, Part.data, liftOps_input, hF] at hrun
  rcases thenHash_total_rev env T H ops hr with ⟨y, t', h⟩ | ⟨t', h⟩
  · rw [h] at hrun; cases hrun
  · rw [h] at hrun
    simp only [Out.observe] at hrun
    injection hrun with hrun
    injection hrun with hrun
    exact he hrun.symm

/-- C52 (`transform_and_hash`): for every cut of the input and every read of the output, if the
transform computes `y` from the input then the output is `y` and the tag is the hash of the
input. -/
theorem C52_and_hash {T : Transform τ} {H : HashObj η} {t : τ} {s : η}
    {ok : List Bytes → Prop} {F : List Bytes → Except Exn (List Bytes)}
    {g : Bytes → Except Exn Bytes} (hT : TComputes T t ok F) (hH : HComputes H s g)
    {ops : List TOp} (hl : ∀ op ∈ ops, op.Proper) (hok : ok [inputOf ops])
    {y : Bytes} (hF : F [inputOf ops] = .ok [y]) (hm : (inputOf ops).length ≤ maxString) :
    ((transformAndHash T H).total ops (t, s)).observe
      = some ((g (inputOf ops)).map fun tag => (y, tag)) := by
  have hrun := hT [⟨ops, false⟩] (by simp)
    (by intro p hp; simp only [List.mem_singleton] at hp; subst hp; exact hl)
    (by simpa [Part.data] using hok)
  simp only [List.map_cons, List.map_nil, Part.data, hF] at hrun
  cases hr : runParts T [⟨ops, false⟩] t <;> rw [hr] at hrun <;> cases hrun
  have hsim := andHash_total T H ops hr s
  have hdig := hH (hashOps ops) (hashOps_legal ops (fun op ho => (hl op ho).1) hm)
  rw [hashOps_input] at hdig
  cases hD : H.digest (hashOps ops) s <;> rw [hD] at hdig hsim <;>
    simp only [Out.observe] at hdig <;>
    cases hL : (transformAndHash T H).total ops (t, s) <;>
    rw [hL] at hsim <;> simp only [Out.Sim] at hsim
  · injection hdig with hdig
    rw [← hdig, hsim]; rfl
  · injection hdig with hdig
    rw [← hdig, hsim]; rfl
  · cases hdig
  · cases hdig

/-- A hash that never raises. -/
theorem HashObj.Computes.toH {H : HashObj η} {s : η} {f : Bytes → Bytes} (h : H.Computes s f) :
    HComputes H s fun m => .ok (f m) := h

/-- C52, received data: whatever authenticated transform is used, if on `text` it outputs `out` and
its tag is `computed`, then `auth_check_transform_string` on `text ^ tag` answers `Some out` when
`tag` is `computed`, and `None` otherwise. -/
theorem C52_check (A : AuthTransform τ) {t : τ} {text tag out computed : Bytes}
    (h : (A.total [.putString text] t).observe = some (.ok (out, computed)))
    (hw : ∀ t, ∃ t', A.base.wipe t = .ok () t') (ht : tag.length = A.tagSize) :
    (authCheckTransformString A (text ++ tag) t).observe
      = some (.ok (if computed = tag then some out else none)) := by
  cases hr : A.total [.putString text] t <;> rw [hr] at h <;> simp only [Out.observe] at h
  · obtain ⟨x, s1, h1, hr⟩ := M.bind_eq_ok hr
    obtain ⟨tg, s2, h2, hr⟩ := M.bind_eq_ok hr
    obtain ⟨y, s3, h3, hr⟩ := M.bind_eq_ok hr
    obtain ⟨x1, s4, h4, h1⟩ := M.bind_eq_ok h1
    obtain ⟨x2, s5, h5, h1⟩ := M.bind_eq_ok h1
    cases h5
    cases h1
    obtain ⟨u, s6, h6, h4⟩ := M.bind_eq_ok h4
    cases h4
    cases hr
    injection h with h
    injection h with h
    injection h with h7 h8
    subst h7 h8
    exact C37_check A text tag ht h6 h2 h3 hw
  · cases h
  · cases h
  · cases h

/-- C52, wrong tag size: if the tags that the transform computes do not have the announced
`tag_size`, `auth_check_transform_string` never accepts anything. -/
theorem C52_check_wrong_size (A : AuthTransform τ) {t : τ} {f g : Bytes → Bytes}
    (h : ∀ text, text.length ≤ n → (A.total [.putString text] t).observe
      = some (.ok (f text, g text)))
    (hw : ∀ t, ∃ t', A.base.wipe t = .ok () t') (hs : ∀ m, (g m).length ≠ A.tagSize)
    (m : Bytes) (hm : m.length ≤ n) (x : Bytes) :
    (authCheckTransformString A m t).observe ≠ some (.ok (some x)) := by
  by_cases hl : m.length < A.tagSize
  · rw [C37_too_short A m t hl]
    simp [Out.observe]
  · have e : m = m.take (m.length - A.tagSize) ++ m.drop (m.length - A.tagSize) :=
      (List.take_append_drop _ _).symm
    have hd : (m.drop (m.length - A.tagSize)).length = A.tagSize := by
      rw [List.length_drop]; omega
    rw [e, C52_check A (h _ (by rw [List.length_take]; omega)) hw hd]
    rw [if_neg]
    · simp
    · intro e2
      exact hs _ (by rw [e2]; exact hd)

theorem transformAndHash_wipe {T : Transform τ} {H : HashObj η}
    (hT : ∀ t, ∃ t', T.wipe t = .ok () t') (hH : ∀ s, ∃ s', H.wipe s = .ok () s') :
    ∀ st, ∃ st', (transformAndHash T H).base.wipe st = .ok () st' := by
  rintro ⟨t, s⟩
  obtain ⟨t', e1⟩ := hT t
  obtain ⟨s', e2⟩ := hH s
  refine ⟨(t', s'), ?_⟩
  show (M.onFst T.wipe >>= fun _ => M.onSnd H.wipe) (t, s) = _
  rw [M.bind_ok (M.onFst_ok e1 _), M.onSnd_ok e2]

theorem transformThenHash_wipe (env : Env) {T : Transform τ} {H : HashObj η}
    (hT : ∀ t, ∃ t', T.wipe t = .ok () t') (hH : ∀ s, ∃ s', H.wipe s = .ok () s') :
    ∀ st, ∃ st', (transformThenHash env T H).base.wipe st = .ok () st' := by
  rintro ⟨t, s, ob⟩
  obtain ⟨t', e1⟩ := hT t
  obtain ⟨s', e2⟩ := hH s
  refine ⟨⟨t', s', { ob with obuf := wipeBytes ob.obuf }⟩, ?_⟩
  simp only [transformThenHash, ThenHashSt.onBuf, ThenHashSt.onTr, ThenHashSt.onHash, M.zoom,
    M.bind_def, OBuf.wipe, M.modify_def, e1, e2]

theorem stubHash_wipe (n : Nat) (u : τ → Bytes → Option τ) (f : τ → Option (Bytes × τ)) (w : τ → τ) :
    ∀ s, ∃ s', (stubHash n u f w).wipe s = .ok () s' := fun s => ⟨w s, rfl⟩

/-- C52 fails to be useful with SHA-224, whose `hash_size` is wrong (see C25): with
`transform_and_hash tr (Hash.sha224 ())`, `auth_check_transform_string` never accepts anything, not
even what `auth_transform_string` produced. -/
theorem C52_sha224_never_accepted {T : Transform τ} {t : τ} {ok : List Bytes → Prop}
    {F : Bytes → Bytes} (hT : TComputes T t ok (fun ms => .ok (ms.map F))) (m : Bytes)
    (hok : ∀ d, d.length ≤ m.length → ok [d]) (hw : ∀ t, ∃ t', T.wipe t = .ok () t') (buf0 : Bytes) (hb : buf0.length = 64) (x : Bytes)
    (hm : m.length ≤ maxString) :
    (authCheckTransformString (transformAndHash T sha224) m (t, sha224Init buf0)).observe
      ≠ some (.ok (some x)) := by
  refine C52_check_wrong_size (n := m.length) (transformAndHash T sha224) (f := F)
    (g := Spec.SHA224) (fun text ht => ?_)
    (transformAndHash_wipe hw (stubHash_wipe _ _ _ _))
    (fun m => by rw [SHA224_length]; show 28 ≠ 24; decide) m (Nat.le_refl _) x
  have hin : inputOf [.putString text] = text := by simp [inputOf, TOp.input]
  have := C52_and_hash hT (C23_sha224 buf0 hb).toH (ops := [.putString text])
    (by intro op ho; simp only [List.mem_singleton] at ho; subst ho; exact ⟨trivial, trivial⟩)
    (by rw [hin]; exact hok _ ht) (y := F text) (by rw [hin]; rfl) (by rw [hin]; omega)
  rw [this, hin]
  rfl

/-! ### Cases that meet the hypotheses -/

namespace Example

/-- Three parts with a flush after the first two. -/
def parts : List Part :=
  [⟨[.putString [1, 2], .getChar, .putByte 3], true⟩, ⟨[.putSubstring [9, 4, 5, 9] 1 2], false⟩,
   ⟨[.putChar 0xfe], true⟩]

theorem parts_legal : ∀ p ∈ parts, p.Legal := by
  intro p hp
  simp only [parts, List.mem_cons, List.not_mem_nil, or_false] at hp
  rcases hp with rfl | rfl | rfl <;> intro op ho <;>
    simp only [List.mem_cons, List.not_mem_nil, or_false] at ho
  · rcases ho with rfl | rfl | rfl <;> simp [TOp.Proper, TOp.Legal, TOp.ByteOk]
  · subst ho; simp [TOp.Proper, TOp.Legal, TOp.ByteOk, InRange]
  · subst ho; simp [TOp.Proper, TOp.Legal, TOp.ByteOk]

/-- C49 applies to the composition of the hexadecimal transforms. -/
example : (runParts (compose (Hex.encode env64) (Hex.decode env64)) parts
      (Verif.Hex.encInit env64, Verif.Hex.decInit env64)).observe
    = some (.ok [[1, 2, 3], [4, 5], [0xfe]]) :=
  C49_hex_identity env64 (by decide) parts (by decide) parts_legal (by decide)

/-- C50: a channel of 5 bytes, read one byte then two at a time, with `~len:4`. -/
example : ∃ t' n', transformChannel env64 (Hex.encode env64) (fun i => i + 1) (some 4)
    (Verif.Hex.encInit env64, ⟨[0xab, 1, 2, 0xff, 7], 0, [9]⟩)
    = .ok () (t', ⟨[7], n', 9 :: ascii "ab0102ff"⟩) :=
  (C50_transform_channel env64 (Hex.encode_computes env64 (by decide)) (fun t => ⟨_, rfl⟩)
    (fun i => i + 1) (some 4) [0xab, 1, 2, 0xff, 7] [9] 0
    (by rintro l ⟨⟩; decide) (by decide)).1 (ascii "ab0102ff") (by decide +kernel)

/-- C50: `~len:6` on the same channel. -/
example : ∃ st, transformChannel env64 (Hex.encode env64) (fun i => i + 1) (some 6)
    (Verif.Hex.encInit env64, ⟨[0xab, 1, 2, 0xff, 7], 0, [9]⟩) = .exn .endOfFile st :=
  (C50_end_of_file env64 (Hex.encode env64) (Verif.Hex.encInit env64) (fun i => i + 1) 6
    [0xab, 1, 2, 0xff, 7] [9] 0 (by decide)).2
    ((Hex.encode_computes env64 (by decide)).accepts (by decide) rfl)

/-- C51: SHA-1 of a channel holding "abcd", `~len:3`, read one byte then two at a time. -/
example : (hashChannel env64 sha1 (fun i => i + 1) (some 3)
      (sha1Init (List.replicate 64 0), ⟨ascii "abcd", 0, []⟩)).observe
    = some (.ok (Spec.SHA1 (ascii "abc"))) := by
  have h := C51_hash_channel env64 (C22_sha1 (List.replicate 64 0) (by decide)).toH
    (fun s => ⟨_, rfl⟩) (fun i => i + 1) (some 3) (ascii "abcd") [] 0
    (by rintro l ⟨⟩; decide) (by decide +kernel)
  exact h.1.trans h.2.1

/-- C51: `~len:5` on the same channel. -/
example : ∃ st, hashChannel env64 sha1 (fun i => i + 1) (some 5)
    (sha1Init (List.replicate 64 0), ⟨ascii "abcd", 0, []⟩) = .exn .endOfFile st :=
  (C51_end_of_file env64 sha1 (sha1Init (List.replicate 64 0)) (fun i => i + 1) 5 (ascii "abcd") []
    0 (by decide)).2 fun ops h1 _ => by
      have := C22_sha1 (List.replicate 64 0) (by decide) ops h1
      rw [HashObj.digest] at this
      cases hc : sha1.calls ops (sha1Init (List.replicate 64 0)) with
      | ok u s => exact ⟨s, rfl⟩
      | _ => rw [hc] at this; cases this

def hexOps : List TOp := [.putString [0xab, 1], .getChar, .putByte 3]

theorem hexOps_proper : ∀ op ∈ hexOps, op.Proper := by
  intro op ho
  simp only [hexOps, List.mem_cons, List.not_mem_nil, or_false] at ho
  rcases ho with rfl | rfl | rfl <;> simp [TOp.Proper, TOp.Legal, TOp.ByteOk]

/-- C52: hexadecimal encoding, then SHA-1 of the hexadecimal text. -/
example : ((transformThenHash env64 (Hex.encode env64) sha1).total hexOps
      (thenHashInit env64 (Verif.Hex.encInit env64) (sha1Init (List.replicate 64 0)))).observe
    = some (.ok (ascii "ab0103", Spec.SHA1 (ascii "ab0103"))) :=
  C52_then_hash env64 (Hex.encode_computes env64 (by decide))
    (C22_sha1 (List.replicate 64 0) (by decide)).toH (by decide) hexOps_proper (by decide)
    (y := ascii "ab0103") (by decide +kernel) (by decide) (by decide +kernel)

/-- C52: hexadecimal encoding, and SHA-1 of the data. -/
example : ((transformAndHash (Hex.encode env64) sha1).total hexOps
      (Verif.Hex.encInit env64, sha1Init (List.replicate 64 0))).observe
    = some (.ok (ascii "ab0103", Spec.SHA1 [0xab, 1, 3])) :=
  C52_and_hash (Hex.encode_computes env64 (by decide))
    (C22_sha1 (List.replicate 64 0) (by decide)).toH hexOps_proper (by decide)
    (y := ascii "ab0103") (by decide +kernel) (by decide +kernel)

/-- C52 on received data: the right tag, and any other. -/
example (tag : Bytes) (ht : tag.length = 20) :
    (authCheckTransformString (transformAndHash (Hex.encode env64) sha1) ([0xab, 1, 3] ++ tag)
      (Verif.Hex.encInit env64, sha1Init (List.replicate 64 0))).observe
    = some (.ok (if Spec.SHA1 [0xab, 1, 3] = tag then some (ascii "ab0103") else none)) :=
  C52_check _ (C52_and_hash (Hex.encode_computes env64 (by decide))
    (C22_sha1 (List.replicate 64 0) (by decide)).toH (ops := [.putString [0xab, 1, 3]])
    (by intro op ho; simp only [List.mem_singleton] at ho; subst ho; exact ⟨trivial, trivial⟩)
    (by decide) (y := ascii "ab0103") (by decide +kernel) (by decide +kernel))
    (transformAndHash_wipe (fun t => ⟨_, rfl⟩) (stubHash_wipe _ _ _ _)) ht

/-- With SHA-224, what `auth_transform_string` produced is not accepted. -/
example (m x : Bytes) (hm : 2 * m.length ≤ env64.maxLen) :
    (authCheckTransformString (transformAndHash (Hex.encode env64) sha224) m
      (Verif.Hex.encInit env64, sha224Init (List.replicate 64 0))).observe ≠ some (.ok (some x)) :=
  C52_sha224_never_accepted (Hex.encode_computes env64 (by decide)) m
    (fun d hd e he => by simp only [List.mem_singleton] at he; subst he; omega)
    (fun t => ⟨_, rfl⟩) _ (by decide) x
    (by have : env64.maxLen = 144115188075855863 := rfl
        have : maxString = 144115188075855863 := by decide +kernel
        omega)

/-- `C52_then_hash_errors` and `C49_errors`: a text that is not hexadecimal. -/
example : ∀ r st, (transformThenHash env64 (Hex.decode env64) sha1).total [.putString (ascii "zz")]
    (thenHashInit env64 (Verif.Hex.decInit env64) (sha1Init (List.replicate 64 0))) ≠ .ok r st := by
  have h := (Hex.decode_refines env64).tcomputes (charSpec_lawful _ _ _)
    (Hex.decRep_init env64 (by decide))
  have hT := TComputes.congr (charMethods_call (fun b h0 h1 => putByteChr_eq _ b h0 h1)) rfl rfl h
  exact C52_then_hash_errors env64 hT
    (by intro op ho; simp only [List.mem_singleton] at ho; subst ho; exact ⟨trivial, trivial⟩)
    (by show (0 : Nat) ≤ env64.maxLen; decide) (e := .error .badEncoding) (by decide +kernel) (by decide)

end Example

end Verif
