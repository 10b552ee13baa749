import Verif.Proof.Channel
import Verif.Proof.OBuf
import Verif.Spec.AuthHistory
/-
`transform_then_hash` and `transform_and_hash` as histories of calls on the transform and the hash.
-/
namespace Verif

open Spec

variable {τ η α : Type}

namespace ThenHashSt

theorem onTr_ok {m : M τ α} {t t' : τ} {a : α} (h : m t = .ok a t') (s : η) (ob : OBuf) :
    onTr m (⟨t, s, ob⟩ : ThenHashSt τ η) = .ok a ⟨t', s, ob⟩ := by simp [onTr, M.zoom, h]

theorem onBuf_ok {m : M OBuf α} {ob ob' : OBuf} {a : α} (h : m ob = .ok a ob') (t : τ) (s : η) :
    onBuf m (⟨t, s, ob⟩ : ThenHashSt τ η) = .ok a ⟨t, s, ob'⟩ := by simp [onBuf, M.zoom, h]

theorem onHash_sim (m : M η α) (t : τ) (s : η) (ob : OBuf) :
    Out.Sim (fun a p a' s' => a = a' ∧ p = ⟨t, s', ob⟩) (onHash m (⟨t, s, ob⟩ : ThenHashSt τ η))
      (m s) := by
  simp only [onHash, M.zoom]
  cases m s <;> simp [Out.Sim]

end ThenHashSt

open ThenHashSt

/-- The transfer hands what the transform outputs to the hash and to the buffer. -/
theorem transfer_sim (env : Env) (T : Transform τ) (H : HashObj η) {t t' : τ} {y : Bytes}
    (h : T.call .getSubstring t = .ok y t') (hy : y.length ≤ maxString) :
    ∃ hop : HOp, hop.Legal ∧ hop.input = y ∧ ∀ s ob q, OBuf.Rep env ob q →
      q.length + y.length ≤ env.maxLen →
      Out.Sim (fun _ st _ s' => st.tr = t' ∧ st.h = s' ∧ OBuf.Rep env st.ob (q ++ y))
        (transfer env T H ⟨t, s, ob⟩) (H.call hop s) := by
  obtain ⟨b, o, l, h1, h2, h3⟩ := call_getSubstring h
  obtain ⟨r1, r2, r3⟩ := h2
  have hlen : y.length = l.toNat := by rw [h3, slice_length]; omega
  refine ⟨.addSubstring b o l, ⟨by omega, r1, r2, r3⟩, h3.symm, fun s ob q hR hq => ?_⟩
  rw [transfer, M.bind_ok (onTr_ok h1 s ob)]
  have hsim : Out.Sim (fun _ st _ s' => st = (⟨t', s', ob⟩ : ThenHashSt τ η))
      (onHash (H.addSubstring b o l) (⟨t', s, ob⟩ : ThenHashSt τ η))
      (H.call (.addSubstring b o l) s) :=
    (onHash_sim (H.addSubstring b o l) t' s ob).mono fun _ _ _ _ hh => hh.2
  have hrhs : H.call (.addSubstring b o l) s
      = (do H.call (.addSubstring b o l); pure () : M η Unit) s := by
    rw [M.bind_def]; cases H.call (.addSubstring b o l) s <;> rfl
  rw [hrhs]
  refine Out.Sim.bind hsim ?_
  rintro _ _ _ s' rfl
  obtain ⟨ob', e1, e2, e3⟩ := OBuf.ensureCapacity_ok hR l.toNat (by omega)
  have hl : ((l.toNat : Nat) : Int) = l := by omega
  rw [hl] at e1
  rw [M.bind_ok (onBuf_ok e1 t' s'), M.bind_ok (M.get_def _)]
  simp only
  have hb := bytesBlit_ok (src := b) (so := o.toNat) (dst := ob'.obuf) (dofs := ob'.oend)
    (n := l.toNat)
    (by omega) e3
  rw [hl, show ((o.toNat : Nat) : Int) = o by omega] at hb
  rw [hb, M.bind_ok (M.orRaise_some _ _ _)]
  have hw := e2.write (x := y) (by omega)
  refine ⟨rfl, rfl, ?_⟩
  rw [hlen] at hw
  rw [← h3]
  exact hw

/-- The two kinds of calls on the combination. -/
theorem thenHash_put (env : Env) (T : Transform τ) (H : HashObj η) (op : TOp)
    (hp : op.isPut = true) :
    ∃ m : M τ Unit, T.call op = (do m; pure [])
      ∧ (transformThenHash env T H).base.call op
        = (do (do onTr m; transfer env T H); pure []) := by
  cases op with
  | putSubstring b o l => exact ⟨_, rfl, rfl⟩
  | putString s => exact ⟨_, rfl, rfl⟩
  | putChar c => exact ⟨_, rfl, rfl⟩
  | putByte b => exact ⟨_, rfl, rfl⟩
  | _ => cases hp

theorem thenHash_get (env : Env) (T : Transform τ) (H : HashObj η) (op : TOp)
    (hp : op.isPut = false) (t : τ) (s : η) (ob : OBuf) (q : Bytes) (hR : OBuf.Rep env ob q) :
    ∃ a ob' q', (transformThenHash env T H).base.call op ⟨t, s, ob⟩ = .ok a ⟨t, s, ob'⟩
      ∧ OBuf.Rep env ob' q' ∧ a ++ q' = q := by
  cases op with
  | putSubstring b o l => cases hp
  | putString s => cases hp
  | putChar c => cases hp
  | putByte b => cases hp
  | getString =>
    exact ⟨q, _, [], onBuf_ok (OBuf.getString_ok hR) t s, hR.clear, by simp⟩
  | getSubstring =>
    obtain ⟨h1, h2, h3⟩ := OBuf.getSubstring_ok hR
    refine ⟨q, _, [], ?_, hR.clear, by simp⟩
    rw [Transform.call]
    refine Eq.trans (M.bind_ok (onBuf_ok h1 t s)) ?_
    simp only
    rw [bytesSub_ok h2, h3]; rfl
  | getChar =>
    cases q with
    | nil =>
      refine ⟨[], ob, [], ?_, hR, rfl⟩
      simp [Transform.call, transformThenHash, onBuf, M.zoom, OBuf.getChar_nil hR]
    | cons c q =>
      obtain ⟨ob', h1, h2⟩ := OBuf.getChar_cons hR
      refine ⟨[c], ob', q, ?_, h2, rfl⟩
      simp [Transform.call, transformThenHash, onBuf, M.zoom, h1]
  | getByte =>
    cases q with
    | nil =>
      refine ⟨[], ob, [], ?_, hR, rfl⟩
      simp [Transform.call, transformThenHash, onBuf, M.zoom, OBuf.getByte,
        M.bind_exn (OBuf.getChar_nil hR)]
    | cons c q =>
      obtain ⟨ob', h1, h2⟩ := OBuf.getChar_cons hR
      refine ⟨[c], ob', q, ?_, h2, rfl⟩
      simp [Transform.call, transformThenHash, onBuf, M.zoom, OBuf.getByte, M.bind_ok h1]
  | available =>
    refine ⟨[], ob, q, ?_, hR, rfl⟩
    rw [Transform.call]
    exact M.bind_ok (onBuf_ok (OBuf.availableOutput_ok hR) t s)

theorem thenHash_calls (env : Env) (T : Transform τ) (H : HashObj η) (ops : List TOp)
    {t t' : τ} {x : Bytes} (h : T.calls (liftOps ops) t = .ok x t') (hx : x.length ≤ maxString) :
    ∃ hops : List HOp, (∀ op ∈ hops, op.Legal) ∧ hinputOf hops = x ∧ ∀ s ob q,
      OBuf.Rep env ob q → q.length + x.length ≤ env.maxLen →
      Out.Sim (fun a st _ s' => st.tr = t' ∧ st.h = s' ∧ ∃ q', OBuf.Rep env st.ob q'
          ∧ a ++ q' = q ++ x)
        ((transformThenHash env T H).base.calls ops ⟨t, s, ob⟩) (H.callsM hops s) := by
  induction ops generalizing t x with
  | nil =>
    cases h
    exact ⟨[], by simp, rfl, fun s ob q hR _ => ⟨rfl, rfl, q, hR, by simp⟩⟩
  | cons op ops ih =>
    cases hp : op.isPut with
    | true =>
      obtain ⟨m, hm1, hm2⟩ := thenHash_put env T H op hp
      have hlift : liftOps (op :: ops) = op :: .getSubstring :: liftOps ops := by
        simp [liftOps, hp]
      rw [hlift] at h
      obtain ⟨x1, ta, h1, h⟩ := M.bind_eq_ok h
      obtain ⟨xr, tb, h2, h⟩ := M.bind_eq_ok h
      cases h
      obtain ⟨y, tc, h3, h4⟩ := M.bind_eq_ok h2
      obtain ⟨xs, td, h5, h6⟩ := M.bind_eq_ok h4
      cases h6
      rw [hm1] at h1
      obtain ⟨_, te, h7, h8⟩ := M.bind_eq_ok h1
      cases h8
      simp only [List.nil_append, List.length_append] at hx
      obtain ⟨hop, k1, k2, k3⟩ := transfer_sim env T H h3 (by omega)
      obtain ⟨hops, i1, i2, i3⟩ := ih h5 (by omega)
      refine ⟨hop :: hops, ?_, ?_, fun s ob q hR hq => ?_⟩
      · intro o ho
        rcases List.mem_cons.1 ho with rfl | ho
        · exact k1
        · exact i1 _ ho
      · rw [hinputOf_cons, i2, k2]; rfl
      · simp only [List.nil_append, List.length_append] at hq
        rw [Transform.calls, hm2, HashObj.callsM_cons]
        simp only [M.bind_assoc]
        rw [M.bind_ok (onTr_ok h7 s ob)]
        refine Out.Sim.bind (k3 s ob q hR (by omega)) ?_
        rintro _ ⟨tt, ss, ob1⟩ _ s1 ⟨rfl, rfl, hR1⟩
        have := i3 ss ob1 (q ++ y) hR1 (by rw [List.length_append]; omega)
        rw [M.bind_ok (M.pure_def _ _), M.bind_def]
        cases hL : (transformThenHash env T H).base.calls ops ⟨tt, ss, ob1⟩ <;> rw [hL] at this <;>
          cases hT : H.callsM hops ss <;> rw [hT] at this <;>
          simp only [Out.Sim, M.pure_def] at this ⊢
        · obtain ⟨p1, p2, q', p3, p4⟩ := this
          exact ⟨p1, p2, q', p3, by simpa using p4⟩
        · exact this
    | false =>
      have hlift : liftOps (op :: ops) = liftOps ops := by simp [liftOps, hp]
      rw [hlift] at h
      obtain ⟨hops, i1, i2, i3⟩ := ih h hx
      refine ⟨hops, i1, i2, fun s ob q hR hq => ?_⟩
      obtain ⟨a, ob1, q1, g1, g2, g3⟩ := thenHash_get env T H op hp t s ob q hR
      have hlen := congrArg List.length g3
      rw [List.length_append] at hlen
      have := i3 s ob1 q1 g2 (by omega)
      rw [Transform.calls, M.bind_ok g1, M.bind_def]
      cases hL : (transformThenHash env T H).base.calls ops ⟨t, s, ob1⟩ <;> rw [hL] at this <;>
        cases hT : H.callsM hops s <;> rw [hT] at this <;>
        simp only [Out.Sim, M.pure_def] at this ⊢
      · obtain ⟨p1, p2, q', p3, p4⟩ := this
        refine ⟨p1, p2, q', p3, ?_⟩
        rw [List.append_assoc, p4, ← List.append_assoc, g3]
      · exact this

/-- The whole history. -/
theorem thenHash_total (env : Env) (T : Transform τ) (H : HashObj η) (ops : List TOp)
    {t t' : τ} {y : Bytes}
    (h : runParts T [⟨liftOps ops, true⟩] t = .ok [y] t') (hy : y.length ≤ maxString)
    (hy' : y.length ≤ env.maxLen) (h256 : 256 ≤ env.maxLen) :
    ∃ hops : List HOp, (∀ op ∈ hops, op.Legal) ∧ hinputOf hops = y ∧ ∀ s,
      Out.Sim (fun a _ tag _ => a = (y, tag))
        ((transformThenHash env T H).total ops (thenHashInit env t s)) (H.digest hops s) := by
  rw [runParts] at h
  obtain ⟨x1, ta, h1, h⟩ := M.bind_eq_ok h
  obtain ⟨_, tb, h2, h⟩ := M.bind_eq_ok h
  obtain ⟨x2, tc, h3, h⟩ := M.bind_eq_ok h
  obtain ⟨_, td, h4, h⟩ := M.bind_eq_ok h
  cases h4; cases h
  rw [if_pos rfl] at h3
  rw [List.length_append] at hy hy'
  obtain ⟨hops, i1, i2, i3⟩ := thenHash_calls env T H ops h1 (by omega)
  obtain ⟨hop, k1, k2, k3⟩ := transfer_sim env T H h3 (by omega)
  refine ⟨hops ++ [hop], ?_, ?_, fun s => ?_⟩
  · intro o ho
    rcases List.mem_append.1 ho with ho | ho
    · exact i1 _ ho
    · simp only [List.mem_singleton] at ho; subst ho; exact k1
  · rw [hinputOf, List.map_append, List.flatten_append]
    rw [hinputOf] at i2
    rw [i2]; simp [k2]
  · have hd : H.digest (hops ++ [hop]) s
        = (do H.callsM hops; H.call hop; H.result : M η Bytes) s := by
      rw [HashObj.digest_eq]
      have : ∀ (l : List HOp) (s : η), H.callsM (l ++ [hop]) s
          = (do H.callsM l; H.call hop : M η Unit) s := by
        intro l
        induction l with
        | nil =>
          intro s
          simp only [List.nil_append, HashObj.callsM, M.bind_def, M.pure_def]
          cases H.call hop s <;> rfl
        | cons o l ih =>
          intro s
          simp only [List.cons_append, HashObj.callsM, M.bind_def]
          cases H.call o s <;> simp [ih, M.bind_def]
      rw [M.bind_def, this, ← M.bind_def, M.bind_assoc]
    rw [hd, AuthTransform.total]
    refine Out.Sim.bind (i3 s _ [] (OBuf.rep_init env 256 (by omega) h256) (by simp; omega)) ?_
    rintro a ⟨tt, ss, ob⟩ _ s1 ⟨rfl, rfl, q, hR, hq⟩
    simp only [transformThenHash, M.bind_assoc]
    have hfin : T.finish tt = .ok () tb := h2
    rw [M.bind_ok (onTr_ok hfin ss ob)]
    have hlen := congrArg List.length hq
    simp only [List.length_append, List.length_nil] at hlen
    refine Out.Sim.bind (k3 ss ob q hR (by omega)) ?_
    rintro _ ⟨tt, ss, ob⟩ _ s1 ⟨rfl, rfl, hR⟩
    have hres := onHash_sim H.result tt ss ob
    rw [M.bind_def]
    cases hL : onHash H.result (⟨tt, ss, ob⟩ : ThenHashSt τ η) <;> rw [hL] at hres <;>
      cases hT : H.result ss <;> rw [hT] at hres <;> simp only [Out.Sim] at hres ⊢
    · obtain ⟨rfl, rfl⟩ := hres
      rw [M.bind_ok (onBuf_ok (OBuf.getString_ok hR) _ _)]
      simp only [M.pure_def]
      rw [← List.append_assoc, hq]; rfl
    · exact hres

/-! ### When the transform fails -/

theorem zoom_eq_ok {σ ρ : Type} {g : ρ → σ} {f : σ → ρ → ρ} {m : M σ α} {r r' : ρ} {a : α}
    (h : M.zoom g f m r = .ok a r') : ∃ s', m (g r) = .ok a s' ∧ r' = f s' r := by
  simp only [M.zoom] at h
  cases hh : m (g r) <;> rw [hh] at h <;> cases h
  exact ⟨_, rfl, rfl⟩

/-- A transfer that returns: the transform handed out some output. -/
theorem transfer_rev (env : Env) (T : Transform τ) (H : HashObj η) {st st' : ThenHashSt τ η}
    (h : transfer env T H st = .ok () st') :
    ∃ b o l, T.getSubstring st.tr = .ok (b, o, l) st'.tr := by
  rw [transfer] at h
  obtain ⟨⟨b, o, l⟩, s1, h1, h⟩ := M.bind_eq_ok h
  obtain ⟨_, s2, h2, h⟩ := M.bind_eq_ok h
  obtain ⟨_, s3, h3, h⟩ := M.bind_eq_ok h
  obtain ⟨_, s4, h4, h⟩ := M.bind_eq_ok h
  cases h4
  obtain ⟨_, s5, h5, h⟩ := M.bind_eq_ok h
  obtain ⟨t1, g1, e1⟩ := zoom_eq_ok h1
  obtain ⟨_, _, e2⟩ := zoom_eq_ok h2
  obtain ⟨_, _, e3⟩ := zoom_eq_ok h3
  have e5 : s5 = s3 := by
    cases hb : bytesBlit b o s3.ob.obuf s3.ob.oend l with
    | none => rw [hb] at h5; cases h5
    | some z => rw [hb] at h5; cases h5; rfl
  cases h
  refine ⟨b, o, l, ?_⟩
  rw [g1, e5, e3, e2, e1]

/-- Where the combination returns, so does the transform, unless it hands out an invalid range. -/
theorem thenHash_calls_rev (env : Env) (T : Transform τ) (H : HashObj η) (ops : List TOp)
    {st st' : ThenHashSt τ η} {y : Bytes}
    (h : (transformThenHash env T H).base.calls ops st = .ok y st') :
    (∃ x, T.calls (liftOps ops) st.tr = .ok x st'.tr)
      ∨ ∃ t, T.calls (liftOps ops) st.tr = .exn .invalidArg t := by
  induction ops generalizing st y with
  | nil => cases h; exact .inl ⟨_, rfl⟩
  | cons op ops ih =>
    rw [Transform.calls] at h
    obtain ⟨y1, s1, h1, h⟩ := M.bind_eq_ok h
    obtain ⟨ys, s2, h2, h⟩ := M.bind_eq_ok h
    cases h
    cases hp : op.isPut with
    | true =>
      obtain ⟨m, hm1, hm2⟩ := thenHash_put env T H op hp
      have hlift : liftOps (op :: ops) = op :: .getSubstring :: liftOps ops := by
        simp [liftOps, hp]
      rw [hlift, Transform.calls, Transform.calls]
      rw [hm2, M.bind_assoc] at h1
      obtain ⟨_, s3, h3, h1⟩ := M.bind_eq_ok h1
      obtain ⟨_, s4, h4, h1⟩ := M.bind_eq_ok h1
      cases h1
      obtain ⟨t3, e3, e3'⟩ := zoom_eq_ok h3
      obtain ⟨b, o, l, e4⟩ := transfer_rev env T H h4
      rw [e3'] at e4
      have c1 : T.call op st.tr = .ok [] t3 := by rw [hm1, M.bind_ok e3]; rfl
      have c2 : T.call .getSubstring t3 = (M.orRaise .invalidArg (bytesSub b o l)) s1.tr := by
        rw [Transform.call, M.bind_ok e4]
      rw [M.bind_ok c1]
      cases hb : bytesSub b o l with
      | none =>
        rw [hb, M.orRaise_none] at c2
        rw [M.bind_assoc, M.bind_exn c2]
        exact .inr ⟨_, rfl⟩
      | some z =>
        rw [hb, M.orRaise_some] at c2
        rw [M.bind_assoc, M.bind_ok c2]
        simp only [M.bind_assoc]
        rcases ih h2 with ⟨x, hx⟩ | ⟨t, hx⟩
        · rw [M.bind_ok hx]; exact .inl ⟨_, rfl⟩
        · rw [M.bind_exn hx]; exact .inr ⟨_, rfl⟩
    | false =>
      have hlift : liftOps (op :: ops) = liftOps ops := by simp [liftOps, hp]
      rw [hlift]
      have : st.tr = s1.tr := by
        cases op with
        | putSubstring b o l => cases hp
        | putString s => cases hp
        | putChar c => cases hp
        | putByte b => cases hp
        | getString =>
          have h1' : onBuf OBuf.getString st = .ok y1 s1 := h1
          obtain ⟨_, _, e⟩ := zoom_eq_ok h1'
          rw [e]
        | getSubstring =>
          rw [Transform.call] at h1
          obtain ⟨⟨b, o, l⟩, s3, h3, h1⟩ := M.bind_eq_ok h1
          have h3' : onBuf OBuf.getSubstring st = .ok (b, o, l) s3 := h3
          obtain ⟨_, _, e⟩ := zoom_eq_ok h3'
          simp only at h1
          cases hb : bytesSub b o l <;> rw [hb] at h1 <;> cases h1
          rw [e]
        | getChar =>
          simp only [Transform.call, transformThenHash, onBuf, M.zoom] at h1
          cases hh : OBuf.getChar st.ob with
          | ok c o' => rw [hh] at h1; cases h1; rfl
          | exn e o' => rw [hh] at h1; cases e <;> cases h1 <;> rfl
          | ub => rw [hh] at h1; cases h1
          | loop => rw [hh] at h1; cases h1
        | getByte =>
          simp only [Transform.call, transformThenHash, onBuf, M.zoom] at h1
          cases hh : OBuf.getByte st.ob with
          | ok c o' => rw [hh] at h1; cases h1; rfl
          | exn e o' => rw [hh] at h1; cases e <;> cases h1 <;> rfl
          | ub => rw [hh] at h1; cases h1
          | loop => rw [hh] at h1; cases h1
        | available =>
          rw [Transform.call] at h1
          obtain ⟨v, s3, h3, h1⟩ := M.bind_eq_ok h1
          have h3' : onBuf OBuf.availableOutput st = .ok v s3 := h3
          obtain ⟨_, _, e⟩ := zoom_eq_ok h3'
          cases h1
          rw [e]
      rw [this]
      exact ih h2

theorem thenHash_total_rev (env : Env) (T : Transform τ) (H : HashObj η) (ops : List TOp)
    {t : τ} {s : η} {r : Bytes × Bytes} {st' : ThenHashSt τ η}
    (h : (transformThenHash env T H).total ops (thenHashInit env t s) = .ok r st') :
    (∃ y t', runParts T [⟨liftOps ops, true⟩] t = .ok y t')
      ∨ ∃ t', runParts T [⟨liftOps ops, true⟩] t = .exn .invalidArg t' := by
  rw [AuthTransform.total] at h
  obtain ⟨x, s1, h1, h⟩ := M.bind_eq_ok h
  obtain ⟨tag, s2, h2, h⟩ := M.bind_eq_ok h
  obtain ⟨_, s3, h3, h2⟩ := M.bind_eq_ok h2
  obtain ⟨_, s4, h4, h2⟩ := M.bind_eq_ok h2
  obtain ⟨t3, e3, e3'⟩ := zoom_eq_ok h3
  obtain ⟨b, o, l, e4⟩ := transfer_rev env T H h4
  rw [e3'] at e4
  rw [runParts]
  rcases thenHash_calls_rev env T H ops h1 with ⟨x, hx⟩ | ⟨t', hx⟩
  · have c1 : T.calls (liftOps ops) t = .ok x s1.tr := hx
    rw [M.bind_ok c1]
    have c2 : endPart T ([] : List Part).isEmpty s1.tr = .ok () t3 := e3
    rw [M.bind_ok c2, if_pos rfl]
    have c3 : T.call .getSubstring t3 = (M.orRaise .invalidArg (bytesSub b o l)) s4.tr := by
      rw [Transform.call, M.bind_ok e4]
    cases hb : bytesSub b o l with
    | none =>
      rw [hb, M.orRaise_none] at c3
      rw [M.bind_exn c3]
      exact .inr ⟨_, rfl⟩
    | some z =>
      rw [hb, M.orRaise_some] at c3
      rw [M.bind_ok c3]
      exact .inl ⟨_, _, rfl⟩
  · have c1 : T.calls (liftOps ops) t = .exn .invalidArg t' := hx
    rw [M.bind_exn c1]
    exact .inr ⟨_, rfl⟩

/-! ### `transform_and_hash` -/

/-- The calls made on the hash. -/
def hashOps (ops : List TOp) : List HOp :=
  ops.filterMap fun op => match op with
    | .putSubstring b o l => some (.addSubstring b o l)
    | .putString s => some (.addString s)
    | .putChar c => some (.addChar c)
    | .putByte b => some (.addByte b)
    | _ => none

theorem hashOps_input (ops : List TOp) : hinputOf (hashOps ops) = inputOf ops := by
  induction ops with
  | nil => rfl
  | cons op ops ih =>
    rw [inputOf_cons, ← ih]
    cases op <;> simp [hashOps, hinputOf, HOp.input, TOp.input]

theorem hashOps_legal (ops : List TOp) (h : ∀ op ∈ ops, op.Legal)
    (hm : (inputOf ops).length ≤ maxString) : ∀ op ∈ hashOps ops, op.Legal := by
  induction ops with
  | nil => simp [hashOps]
  | cons op ops ih =>
    rw [inputOf_cons, List.length_append] at hm
    have ih' := ih (fun o ho => h o (by simp [ho])) (by omega)
    have hop := h op (by simp)
    intro o ho
    cases op with
    | putSubstring b ofs l =>
      simp only [hashOps, List.filterMap_cons, List.mem_cons] at ho
      rcases ho with rfl | ho
      · obtain ⟨r1, r2, r3⟩ := hop
        simp only [TOp.input, slice_length] at hm
        exact ⟨by omega, r1, r2, r3⟩
      · exact ih' o ho
    | putString s =>
      simp only [hashOps, List.filterMap_cons, List.mem_cons] at ho
      rcases ho with rfl | ho
      · simp only [TOp.input] at hm
        show s.length ≤ maxString
        omega
      · exact ih' o ho
    | putChar c =>
      simp only [hashOps, List.filterMap_cons, List.mem_cons] at ho
      rcases ho with rfl | ho
      · trivial
      · exact ih' o ho
    | putByte b =>
      simp only [hashOps, List.filterMap_cons, List.mem_cons] at ho
      rcases ho with rfl | ho
      · trivial
      · exact ih' o ho
    | _ => exact ih' o ho

theorem andHash_calls (T : Transform τ) (H : HashObj η) (ops : List TOp)
    {t t' : τ} {x : Bytes} (h : T.calls ops t = .ok x t') (s : η) :
    Out.Sim (fun a p _ s' => a = x ∧ p = (t', s'))
      ((transformAndHash T H).base.calls ops (t, s)) (H.callsM (hashOps ops) s) := by
  induction ops generalizing t x s with
  | nil => cases h; exact ⟨rfl, rfl⟩
  | cons op ops ih =>
    rw [Transform.calls] at h
    obtain ⟨x1, ta, h1, h⟩ := M.bind_eq_ok h
    obtain ⟨x2, tb, h2, h⟩ := M.bind_eq_ok h
    cases h
    have ih' := fun s => ih h2 s
    have put : ∀ (m : M τ Unit) (n : M η Unit), (do m; pure [] : M τ Bytes) t = .ok x1 ta →
        Out.Sim (fun a p _ s' => a = x1 ++ x2 ∧ p = (t', s'))
          ((do let x ← (do (do M.onFst m; M.onSnd n); pure [] : M (τ × η) Bytes)
               let y ← (transformAndHash T H).base.calls ops
               pure (x ++ y) : M (τ × η) Bytes) (t, s))
          ((do n; H.callsM (hashOps ops) : M η Unit) s) := by
      intro m n hm
      obtain ⟨_, tc, g1, g2⟩ := M.bind_eq_ok hm
      cases g2
      simp only [M.bind_assoc]
      rw [M.bind_ok (M.onFst_ok g1 s)]
      refine Out.Sim.bind (M.onSnd_sim _ _ _) ?_
      rintro _ _ _ s' ⟨_, rfl⟩
      rw [M.bind_ok (M.pure_def _ _), M.bind_def]
      have := ih' s'
      cases hL : (transformAndHash T H).base.calls ops (ta, s') <;> rw [hL] at this <;>
        cases hT : H.callsM (hashOps ops) s' <;> rw [hT] at this <;>
        simp only [Out.Sim, M.pure_def] at this ⊢
      · exact ⟨by rw [this.1], this.2⟩
      · exact this
    have get : (transformAndHash T H).base.call op (t, s) = .ok x1 (ta, s) →
        hashOps (op :: ops) = hashOps ops →
        Out.Sim (fun a p _ s' => a = x1 ++ x2 ∧ p = (t', s'))
          ((transformAndHash T H).base.calls (op :: ops) (t, s))
          (H.callsM (hashOps (op :: ops)) s) := by
      intro g1 g2
      rw [Transform.calls, M.bind_ok g1, g2, M.bind_def]
      have := ih' s
      cases hL : (transformAndHash T H).base.calls ops (ta, s) <;> rw [hL] at this <;>
        cases hT : H.callsM (hashOps ops) s <;> rw [hT] at this <;>
        simp only [Out.Sim, M.pure_def] at this ⊢
      · exact ⟨by rw [this.1], this.2⟩
      · exact this
    cases op with
    | putSubstring b o l => exact put _ _ h1
    | putString s => exact put _ _ h1
    | putChar c => exact put _ _ h1
    | putByte b => exact put _ _ h1
    | getString => exact get (M.onFst_ok h1 s) rfl
    | getSubstring =>
      refine get ?_ rfl
      rw [Transform.call] at h1 ⊢
      obtain ⟨⟨b, o, l⟩, tc, g1, g2⟩ := M.bind_eq_ok h1
      refine Eq.trans (M.bind_ok (M.onFst_ok g1 s)) ?_
      simp only at g2 ⊢
      cases hb : bytesSub b o l <;> rw [hb] at g2 <;> cases g2
      rfl
    | getChar =>
      refine get ?_ rfl
      simp only [Transform.call, transformAndHash, M.onFst, M.zoom] at h1 ⊢
      cases hh : T.getChar t with
      | ok c o' => rw [hh] at h1; cases h1; rfl
      | exn e o' => rw [hh] at h1; cases e <;> cases h1 <;> rfl
      | ub => rw [hh] at h1; cases h1
      | loop => rw [hh] at h1; cases h1
    | getByte =>
      refine get ?_ rfl
      simp only [Transform.call, transformAndHash, M.onFst, M.zoom] at h1 ⊢
      cases hh : T.getByte t with
      | ok c o' => rw [hh] at h1; cases h1; rfl
      | exn e o' => rw [hh] at h1; cases e <;> cases h1 <;> rfl
      | ub => rw [hh] at h1; cases h1
      | loop => rw [hh] at h1; cases h1
    | available =>
      refine get ?_ rfl
      rw [Transform.call] at h1 ⊢
      obtain ⟨_, tc, g1, g2⟩ := M.bind_eq_ok h1
      cases g2
      exact M.bind_ok (M.onFst_ok g1 s)

theorem andHash_total (T : Transform τ) (H : HashObj η) (ops : List TOp)
    {t t' : τ} {y : Bytes} (h : runParts T [⟨ops, false⟩] t = .ok [y] t') (s : η) :
    Out.Sim (fun a _ tag _ => a = (y, tag))
      ((transformAndHash T H).total ops (t, s)) (H.digest (hashOps ops) s) := by
  rw [runParts] at h
  obtain ⟨x1, ta, h1, h⟩ := M.bind_eq_ok h
  obtain ⟨_, tb, h2, h⟩ := M.bind_eq_ok h
  obtain ⟨x2, tc, h3, h⟩ := M.bind_eq_ok h
  obtain ⟨_, td, h4, h⟩ := M.bind_eq_ok h
  cases h4; cases h
  rw [if_neg (by simp)] at h3
  rw [HashObj.digest_eq, AuthTransform.total]
  refine Out.Sim.bind (andHash_calls T H ops h1 s) ?_
  rintro a _ _ s1 ⟨rfl, rfl⟩
  simp only [transformAndHash, M.bind_assoc]
  have hfin : T.finish ta = .ok () tb := h2
  rw [M.bind_ok (M.onFst_ok hfin s1)]
  have hres := M.onSnd_sim H.result s1 tb
  rw [M.bind_def]
  cases hL : M.onSnd H.result (tb, s1) <;> rw [hL] at hres <;>
    cases hT : H.result s1 <;> rw [hT] at hres <;> simp only [Out.Sim] at hres ⊢
  · obtain ⟨rfl, rfl⟩ := hres
    have hg : T.getString tb = .ok x2 t' := h3
    rw [M.bind_ok (M.onFst_ok hg _)]
    rfl
  · exact hres

end Verif
