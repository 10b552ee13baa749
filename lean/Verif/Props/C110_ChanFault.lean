import Verif.Proof.ChanFault
import Verif.Spec.ChanFault
import Verif.Props.C49_C52_Combinators
/-
C110: `transform_channel` and `hash_channel` over channels that fail. C111: the buffer through which they read.
-/
namespace Verif

open Spec ChanFault

variable {τ η : Type}

namespace ChanFault

/-- `transform_string` returns what `F` says. -/
theorem transformString_of {T : Transform τ} {t : τ} {ok : List Bytes → Prop}
    {G : List Bytes → Except Exn (List Bytes)} (hT : TComputes T t ok G)
    (hw : ∀ t, ∃ t', T.wipe t = .ok () t') {d y : Bytes} (hok : ok [d]) (hG : G [d] = .ok [y]) :
    (transformString T d t).observe = some (.ok y) := by
  have hin : inputOf [.putString d] = d := by simp [inputOf, TOp.input]
  have h2 := hT [⟨[.putString d], false⟩] (by simp)
    (by intro p hp; simp only [List.mem_singleton] at hp; subst hp
        intro op ho; simp only [List.mem_singleton] at ho; subst ho; exact ⟨trivial, trivial⟩)
    (by simpa [Part.data, hin] using hok)
  simp only [List.map_cons, List.map_nil, Part.data, hin, hG] at h2
  rw [Cipher.transformString_observe hw, Transform.total]
  simp only [runParts, endPart, List.isEmpty_nil, if_true, M.bind_def, Transform.call, Bool.false_eq_true,
    if_false] at h2 ⊢
  cases h1 : T.calls [.putString d] t with
  | ok x ta =>
    simp only [h1] at h2 ⊢
    cases h3 : T.finish ta with
    | ok u tb =>
      simp only [h3] at h2 ⊢
      cases h4 : T.getString tb with
      | ok z tc =>
        simp only [h4, M.pure_def, Out.observe] at h2 ⊢
        injection h2 with h2; injection h2 with h2; injection h2 with h2
        rw [h2]
      | _ => simp only [h4, Out.observe] at h2; cases h2
    | _ => simp only [h3, Out.observe] at h2; cases h2
  | _ => simp only [h1, Out.observe] at h2; cases h2

/-- What has been obtained after some calls is a beginning of the output for all data that continue them. -/
theorem calls_prefix {T : Transform τ} {t0 t : τ} {ok : List Bytes → Prop}
    {G : List Bytes → Except Exn (List Bytes)} (hT : TComputes T t0 ok G)
    (hw : ∀ t, ∃ t', T.wipe t = .ok () t') {ops : List TOp} {x : Bytes} (hc : Calls T t0 ops x t) {z y : Bytes}
    (hok : ok [inputOf ops ++ z]) (hy : (transformString T (inputOf ops ++ z) t0).observe = some (.ok y)) :
    x <+: y := by
  have hG := hT.transformString hw hok hy
  have hin : inputOf (ops ++ [.putString z]) = inputOf ops ++ z := by simp [inputOf, TOp.input]
  have h2 := hT [⟨ops ++ [.putString z], false⟩] (by simp)
    (by intro p hp; simp only [List.mem_singleton] at hp; subst hp
        intro op ho
        rcases List.mem_append.1 ho with ho | ho
        · exact hc.1 _ ho
        · simp only [List.mem_singleton] at ho; subst ho; exact ⟨trivial, trivial⟩)
    (by simpa [Part.data, hin] using hok)
  simp only [List.map_cons, List.map_nil, Part.data, hin, hG] at h2
  simp only [runParts, M.bind_def, Transform.calls_append, hc.2] at h2
  cases h3 : T.calls [.putString z] t with
  | ok a ta =>
    simp only [h3, M.pure_def] at h2
    cases h4 : endPart T true ta with
    | ok u tb =>
      simp only [List.isEmpty_nil, h4, Bool.false_eq_true, if_false] at h2
      cases h5 : T.call .getString tb with
      | ok b tc =>
        simp only [h5, Out.observe, Except.map] at h2
        injection h2 with h2; injection h2 with h2; injection h2 with h2
        rw [← h2, List.append_assoc]
        exact List.prefix_append _ _
      | _ => simp only [h5, Out.observe] at h2; cases h2
    | _ => simp only [List.isEmpty_nil, h4, Out.observe] at h2; cases h2
  | _ => simp only [h3, Out.observe] at h2; cases h2

theorem calls_not_bad {T : Transform τ} {t0 : τ} {ok : List Bytes → Prop}
    {G : List Bytes → Except Exn (List Bytes)} (hT : TComputes T t0 ok G) {ops : List TOp}
    (hp : ∀ op ∈ ops, op.Proper) {D : Bytes} (hD : inputOf ops <+: D) (hok : ok [D]) :
    ¬ Bad (T.calls ops t0) := by
  obtain ⟨z, rfl⟩ := hD
  have hin : inputOf (ops ++ [.putString z]) = inputOf ops ++ z := by simp [inputOf, TOp.input]
  have h2 := hT [⟨ops ++ [.putString z], false⟩] (by simp)
    (by intro p hp'; simp only [List.mem_singleton] at hp'; subst hp'
        intro op ho
        rcases List.mem_append.1 ho with ho | ho
        · exact hp _ ho
        · simp only [List.mem_singleton] at ho; subst ho; exact ⟨trivial, trivial⟩)
    (by simpa [Part.data, hin] using hok)
  simp only [List.map_cons, List.map_nil, Part.data, hin] at h2
  intro hb
  simp only [runParts, M.bind_def, Transform.calls_append] at h2
  cases h : T.calls ops t0 with
  | ok x t => rw [h] at hb; exact hb
  | exn e t => rw [h] at hb; exact hb
  | ub => rw [h] at h2; cases h2
  | loop => rw [h] at h2; cases h2

theorem calls_exn {T : Transform τ} {t0 t : τ} {ok : List Bytes → Prop}
    {G : List Bytes → Except Exn (List Bytes)} (hT : TComputes T t0 ok G)
    (hw : ∀ t, ∃ t', T.wipe t = .ok () t') {ops : List TOp} (hp : ∀ op ∈ ops, op.Proper) {D : Bytes}
    (hD : inputOf ops <+: D) (hok : ok [D]) {e : Exn} (he : T.calls ops t0 = .exn e t) :
    ¬ ∃ y, Gives T t0 D y := by
  rintro ⟨y, hy⟩
  have hG := hT.transformString hw hok hy
  obtain ⟨z, rfl⟩ := hD
  have hin : inputOf (ops ++ [.putString z]) = inputOf ops ++ z := by simp [inputOf, TOp.input]
  have h2 := hT [⟨ops ++ [.putString z], false⟩] (by simp)
    (by intro p hp'; simp only [List.mem_singleton] at hp'; subst hp'
        intro op ho
        rcases List.mem_append.1 ho with ho | ho
        · exact hp _ ho
        · simp only [List.mem_singleton] at ho; subst ho; exact ⟨trivial, trivial⟩)
    (by simpa [Part.data, hin] using hok)
  simp only [List.map_cons, List.map_nil, Part.data, hin, hG] at h2
  simp only [runParts, M.bind_def, Transform.calls_append, he, Out.observe, Except.map] at h2
  injection h2 with h2
  cases h2

end ChanFault

/-- C110, `transform_channel`: whatever operations on the channels fail, with whatever exceptions, and whatever
the sizes of the reads, a normal return means that everything has been read and written, and otherwise what has
been written is a beginning of the right output. -/
theorem C110_transform_channel (env : Env) (F : Faults) {T : Transform τ} {t : τ} {ok : List Bytes → Prop}
    {G : List Bytes → Except Exn (List Bytes)} (hT : TComputes T t ok G)
    (hw : ∀ t, ∃ t', T.wipe t = .ok () t') (len : Option Int) (ic oc b : Bytes) (n : Nat)
    (hok : ok [toRead len ic]) :
    Delivers T t ok F (¬ enough len ic) ic oc (toRead len ic)
      (transformChannelF env F T len (t, ⟨ic, n, oc, b⟩)) := by
  have hc0 : Calls T t [] [] t := ⟨by simp, rfl⟩
  have loop : Ends F (¬ enough len ic) T t oc ic (toRead len ic)
      (fun ch => toRead len ic ++ ch.ic = ic ∧ enough len ic)
      (fTransf F T len (t, ⟨ic, n, oc, env.create 256⟩)) := by
    rw [fTransf, M.bind_ok (M.get_def _)]
    cases len with
    | none =>
      have := fTransfToEof_ends (t0 := t) (oc := oc) (ic := ic) (S := ¬ enough none ic) F T (ic.length + 1) t
        ⟨ic, n, oc, env.create 256⟩ [] [] hc0 (by simp) (by simp [inputOf]) (by simp) (by simp)
      cases h : fTransfToEof F T (ic.length + 1) (t, ⟨ic, n, oc, env.create 256⟩) with
      | ok a p =>
        simp only [h] at this ⊢
        obtain ⟨o1, o2, o3, o4, o5, o6, o7⟩ := this
        exact ⟨o1, o2, o3, o4, o5, o6, by rw [o7]; simp [toRead], by intro l hl; cases hl⟩
      | exn e p => simp only [h] at this ⊢; exact this
      | ub => simp only [h] at this ⊢; exact this
      | loop => simp only [h] at this ⊢; exact this
    | some l =>
      have := fTransfBounded_ends (t0 := t) (oc := oc) (ic := ic) (D := toRead (some l) ic)
        (S := ¬ enough (some l) ic) F T (l.toNat + 1) l t
        ⟨ic, n, oc, env.create 256⟩ [] [] hc0 (by simp) (by simp [inputOf]) (by simp) (by omega)
        (by simp [inputOf, toRead]) (by intro h1 h2; have := h2 l rfl; simp only at h1; omega)
      cases h : fTransfBounded F T (l.toNat + 1) l (t, ⟨ic, n, oc, env.create 256⟩) with
      | ok a p =>
        simp only [h] at this ⊢
        obtain ⟨o1, o2, o3, o4, o5, o6, o7, o8⟩ := this
        exact ⟨o1, o2, o3, o4, o5, o6, o7, by intro l' hl; injection hl with hl; subst hl; exact o8⟩
      | exn e p => simp only [h] at this ⊢; exact this
      | ub => simp only [h] at this ⊢; exact this
      | loop => simp only [h] at this ⊢; exact this
  have hstart : ∀ k : Unit → M (τ × FChan) Unit,
      (M.onSnd (M.modify fun ch : FChan => { ch with ibuf := env.create 256 }) >>= k) (t, ⟨ic, n, oc, b⟩)
        = k () (t, ⟨ic, n, oc, env.create 256⟩) := fun k => rfl
  rw [transformChannelF, hstart, M.bind_def]
  cases hl : fTransf F T len (t, ⟨ic, n, oc, env.create 256⟩) with
  | ub =>
    rw [hl] at loop
    obtain ⟨_, ops, h1, h2, h3⟩ := loop
    exact absurd h2 (calls_not_bad hT h1 h3 hok)
  | loop =>
    rw [hl] at loop
    obtain ⟨_, ops, h1, h2, h3⟩ := loop
    exact absurd h2 (calls_not_bad hT h1 h3 hok)
  | exn e p =>
    rw [hl] at loop
    obtain ⟨⟨ops, x, t', w, u, h1, h2, h3, h4, h5, h6⟩, hcause⟩ := loop
    refine ⟨?_, w, h2, ?_, fun _ => ⟨inputOf ops, u, h4, h5, ?_⟩⟩
    · rcases hcause with h | h | ⟨ops', t'', k1, k2, k3⟩
      · exact .inl h
      · exact .inr (.inl h)
      · exact .inr (.inr (calls_exn hT hw k1 k2 hok k3))
    · intro y hy
      obtain ⟨z, hz⟩ := h6
      rw [← hz, List.append_assoc] at hy
      exact h3.trans (calls_prefix hT hw h1 (by rw [← List.append_assoc, hz]; exact hok) hy)
    · intro z y hz hy
      exact h3.trans (calls_prefix hT hw h1 hz hy)
  | ok a p =>
    rw [hl] at loop
    obtain ⟨t1, ch⟩ := p
    obtain ⟨ops, x, h1, h2, h3, _, h5, hen⟩ := loop
    simp only at h1 h2 h3 h5
    have hD : inputOf ops = toRead len ic := List.append_cancel_right (h3.trans h5.symm)
    have hrun := hT [⟨ops, true⟩] (by simp)
      (by intro p hp; simp only [List.mem_singleton] at hp; subst hp; exact h1.1)
      (by simpa [Part.data, hD] using hok)
    simp only [List.map_cons, List.map_nil, Part.data, hD] at hrun
    have stopped : ∀ (t' : τ) (ch' : FChan), ch'.oc = oc ++ x → ch'.ic = ch.ic → ∀ e,
        G [toRead len ic] = .error e →
        Delivers T t ok F (¬ enough len ic) ic oc (toRead len ic) (.exn e (t', ch')) := by
      intro t' ch' k1 k2 e ke
      refine ⟨.inr (.inr ?_), x, k1, ?_,
        fun _ => ⟨inputOf ops, [], by rw [k2, List.append_nil]; exact h3, by simp, ?_⟩⟩
      · rintro ⟨y, hy⟩
        have := hT.transformString hw hok hy
        rw [ke] at this
        cases this
      · intro y hy
        refine calls_prefix hT hw h1 (z := []) (by rw [List.append_nil, hD]; exact hok) ?_
        rw [List.append_nil, hD]; exact hy
      · intro z y hz hy
        exact calls_prefix hT hw h1 hz hy
    simp only [runParts, endPart, List.isEmpty_nil, if_true, M.bind_def, h1.2] at hrun
    simp only [M.bind_def, M.onSnd, M.onFst, M.zoom, M.modify_def, fOutputPending]
    cases hf : T.finish t1 with
    | ub => rw [hf] at hrun; cases hrun
    | loop => rw [hf] at hrun; cases hrun
    | exn e t2 =>
      rw [hf] at hrun
      exact stopped t2 { ch with ibuf := wipeBytes ch.ibuf } h2 rfl e (by injection hrun with h; exact h.symm)
    | ok a t2 =>
      rw [hf] at hrun
      simp only [Transform.call, M.bind_def] at hrun ⊢
      cases hg : T.getSubstring t2 with
      | ub => rw [hg] at hrun; cases hrun
      | loop => rw [hg] at hrun; cases hrun
      | exn e t3 =>
        rw [hg] at hrun
        exact stopped t3 { ch with ibuf := wipeBytes ch.ibuf } h2 rfl e (by injection hrun with h; exact h.symm)
      | ok g t3 =>
        obtain ⟨ob, o, l⟩ := g
        rw [hg] at hrun
        simp only [fOutput] at hrun ⊢
        cases hy : bytesSub ob o l with
        | none =>
          rw [hy] at hrun
          exact stopped t3 { ch with ibuf := wipeBytes ch.ibuf } h2 rfl _
            (by injection hrun with h; exact h.symm)
        | some y =>
          rw [hy] at hrun
          simp only [M.orRaise_some, M.pure_def, Out.observe] at hrun
          have hgive : Gives T t (toRead len ic) (x ++ y) :=
            transformString_of hT hw hok (by injection hrun with hrun; exact hrun.symm)
          cases hfl : F.fails ch.count with
          | some e =>
            refine ⟨.inl ⟨_, hfl⟩, x ++ y.take (F.part ch.count), ?_, ?_, ?_⟩
            · simp [h2]
            · intro y' hy'
              have : y' = x ++ y := by
                have := hgive.symm.trans hy'
                injection this with this; injection this with this; exact this.symm
              rw [this]
              exact (List.prefix_append_right_inj x).2 (List.take_prefix _ _)
            · intro h; exact absurd ⟨_, hgive⟩ h
          | none =>
            obtain ⟨t4, h4⟩ := hw t3
            simp only [h4]
            exact ⟨by simpa using hen, h5, x ++ y, hgive, by simp [h2]⟩

/-- C110, `hash_channel`: whatever operations on the channel fail, if a digest is returned, it is that of all the
data that had to be read. Otherwise a read has failed, or the channel is too short, or the hash refuses
the data. -/
theorem C110_hash_channel (env : Env) (F : Faults) {H : HashObj η} {s : η} {f : Bytes → Except Exn Bytes}
    (hH : HComputes H s f) (hw : ∀ s, ∃ s', H.wipe s = .ok () s') (len : Option Int) (ic oc b : Bytes) (n : Nat) :
    match hashChannelF env F H len (s, ⟨ic, n, oc, b⟩) with
    | .ok r (_, ch) => enough len ic ∧ toRead len ic ++ ch.ic = ic ∧ ch.oc = oc ∧ f (toRead len ic) = .ok r
    | .exn e (_, ch) => ch.oc = oc ∧ ((∃ i, F.fails i = some e) ∨ (e = .endOfFile ∧ ¬ enough len ic)
        ∨ ∃ d, d <+: toRead len ic ∧ f d = .error e)
    | .ub => False
    | .loop => False := by
  have loop : HEnds F (¬ enough len ic) H s oc ic (toRead len ic)
      (fun ch => toRead len ic ++ ch.ic = ic ∧ enough len ic)
      (fHash F H len (s, ⟨ic, n, oc, env.create 256⟩)) := by
    rw [fHash, M.bind_ok (M.get_def _)]
    cases len with
    | none =>
      have := fHashToEof_ends (s0 := s) (oc := oc) (ic := ic) (S := ¬ enough none ic) F H (ic.length + 1) s
        ⟨ic, n, oc, env.create 256⟩ [] (by simp) rfl rfl (by simp [hinputOf]) (by simp) (by simp)
      cases h : fHashToEof F H (ic.length + 1) (s, ⟨ic, n, oc, env.create 256⟩) with
      | ok a p =>
        simp only [h] at this ⊢
        obtain ⟨o1, o2, o3, o4, o5, o6, o7⟩ := this
        exact ⟨o1, o2, o3, o4, o5, o6, by rw [o7]; simp [toRead], by intro l hl; cases hl⟩
      | exn e p => simp only [h] at this ⊢; exact this
      | ub => simp only [h] at this ⊢; exact this
      | loop => simp only [h] at this ⊢; exact this
    | some l =>
      have := fHashBounded_ends (s0 := s) (oc := oc) (ic := ic) (D := toRead (some l) ic)
        (S := ¬ enough (some l) ic) F H (l.toNat + 1) l s
        ⟨ic, n, oc, env.create 256⟩ [] (by simp) rfl rfl (by simp [hinputOf]) (by simp) (by omega)
        (by simp [hinputOf, toRead]) (by intro h1 h2; have := h2 l rfl; simp only at h1; omega)
      cases h : fHashBounded F H (l.toNat + 1) l (s, ⟨ic, n, oc, env.create 256⟩) with
      | ok a p =>
        simp only [h] at this ⊢
        obtain ⟨o1, o2, o3, o4, o5, o6, o7, o8⟩ := this
        exact ⟨o1, o2, o3, o4, o5, o6, by rw [o7]; simp [toRead],
          by intro l' hl; injection hl with hl; subst hl; exact o8⟩
      | exn e p => simp only [h] at this ⊢; exact this
      | ub => simp only [h] at this ⊢; exact this
      | loop => simp only [h] at this ⊢; exact this
  have hstart : ∀ k : Unit → M (η × FChan) Bytes,
      (M.onSnd (M.modify fun ch : FChan => { ch with ibuf := env.create 256 }) >>= k) (s, ⟨ic, n, oc, b⟩)
        = k () (s, ⟨ic, n, oc, env.create 256⟩) := fun k => rfl
  have bad : ∀ ops : List HOp, (∀ op ∈ ops, op.Legal) → ¬ Bad (H.calls ops s) := by
    intro ops h1 h2
    have := hH ops h1
    rw [HashObj.digest] at this
    cases h : H.calls ops s with
    | ok u s' => rw [h] at h2; exact h2
    | exn e s' => rw [h] at h2; exact h2
    | ub => rw [h] at this; cases this
    | loop => rw [h] at this; cases this
  rw [hashChannelF, hstart, M.bind_def]
  cases hl : fHash F H len (s, ⟨ic, n, oc, env.create 256⟩) with
  | ub =>
    rw [hl] at loop
    obtain ⟨ops, h1, h2⟩ := loop
    exact bad ops h1 h2
  | loop =>
    rw [hl] at loop
    obtain ⟨ops, h1, h2⟩ := loop
    exact bad ops h1 h2
  | exn e p =>
    rw [hl] at loop
    obtain ⟨h1, hcause⟩ := loop
    refine ⟨h1, ?_⟩
    rcases hcause with h | h | ⟨ops, s', k1, k2, k3⟩
    · exact .inl h
    · exact .inr (.inl h)
    · refine .inr (.inr ⟨_, k2, ?_⟩)
      have := hH ops k1
      rw [HashObj.digest, k3] at this
      injection this with this
      exact this.symm
  | ok a p =>
    rw [hl] at loop
    obtain ⟨s1, ch⟩ := p
    obtain ⟨ops, h1, h2, h3, h4, _, h5, hen⟩ := loop
    simp only at h2 h3 h4 h5
    have hD : hinputOf ops = toRead len ic := List.append_cancel_right (h3.trans h5.symm)
    have hdig := hH ops h1
    rw [HashObj.digest, h2, hD] at hdig
    simp only at hdig
    simp only [M.bind_def, M.onSnd, M.onFst, M.zoom, M.modify_def]
    cases hr : H.result s1 with
    | ok r s2 =>
      obtain ⟨s3, e3⟩ := hw s2
      rw [hr] at hdig
      simp only [e3, M.pure_def]
      exact ⟨hen, h5, h4, by injection hdig with h; exact h.symm⟩
    | exn e s2 =>
      rw [hr] at hdig
      exact ⟨h4, .inr (.inr ⟨_, List.prefix_refl _, by injection hdig with h; exact h.symm⟩)⟩
    | ub => rw [hr] at hdig; cases hdig
    | loop => rw [hr] at hdig; cases hdig

/-! ### C111 -/

/-- C111, the part that holds: when `transform_channel` returns, the buffer through which it has read the data has
been overwritten with zeros. -/
theorem C111_transform_channel_partial (env : Env) (F : Faults) (T : Transform τ) (t : τ) (len : Option Int)
    (ic oc b : Bytes) (n : Nat) (u : Unit) (st : τ × FChan)
    (h : transformChannelF env F T len (t, ⟨ic, n, oc, b⟩) = .ok u st) :
    st.2.ibuf = List.replicate 256 0 := by
  have hc0 : Calls T t [] [] t := ⟨by simp, rfl⟩
  obtain ⟨_, s1, e1, h⟩ := M.bind_eq_ok h
  cases e1
  obtain ⟨_, s2, e2, h⟩ := M.bind_eq_ok h
  obtain ⟨_, s3, e3, h⟩ := M.bind_eq_ok h
  cases e3
  have hlen : s2.2.ibuf.length = 256 := by
    rw [fTransf, M.bind_ok (M.get_def _)] at e2
    cases len with
    | none =>
      have := fTransfToEof_ends (t0 := t) (oc := oc) (ic := ic) (S := True) F T (ic.length + 1) t
        ⟨ic, n, oc, env.create 256⟩ [] [] hc0 (by simp) (by simp [inputOf]) (by simp) (by simp)
      have e2' : fTransfToEof F T (ic.length + 1) (t, ⟨ic, n, oc, env.create 256⟩) = _ := e2
      rw [e2'] at this
      obtain ⟨o1, o2, o3, o4, o5, o6, o7⟩ := this
      exact o6
    | some l =>
      have := fTransfBounded_ends (t0 := t) (oc := oc) (ic := ic) (D := ic.take l.toNat)
        (S := True) F T (l.toNat + 1) l t
        ⟨ic, n, oc, env.create 256⟩ [] [] hc0 (by simp) (by simp [inputOf]) (by simp) (by omega)
        (by simp [inputOf]) (fun _ => trivial)
      have e2' : fTransfBounded F T (l.toNat + 1) l (t, ⟨ic, n, oc, env.create 256⟩) = _ := e2
      rw [e2'] at this
      obtain ⟨o1, o2, o3, o4, o5, o6, o7⟩ := this
      exact o6
  simp only [M.bind_def, M.onFst, M.onSnd, M.zoom, fOutputPending] at h
  cases hf : T.finish s2.1 <;> rw [hf] at h <;> simp only [reduceCtorEq] at h
  rename_i t3
  cases hg : T.getSubstring t3 <;> rw [hg] at h <;> simp only [reduceCtorEq] at h
  rename_i g t4
  simp only [fOutput] at h
  cases hy : bytesSub g.1 g.2.1 g.2.2 <;> rw [hy] at h <;> simp only [reduceCtorEq] at h
  cases hfl : F.fails s2.2.count <;> rw [hfl] at h <;> simp only [reduceCtorEq] at h
  cases hw : T.wipe t4 <;> rw [hw] at h <;> simp only [reduceCtorEq] at h
  injection h with _ h
  rw [← h, ← hlen]
  rfl

/-- C111, the part that holds, for `hash_channel`. -/
theorem C111_hash_channel_partial (env : Env) (F : Faults) (H : HashObj η) (s : η) (len : Option Int)
    (ic oc b : Bytes) (n : Nat) (r : Bytes) (st : η × FChan)
    (h : hashChannelF env F H len (s, ⟨ic, n, oc, b⟩) = .ok r st) :
    st.2.ibuf = List.replicate 256 0 := by
  obtain ⟨_, s1, e1, h⟩ := M.bind_eq_ok h
  cases e1
  obtain ⟨_, s2, e2, h⟩ := M.bind_eq_ok h
  obtain ⟨_, s3, e3, h⟩ := M.bind_eq_ok h
  cases e3
  have hlen : s2.2.ibuf.length = 256 := by
    rw [fHash, M.bind_ok (M.get_def _)] at e2
    cases len with
    | none =>
      have := fHashToEof_ends (s0 := s) (oc := oc) (ic := ic) (S := True) F H (ic.length + 1) s
        ⟨ic, n, oc, env.create 256⟩ [] (by simp) rfl rfl (by simp [hinputOf]) (by simp) (by simp)
      have e2' : fHashToEof F H (ic.length + 1) (s, ⟨ic, n, oc, env.create 256⟩) = _ := e2
      rw [e2'] at this
      obtain ⟨o1, o2, o3, o4, o5, o6, o7⟩ := this
      exact o6
    | some l =>
      have := fHashBounded_ends (s0 := s) (oc := oc) (ic := ic) (D := ic.take l.toNat)
        (S := True) F H (l.toNat + 1) l s
        ⟨ic, n, oc, env.create 256⟩ [] (by simp) rfl rfl (by simp [hinputOf]) (by simp) (by omega)
        (by simp [hinputOf]) (fun _ => trivial)
      have e2' : fHashBounded F H (l.toNat + 1) l (s, ⟨ic, n, oc, env.create 256⟩) = _ := e2
      rw [e2'] at this
      obtain ⟨o1, o2, o3, o4, o5, o6, o7⟩ := this
      exact o6
  simp only [M.bind_def, M.onFst, M.onSnd, M.zoom] at h
  cases hf : H.result s2.1 <;> rw [hf] at h <;> simp only [reduceCtorEq] at h
  rename_i x s3
  cases hw : H.wipe s3 <;> rw [hw] at h <;> simp only [reduceCtorEq, M.pure_def] at h
  injection h with _ h
  rw [← h, ← hlen]
  rfl

/-- The property C111 is false of the code: when the channel has fewer bytes than `~len` says, `hash_channel`
raises `End_of_file` and leaves the last bytes that it has read in its buffer. (Here a channel of at most 256
bytes, obtained with one read, for any hash that accepts them.) -/
theorem C111_hash_channel_keeps (env : Env) (F : Faults) (H : HashObj η) (s : η) (l : Int) (ic oc b : Bytes)
    (n : Nat) (h0 : 0 < ic.length) (h256 : ic.length ≤ 256) (hl : l > ic.length) (hF : ∀ i, F.fails i = none)
    (hs : ic.length ≤ F.sched n)
    (hacc : ∀ buf, buf.length = 256 → ∃ s', H.addSubstring buf 0 ic.length s = .ok () s') :
    ∃ s' ch, hashChannelF env F H (some l) (s, ⟨ic, n, oc, b⟩) = .exn .endOfFile (s', ch)
      ∧ ch.ibuf.take ic.length = ic := by
  obtain ⟨k, hk⟩ : ∃ k, l.toNat = k + 1 := ⟨l.toNat - 1, by omega⟩
  have hr : min (min (min 256 l).toNat ic.length) (max 1 (F.sched n)) = ic.length := by omega
  have hsp := splice_read (ibuf := env.create 256) (x := ic) (r := ic.length) (by simp) h256 rfl
  have e1 : fInput F (min 256 l).toNat ⟨ic, n, oc, env.create 256⟩
      = .ok ic.length ⟨[], n + 1, oc, splice (env.create 256) 0 ic⟩ := by
    simp only [fInput, hF, hr]
    simp
  obtain ⟨s', e2⟩ := hacc (splice (env.create 256) 0 ic) hsp.1
  have e3 : fInput F (min 256 (l - ic.length)).toNat ⟨[], n + 1, oc, splice (env.create 256) 0 ic⟩
      = .ok 0 ⟨[], n + 2, oc, splice (env.create 256) 0 ic⟩ := by
    simp only [fInput, hF]
    simp [splice]
  have hrun : fHash F H (some l) (s, ⟨ic, n, oc, env.create 256⟩)
      = .exn .endOfFile (s', ⟨[], n + 2, oc, splice (env.create 256) 0 ic⟩) := by
    rw [fHash, M.bind_ok (M.get_def _)]
    show fHashBounded F H (l.toNat + 1) l _ = _
    rw [hk, fHashBounded, if_pos (by omega), M.bind_ok (M.onSnd_ok e1 s), if_neg (by omega)]
    show (fAdd H ic.length >>= fun _ => fHashBounded F H (k + 1) (l - ic.length)) _ = _
    have e4 : fAdd H ic.length (s, ⟨[], n + 1, oc, splice (env.create 256) 0 ic⟩)
        = .ok () (s', ⟨[], n + 1, oc, splice (env.create 256) 0 ic⟩) := by
      rw [fAdd, M.bind_ok (M.get_def _)]
      exact M.onFst_ok e2 _
    rw [M.bind_ok e4, fHashBounded, if_pos (by omega), M.bind_ok (M.onSnd_ok e3 s'), if_pos rfl]
    rfl
  refine ⟨s', ⟨[], n + 2, oc, splice (env.create 256) 0 ic⟩, ?_, ?_⟩
  · rw [hashChannelF]
    show (fHash F H (some l) >>= _) (s, ⟨ic, n, oc, env.create 256⟩) = _
    rw [M.bind_exn hrun]
  · have := hsp.2.2
    rwa [slice_zero] at this

/-! ### Cases that meet the hypotheses -/

namespace Example

/-- Reads of one byte, then two, and so on; the operation number `k` fails, after having written one byte if it
is a write. -/
def failAt (k : Nat) : Faults := ⟨fun i => i + 1, fun i => if i = k then some .unixError else none, fun _ => 1⟩

/-- C110 applies to the hexadecimal encoding of 5 bytes of a channel of 6. -/
example (k : Nat) : Delivers (Hex.encode env64) (Verif.Hex.encInit env64)
    (fun ms => ∀ m ∈ ms, 2 * m.length ≤ env64.maxLen) (failAt k) (¬ enough (some 5) [0xab, 1, 2, 0xff, 7, 8])
    [0xab, 1, 2, 0xff, 7, 8] [9] [0xab, 1, 2, 0xff, 7]
    (transformChannelF env64 (failAt k) (Hex.encode env64) (some 5)
      (Verif.Hex.encInit env64, ⟨[0xab, 1, 2, 0xff, 7, 8], 0, [9], []⟩)) :=
  C110_transform_channel env64 (failAt k) (Hex.encode_computes env64 (by decide)) (fun t => ⟨_, rfl⟩) (some 5)
    [0xab, 1, 2, 0xff, 7, 8] [9] [] 0 (by decide)

/-- What has been written, and what remains to read, when the run above ends. -/
def written (k : Nat) (len : Option Int) : Option (Bool × Bytes × Bytes) :=
  match transformChannelF env64 (failAt k) (Hex.encode env64) len
      (Verif.Hex.encInit env64, ⟨[0xab, 1, 2, 0xff, 7, 8], 0, [9], []⟩) with
  | .ok _ (_, ch) => some (true, ch.oc, ch.ic)
  | .exn _ (_, ch) => some (false, ch.oc, ch.ic)
  | _ => none

/-- The second read fails; the second write fails; nothing fails; the channel is too short. -/
example : written 2 (some 5) = some (false, 9 :: ascii "ab", [1, 2, 0xff, 7, 8])
    ∧ written 3 (some 5) = some (false, 9 :: ascii "ab0", [7, 8])
    ∧ written 100 (some 5) = some (true, 9 :: ascii "ab0102ff07", [8])
    ∧ written 100 (some 7) = some (false, 9 :: ascii "ab0102ff0708", []) := by
  decide +kernel

/-- C110 and C111 apply to SHA-1 of a channel. -/
example (k : Nat) (r : Bytes) (st) (h : hashChannelF env64 (failAt k) sha1 none
      (sha1Init (List.replicate 64 0), ⟨ascii "abcd", 0, [], []⟩) = .ok r st) :
    r = Spec.SHA1 (ascii "abcd") ∧ st.2.ibuf = List.replicate 256 0 := by
  have h1 := C110_hash_channel env64 (failAt k) (C22_sha1 (List.replicate 64 0) (by decide)).toH
    (fun s => ⟨_, rfl⟩) none (ascii "abcd") [] [] 0
  rw [h] at h1
  obtain ⟨_, _, _, h1⟩ := h1
  injection h1 with h1
  exact ⟨h1.symm, C111_hash_channel_partial _ _ _ _ _ _ _ _ _ _ _ h⟩

/-- It does return a digest if nothing fails. -/
example (F : Faults) (hF : ∀ i, F.fails i = none) : ∃ r st, hashChannelF env64 F sha1 none
    (sha1Init (List.replicate 64 0), ⟨ascii "abcd", 0, [], []⟩) = .ok r st := by
  have h1 := C110_hash_channel env64 F
    (C22_sha1 (List.replicate 64 0) (by decide)).toH (fun s => ⟨_, rfl⟩) none (ascii "abcd") [] [] 0
  cases h : hashChannelF env64 F sha1 none
    (sha1Init (List.replicate 64 0), ⟨ascii "abcd", 0, [], []⟩) with
  | ok r st => exact ⟨r, st, rfl⟩
  | exn e st =>
    rw [h] at h1
    rcases h1.2 with ⟨i, h2⟩ | ⟨_, h2⟩ | ⟨d, _, h2⟩
    · rw [hF] at h2; cases h2
    · exact absurd (by intro l hl; cases hl) h2
    · cases h2
  | ub => rw [h] at h1; exact h1.elim
  | loop => rw [h] at h1; exact h1.elim

/-- `C111_hash_channel_keeps`: SHA-1, a channel of 4 bytes and `~len:5`. -/
example : ∃ s' ch, hashChannelF env64 ⟨fun _ => 256, fun _ => none, fun _ => 0⟩ sha1 (some 5)
      (sha1Init (List.replicate 64 0), ⟨ascii "abcd", 0, [], []⟩) = .exn .endOfFile (s', ch)
    ∧ ch.ibuf.take 4 = ascii "abcd" :=
  C111_hash_channel_keeps env64 _ sha1 _ 5 (ascii "abcd") [] [] 0 (by decide) (by decide) (by decide)
    (fun _ => rfl) (by decide) fun buf hb => by
      have := C22_sha1 (List.replicate 64 0) (by decide) [.addSubstring buf 0 4]
        (by intro op ho; simp only [List.mem_singleton] at ho; subst ho
            exact ⟨by decide +kernel, by omega, by omega, by omega⟩)
      rw [HashObj.digest] at this
      simp only [HashObj.calls, HashObj.call] at this
      show ∃ s', sha1.addSubstring buf 0 4 _ = _
      cases h : sha1.addSubstring buf 0 4 (sha1Init (List.replicate 64 0)) with
      | ok u s => exact ⟨s, rfl⟩
      | _ => rw [h] at this; cases this

end Example

end Verif
