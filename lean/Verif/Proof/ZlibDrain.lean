import Verif.Proof.Zlib
/-
`Zlib` transforms whose output is taken from time to time: no bound on the total output is needed.
-/
namespace Verif
open Spec OBuf

/-- Where a history stands: `zb`, `cb`, `gb` are the stream, the data put and the output when the waiting output
was last taken. -/
structure ZBase (Live : ζ → Bytes → Bytes → Prop) (K : Nat) (n : Nat) (c g : Bytes) : Prop where
  count : n ≤ K
  base : ∃ zb cb gb, Live zb cb gb ∧ cb <+: c ∧ gb <+: g ∧ c.length = cb.length + n

section
variable {env : Env} {P K : Nat} {L : ZLib ζ} {z0 : ζ}

theorem compressDrain_ok (hr : ZRoom env P) {Valid : Bytes → Bytes → Prop} (D : DeflateContract L z0 Valid)
    (hp : D.Paced K P) {fuel : Nat} (hf : P + 1 < fuel)
    (ops : List FOp) : ∀ {t : ZSt ζ} {q g c : Bytes} {fresh : Bool} {n : Nat}, ZInv env P t q →
      D.Live t.zs c (g ++ q) → ZBase D.Live K n c g →
      (fresh = true → ¬ D.Clean t.zs) → (∀ op ∈ ops, op.Legal ∧ FOp.ByteOk op ∧ FOp.Short op) →
      FlushesFresh fresh ops → DrainedEvery K n ops →
      ∃ x q' t' n', (Zlib.compress env L fuel).callsF ops t = .ok x t' ∧ ZInv env P t' q' ∧
        D.Live t'.zs (c ++ finputOf ops) (g ++ x ++ q') ∧ ZBase D.Live K n' (c ++ finputOf ops) (g ++ x) := by
  induction ops with
  | nil =>
    intro t q g c fresh n ht hL hB _ _ _ _
    exact ⟨[], q, t, n, rfl, ht, by simpa [finputOf] using hL, by simpa [finputOf] using hB⟩
  | cons op ops ih =>
    intro t q g c fresh n ht hL hB hfr hops hff hdr
    obtain ⟨hleg, hbyte, hshort⟩ := hops op List.mem_cons_self
    have hops' := fun y hy => hops y (List.mem_cons_of_mem _ hy)
    have hin : finputOf (op :: ops) = op.input ++ finputOf ops := by simp [finputOf]
    rw [hin]
    obtain ⟨hK, zb, cb, gb, hLb, hcb, hgb, hcn⟩ := id hB
    have hgl := hgb.length_le
    cases hdr with
    | flush hdr =>
      obtain ⟨hfresh, hff'⟩ := hff
      obtain ⟨t1, o, e1, e2, e3⟩ := compressFlush_from hr D (cb := cb) (gb := gb) (data := c)
        (fun h h1 h2 h3 => hp hLb (.inl h) h1 h2 (by have := h3.length_le; omega)) fuel ht hcb hgb hL (hfr hfresh)
        (List.prefix_refl _) (by simp only [List.length_append]; omega)
      obtain ⟨x, q', t2, n', f1, f2, f3, f4⟩ := ih (q := q ++ o) (g := g) (fresh := false) e2
        (by rw [← List.append_assoc]; exact e3) hB (by simp) hops' hff' hdr
      refine ⟨x, q', t2, n', ?_, f2, by simpa [FOp.input] using f3, by simpa [FOp.input] using f4⟩
      simp only [Transform.callsF, Transform.callF, M.bind_def]
      have e1' : (Zlib.compress env L fuel).flush t = .ok () t1 := e1
      simp only [e1', M.pure_def, f1, List.nil_append]
    | @drain _ op _ hd hdr =>
      obtain ⟨t1, e1, e2, e3⟩ := zDrain_ok (T := Zlib.compress env L fuel) rfl ht hd
      have hi : op.input = [] := by rcases hd with rfl | rfl <;> rfl
      have hff' : FlushesFresh fresh ops := by
        have : FlushesFresh (fresh || !op.input.isEmpty) ops := hff
        simpa [hi] using this
      obtain ⟨x, q', t2, n', f1, f2, f3, f4⟩ := ih (t := t1) (q := []) (g := g ++ q) (c := c) (n := 0) (fresh := fresh) e3
        (by rw [List.append_nil, e2]; exact hL)
        ⟨Nat.zero_le _, t.zs, c, g ++ q, hL, List.prefix_refl _, List.prefix_refl _, by simp⟩
        (by rw [e2]; exact hfr) hops' hff' hdr
      refine ⟨q ++ x, q', t2, n', ?_, f2, ?_, ?_⟩
      · simp only [Transform.callsF, Transform.callF, M.bind_def, e1, f1, M.pure_def]
      · simpa [FOp.input, hi] using f3
      · simpa [FOp.input, hi] using f4
    | @call _ op _ hn hdr =>
      rcases zCall_ok (T := Zlib.compress env L fuel) rfl
        (fun z c' p => D.Live z c' p ∧ (op.input ≠ [] → c' = c ++ op.input → ¬ D.Clean z) ∧
          (op.input = [] → z = t.zs)) (fun _ _ => False) ht
        (c := c) (g := g) ⟨hL, by intro h1 h2; simp at h2; exact absurd h2 h1, fun _ => rfl⟩ (op := op) ⟨hleg, hbyte⟩ hshort rfl rfl rfl
        (by
          intro src ofs len h1 h2 h3
          obtain ⟨t', o, e1, e2, e3, e4, e5⟩ := compressPut_from hr D (cb := cb) (gb := gb) (data := c ++ op.input)
            (fun h h1 h2 h3 => hp hLb (.inl h) h1 h2
              (by have := h3.length_le; simp only [List.length_append] at this; omega)) fuel ht hcb hgb hL h1 h2
            (by rw [h3]; exact List.prefix_refl _) (by simp only [List.length_append]; omega)
          have hl : op.input.length = len := by rw [← h3, slice_length_of_le h1]
          rw [h3] at e3
          refine .inl ⟨t', o, e1, e2, e3, ?_, ?_⟩
          · intro h4 _
            apply e4
            cases hop : op.input with
            | nil => exact absurd hop h4
            | cons a l => rw [hop] at hl; simp at hl; omega
          · intro h4
            rw [h4] at hl
            exact e5 (by simpa using hl.symm)) with
        ⟨x, q', t', e1, e2, e3, e4, e5⟩ | ⟨_, _, _, h⟩
      · obtain ⟨x2, q2, t2, n', f1, f2, f3, f4⟩ := ih (q := q') (g := g ++ x) (c := c ++ op.input)
          (fresh := fresh || !op.input.isEmpty) (n := n + op.input.length) e2 e3
          ⟨hn, zb, cb, gb, hLb, hcb.trans (List.prefix_append _ _), hgb.trans (List.prefix_append _ _),
            by rw [List.length_append]; omega⟩ (by
            intro h
            by_cases hne : op.input = []
            · rw [e5 hne]
              rw [hne] at h
              exact hfr (by simpa using h)
            · exact e4 hne rfl) hops' hff hdr
        refine ⟨x ++ x2, q2, t2, n', ?_, f2, ?_, ?_⟩
        · simp only [Transform.callsF, Transform.callF, M.bind_def, e1, f1, M.pure_def]
        · rw [← List.append_assoc, ← List.append_assoc]
          exact f3
        · rw [← List.append_assoc, ← List.append_assoc]
          exact f4
      · exact absurd h id

theorem compressDrainTotal_ok (hr : ZRoom env P) (h512 : 512 ≤ env.maxLen) {Valid : Bytes → Bytes → Prop}
    (D : DeflateContract L z0 Valid) {ops : List FOp} (hp : D.Paced K P)
    {fuel : Nat} (hf : P + 1 < fuel) (hops : ∀ op ∈ ops, op.Legal ∧ FOp.ByteOk op ∧ FOp.Short op)
    (hff : FlushesFresh true ops) (hdr : DrainedEvery K 0 ops) :
    ∃ x t', (Zlib.compress env L fuel).totalF ops ⟨z0, OBuf.init env 512⟩ = .ok x t' ∧ Valid x (finputOf ops) := by
  obtain ⟨x, q, t1, n, e1, e2, e3, e4⟩ := compressDrain_ok hr D hp hf ops
    (t := ⟨z0, OBuf.init env 512⟩) (q := []) (g := []) (c := []) (fresh := true) (n := 0) (zInv_init h512 z0) D.start.1
    ⟨Nat.zero_le _, z0, [], [], D.start.1, List.prefix_refl _, List.prefix_refl _, rfl⟩
    (fun _ => D.start.2) hops hff hdr
  simp only [List.nil_append] at e3 e4
  obtain ⟨hK, zb, cb, gb, hLb, hcb, hgb, hcn⟩ := e4
  have hgl := hgb.length_le
  obtain ⟨t2, o, f1, f2, f3⟩ := compressFinish_from hr D (cb := cb) (gb := gb) (data := finputOf ops)
    (fun h h1 h2 h3 => hp hLb h h1 h2 (by have := h3.length_le; omega)) fuel e2 hcb hgb (.inl e3)
    (List.prefix_refl _) (by simp only [List.length_append]; omega)
  refine ⟨x ++ (q ++ o), ⟨t2.zs, { t2.ob with obeg := 0, oend := 0 }⟩, ?_, by rw [← List.append_assoc]; exact f3⟩
  unfold Transform.totalF
  simp only [M.bind_def, e1]
  have f1' : (Zlib.compress env L fuel).finish t1 = .ok () t2 := f1
  have f4 : (Zlib.compress env L fuel).getString t2 = .ok (q ++ o) ⟨t2.zs, { t2.ob with obeg := 0, oend := 0 }⟩ := by
    simp only [Zlib.compress, inheritBuf, M.zoom, getString_ok f2.rep]
  simp only [f1', f4, M.pure_def]

variable {F : ZFormat}

theorem uncompressDrain_ok (hr : ZRoom env P) (I : InflateContract L z0 F) (hp : I.Paced (K + 1) P)
    {fuel : Nat} (hf : P + 1 < fuel)
    (ops : List FOp) : ∀ {t : ZSt ζ} {q g c : Bytes} {n : Nat}, ZInv env P t q → I.Live t.zs c (g ++ q) →
      ZBase I.Live K n c g →
      (∀ op ∈ ops, op.Legal ∧ FOp.ByteOk op ∧ FOp.Short op) → DrainedEvery K n ops →
      (∃ x q' t' n', (Zlib.uncompress env L fuel).callsF ops t = .ok x t' ∧ ZInv env P t' q' ∧
        I.Live t'.zs (c ++ finputOf ops) (g ++ x ++ q') ∧ ZBase I.Live K n' (c ++ finputOf ops) (g ++ x)) ∨
      (∃ t', (Zlib.uncompress env L fuel).callsF ops t = .exn (.error .compressionError) t' ∧
        ZDead F (c ++ finputOf ops)) := by
  induction ops with
  | nil =>
    intro t q g c n ht hL hB _ _
    exact .inl ⟨[], q, t, n, rfl, ht, by simpa [finputOf] using hL, by simpa [finputOf] using hB⟩
  | cons op ops ih =>
    intro t q g c n ht hL hB hops hdr
    obtain ⟨hleg, hbyte, hshort⟩ := hops op List.mem_cons_self
    have hops' := fun y hy => hops y (List.mem_cons_of_mem _ hy)
    have hin : finputOf (op :: ops) = op.input ++ finputOf ops := by simp [finputOf]
    rw [hin]
    obtain ⟨hK, zb, cb, gb, hLb, hcb, hgb, hcn⟩ := id hB
    have hgl := hgb.length_le
    have hcall : (∃ x q' t' n', (Zlib.uncompress env L fuel).callF op t = .ok x t' ∧ ZInv env P t' q' ∧
        I.Live t'.zs (c ++ op.input) (g ++ x ++ q') ∧ ZBase I.Live K n' (c ++ op.input) (g ++ x) ∧
        DrainedEvery K n' ops) ∨
        (∃ e t', (Zlib.uncompress env L fuel).callF op t = .exn e t' ∧
          (e = .error .compressionError ∧ ZDead F (c ++ op.input))) := by
      cases hdr with
      | flush hdr =>
        exact .inl ⟨[], q, t, n, rfl, ht, by simpa [FOp.input] using hL, by simpa [FOp.input] using hB, hdr⟩
      | @drain _ op _ hd hdr =>
        obtain ⟨t1, e1, e2, e3⟩ := zDrain_ok (T := Zlib.uncompress env L fuel) rfl ht hd
        have hi : (FOp.call op).input = [] := by rcases hd with rfl | rfl <;> rfl
        refine .inl ⟨q, [], t1, 0, e1, e3, ?_, ⟨Nat.zero_le _, t.zs, c, g ++ q, hL, ?_, List.prefix_refl _, ?_⟩, hdr⟩
        · rw [hi, e2]; simpa using hL
        · exact List.prefix_append _ _
        · simp [hi]
      | @call _ op _ hn hdr =>
        rcases zCall_ok (T := Zlib.uncompress env L fuel) rfl I.Live
          (fun s e => e = .error .compressionError ∧ ZDead F s) ht hL (op := op) ⟨hleg, hbyte⟩ hshort rfl rfl rfl
          (by
            intro src ofs len h1 h2 h3
            rcases uncompressPut_from hr I (cb := cb) (gb := gb) (data := c ++ op.input)
              (fun h h1 h2 h3 => hp hLb h h1 h2
                (by have := h3.length_le; simp only [List.length_append] at this; omega)) fuel ht hcb hgb hL h1 h2
              (by rw [h3]; exact List.prefix_refl _) (by simp only [List.length_append]; omega) with
              ⟨t', o, e1, e2, e3⟩ | ⟨t', e1, e2⟩
            · rw [h3] at e3
              exact .inl ⟨t', o, e1, e2, e3⟩
            · rw [h3] at e2
              exact .inr ⟨_, t', e1, rfl, e2⟩) with ⟨x, q', t', e1, e2, e3⟩ | h
        · exact .inl ⟨x, q', t', n + op.input.length, e1, e2, e3,
            ⟨hn, zb, cb, gb, hLb, hcb.trans (List.prefix_append _ _), hgb.trans (List.prefix_append _ _), by
              rw [List.length_append]
              show c.length + op.input.length = _
              omega⟩, hdr⟩
        · exact .inr h
    rcases hcall with ⟨x, q', t', n', e1, e2, e3, e4, e5⟩ | ⟨e, t', e1, rfl, e2⟩
    · rcases ih (q := q') (g := g ++ x) (c := c ++ op.input) e2 e3 e4 hops' e5 with
        ⟨x2, q2, t2, n2, f1, f2, f3, f4⟩ | ⟨t2, f1, f2⟩
      · refine .inl ⟨x ++ x2, q2, t2, n2, ?_, f2, ?_, ?_⟩
        · simp only [Transform.callsF, M.bind_def, e1, f1, M.pure_def]
        · rw [← List.append_assoc, ← List.append_assoc]
          exact f3
        · rw [← List.append_assoc, ← List.append_assoc]
          exact f4
      · refine .inr ⟨t2, ?_, by rw [← List.append_assoc]; exact f2⟩
        simp only [Transform.callsF, M.bind_def, e1, f1]
    · refine .inr ⟨t', ?_, by rw [← List.append_assoc]; exact e2.append _⟩
      simp only [Transform.callsF, M.bind_def, e1]

theorem uncompressDrainTotal_ok (hr : ZRoom env P) (h512 : 512 ≤ env.maxLen) (I : InflateContract L z0 F)
    {ops : List FOp} (hp : I.Paced (K + 1) P)
    {fuel : Nat} (hf : P + 1 < fuel) (hops : ∀ op ∈ ops, op.Legal ∧ FOp.ByteOk op ∧ FOp.Short op)
    (hdr : DrainedEvery K 0 ops) :
    (F.Stream (finputOf ops) → ∃ t', (Zlib.uncompress env L fuel).totalF ops ⟨z0, OBuf.init env 512⟩
      = .ok (F.out (finputOf ops)) t') ∧
    (¬ F.Stream (finputOf ops) →
      (∃ t', (Zlib.uncompress env L fuel).totalF ops ⟨z0, OBuf.init env 512⟩
        = .exn (.error .compressionError) t') ∨
      (F.Stream (finputOf ops ++ [0x20]) ∧ ∃ t', (Zlib.uncompress env L fuel).totalF ops ⟨z0, OBuf.init env 512⟩
        = .ok (F.out (finputOf ops ++ [0x20])) t')) := by
  have hfin : ∀ {x d : Bytes} {t1 t2 : ZSt ζ} {q' c'},
      (Zlib.uncompress env L fuel).callsF ops ⟨z0, OBuf.init env 512⟩ = .ok x t1 →
      Zlib.doFinish env L fuel true t1 = .ok () t2 → ZInv env P t2 q' → I.Live t2.zs c' (x ++ q') →
      x ++ q' = d →
      ∃ t', (Zlib.uncompress env L fuel).totalF ops ⟨z0, OBuf.init env 512⟩ = .ok d t' := by
    intro x d t1 t2 q' c' h1 h2 h3 h4 h5
    have f1 : (Zlib.uncompress env L fuel).finish t1 = .ok () ⟨(L.inflateEnd t2.zs).2, t2.ob⟩ := by
      show (Zlib.doFinish env L fuel true >>= fun _ => zEnd L.inflateEnd) t1 = _
      simp only [M.bind_def, h2, zEnd, I.stop h4, if_true]
    have f4 : (Zlib.uncompress env L fuel).getString ⟨(L.inflateEnd t2.zs).2, t2.ob⟩
        = .ok q' ⟨(L.inflateEnd t2.zs).2, { t2.ob with obeg := 0, oend := 0 }⟩ := by
      simp only [Zlib.uncompress, inheritBuf, M.zoom, getString_ok h3.rep]
    refine ⟨⟨(L.inflateEnd t2.zs).2, { t2.ob with obeg := 0, oend := 0 }⟩, ?_⟩
    unfold Transform.totalF
    simp only [M.bind_def, h1, f1, f4, M.pure_def, h5]
  have hexn : ∀ {x : Bytes} {t1 t2 : ZSt ζ},
      (Zlib.uncompress env L fuel).callsF ops ⟨z0, OBuf.init env 512⟩ = .ok x t1 →
      Zlib.doFinish env L fuel true t1 = .exn (.error .compressionError) t2 →
      ∃ t', (Zlib.uncompress env L fuel).totalF ops ⟨z0, OBuf.init env 512⟩ = .exn (.error .compressionError) t' := by
    intro x t1 t2 h1 h2
    have f1 : (Zlib.uncompress env L fuel).finish t1 = .exn (.error .compressionError) t2 := by
      show (Zlib.doFinish env L fuel true >>= fun _ => zEnd L.inflateEnd) t1 = _
      simp only [M.bind_def, h2]
    refine ⟨t2, ?_⟩
    unfold Transform.totalF
    simp only [M.bind_def, h1, f1]
  rcases uncompressDrain_ok hr I hp hf ops
    (t := ⟨z0, OBuf.init env 512⟩) (q := []) (g := []) (c := []) (n := 0) (zInv_init h512 z0) I.start
    ⟨Nat.zero_le _, z0, [], [], I.start, List.prefix_refl _, List.prefix_refl _, rfl⟩ hops hdr with
    ⟨x, q, t1, n, e1, e2, e3, e4⟩ | ⟨t1, e1, e2⟩
  · simp only [List.nil_append] at e3 e4
    have hlive := I.live e3
    obtain ⟨hK, zb, cb, gb, hLb, hcb, hgb, hcn⟩ := e4
    have hgl := hgb.length_le
    refine ⟨?_, ?_⟩
    · rintro ⟨hd, _⟩
      obtain ⟨t2, q', f1, f2, f3, f4⟩ := doFinish_done_from hr I (gb := gb)
        (fun h h1 => hp hLb h hcb h1 (by omega)) hd fuel true e2 hgb e3 (by simp only [List.length_append]; omega)
      exact hfin e1 f1 f2 f3 f4
    · intro hns
      have hmore : F.status (finputOf ops) = .more := by
        cases hst : F.status (finputOf ops) with
        | more => rfl
        | done => exact absurd ⟨hst, hlive.2.2⟩ hns
        | bad => exact absurd hst hlive.2.1
      rcases doFinish_more_from hr I (gb := gb)
        (fun h h1 h2 h3 => hp hLb h (hcb.trans h1) h3
          (by have := h2.length_le; simp only [List.length_append, List.length_singleton] at this; omega))
        hmore fuel e2 hgb e3 (by simp only [List.length_append]; omega) with ⟨t2, q', f1, f2, f3, f4, f5⟩ | ⟨t2, f1⟩
      · exact .inr ⟨⟨f4, (I.live f3).2.2⟩, hfin e1 f1 f2 f3 f5⟩
      · exact .inl (hexn e1 f1)
  · simp only [List.nil_append] at e2
    refine ⟨?_, ?_⟩
    · intro h
      exact absurd (by simpa using h) (e2 [])
    · intro _
      refine .inl ⟨t1, ?_⟩
      unfold Transform.totalF
      simp only [M.bind_def, e1]

end

end Verif
