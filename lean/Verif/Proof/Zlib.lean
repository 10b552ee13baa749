import Verif.Spec.Zlib
import Verif.Proof.OBuf
import Verif.Proof.Transform
/-
The `Zlib` transforms.
-/
namespace Verif
open OBuf Spec

theorem growLoop_le (need : Int) (newlen : Nat) {m : Nat} (h : growLoop need newlen = some m) :
    m = newlen ∨ (m : Int) < 2 * need := by
  fun_induction growLoop need newlen with
  | case1 => cases h
  | case2 newlen h1 h2 ih =>
    rcases ih h with h3 | h3
    · right; omega
    · exact .inr h3
  | case3 newlen h1 =>
    injection h with h
    exact .inl h.symm

theorem ensureCapacity_size {env : Env} {o o' : OBuf} {q : Bytes} (h : Rep env o q) (n : Nat)
    (ho : ensureCapacity env n o = .ok () o') :
    o'.obuf.length ≤ max o.obuf.length (2 * (q.length + n)) := by
  have hle := h.le; have hb := h.bound; have hp := h.pos
  have hl := h.length
  have hcast : ((o.oend : Int) - o.obeg) = ((o.oend - o.obeg : Nat) : Int) := by omega
  unfold ensureCapacity at ho
  simp only at ho
  split at ho
  · split at ho
    · rw [hcast, ← Int.natCast_zero, bytesBlit_ok (by omega) (by omega)] at ho
      injection ho with _ ho
      subst ho
      simp only
      have hsl : (slice o.obuf o.obeg (o.oend - o.obeg)).length = o.oend - o.obeg :=
        slice_length_of_le (by omega)
      rw [splice_length (by omega)]
      omega
    · rename_i h2
      cases hg : growLoop ((o.oend : Int) - o.obeg + n) (2 * o.obuf.length) with
      | none => rw [hg] at ho; cases ho
      | some m =>
        rw [hg] at ho
        simp only at ho
        split at ho
        · cases ho
        · rename_i h3
          have hgl := growLoop_le _ _ hg
          obtain ⟨m', hg', hge, _⟩ := growLoop_spec ((o.oend : Int) - o.obeg + n) (2 * o.obuf.length) (by omega)
          obtain rfl : m' = m := by rw [hg] at hg'; injection hg' with h; exact h.symm
          generalize hnl : (if m' > env.maxLen then env.maxLen else m') = nl at ho
          have hnl1 : o.oend - o.obeg + n ≤ nl := by split at hnl <;> omega
          have hnl2 : nl ≤ m' := by split at hnl <;> omega
          have hcl : (env.create nl).length = nl := by simp
          rw [hcast, ← Int.natCast_zero, bytesBlit_ok (by omega) (by omega)] at ho
          injection ho with _ ho
          subst ho
          simp only
          have hsl : (slice o.obuf o.obeg (o.oend - o.obeg)).length = o.oend - o.obeg :=
            slice_length_of_le (by omega)
          rw [splice_length (by omega), hcl]
          omega
  · injection ho with _ ho
    subst ho
    omega

/-- The object holds the pending output `q` in a buffer that is not too large. -/
structure ZInv (env : Env) (P : Nat) (t : ZSt ζ) (q : Bytes) : Prop where
  rep : Rep env t.ob q
  small : t.ob.obuf.length ≤ 2 * P + 512

/-- `P` bounds the pending output. -/
structure ZRoom (env : Env) (P : Nat) : Prop where
  fits : P + 256 ≤ env.maxLen
  word : 2 * P + 512 < 2 ^ 32

theorem zAvail_nat {n : Nat} (h : n < 2 ^ 32) : zAvail n = n := by
  unfold zAvail
  omega

theorem zStep_ok {env : Env} {P : Nat} (hr : ZRoom env P) {fn : ZCall ζ} (hb : ZBounded fn)
    (fails : ZCode → Bool) {t : ZSt ζ} {q : Bytes} (ht : ZInv env P t q) (hq : q.length ≤ P)
    {src : Bytes} {ofs len : Nat} (hsrc : ofs + len ≤ src.length) (hlen : len < 2 ^ 32) (f : ZFlush) :
    ∃ n, 256 ≤ n ∧
      (fails (fn f (slice src ofs len) n t.zs).code = true →
        ∃ t', zStep env fn fails src ofs len f t = .exn (.error .compressionError) t') ∧
      (fails (fn f (slice src ofs len) n t.zs).code = false →
        ∃ t', zStep env fn fails src ofs len f t
            = .ok (decide ((fn f (slice src ofs len) n t.zs).code = .streamEnd),
                ((fn f (slice src ofs len) n t.zs).usedIn : Int)) t' ∧
          t'.zs = (fn f (slice src ofs len) n t.zs).st ∧
          ZInv env P t' (q ++ (fn f (slice src ofs len) n t.zs).out) ∧
          (t'.ob.oend = t'.ob.obuf.length ↔ (fn f (slice src ofs len) n t.zs).out.length = n)) := by
  have hf := hr.fits; have hw := hr.word
  obtain ⟨o, h1, h2, h3⟩ := ensureCapacity_ok ht.rep 256 (by omega)
  have h4 := ensureCapacity_size ht.rep 256 h1
  have hsm := ht.small
  have hsm' : o.obuf.length ≤ 2 * P + 512 := by omega
  obtain ⟨n, hn⟩ : ∃ n, n = o.obuf.length - o.oend := ⟨_, rfl⟩
  have hn1 : 256 ≤ n := by omega
  have hnI : (o.obuf.length : Int) - o.oend = (n : Int) := by omega
  refine ⟨n, hn1, ?_⟩
  have hout := hb.out f (slice src ofs len) n t.zs
  have hin := hb.usedIn f (slice src ofs len) n t.zs
  have hsl : (slice src ofs len).length = len := slice_length_of_le hsrc
  rw [hsl] at hin
  have e1 : ZSt.out (ensureCapacity env 256) t = .ok () { t with ob := o } := by
    unfold ZSt.out M.zoom
    have h1' : ensureCapacity env 256 t.ob = .ok () o := h1
    simp only [h1']
  have hav1 : zAvail (len : Int) = len := zAvail_nat hlen
  have hav2 : zAvail (n : Int) = n := zAvail_nat (by omega)
  have hcond : ¬ (¬ (len = 0 ∨ InRange src (ofs : Int) (len : Int)) ∨
      ¬ (n = 0 ∨ InRange o.obuf (o.oend : Int) (n : Int))) := by
    unfold InRange
    omega
  generalize hres : fn f (slice src ofs len) n t.zs = r at *
  have estub : zlibStub fn fails src ofs len o.oend ((o.obuf.length : Int) - o.oend) f (t.zs, o.obuf)
      = if fails r.code then .exn (.error .compressionError) (r.st, splice o.obuf o.oend r.out)
        else .ok (decide (r.code = .streamEnd), (r.usedIn : Int), (r.out.length : Int))
          (r.st, splice o.obuf o.oend r.out) := by
    unfold zlibStub
    simp only [hnI, hav1, hav2]
    rw [if_neg hcond]
    simp only [Int.toNat_natCast, hres]
    have x1 : (len : Int) - (len - r.usedIn : Nat) = r.usedIn := by omega
    have x2 : (n : Int) - (n - r.out.length : Nat) = r.out.length := by omega
    rw [x1, x2]
  refine ⟨?_, ?_⟩
  · intro hfail
    refine ⟨⟨r.st, { o with obuf := splice o.obuf o.oend r.out }⟩, ?_⟩
    unfold zStep
    simp only [M.bind_def, e1, M.get_def, M.zoom]
    rw [estub, hfail]
    rfl
  · intro hfail
    refine ⟨⟨r.st, { o with obuf := splice o.obuf o.oend r.out, oend := o.oend + r.out.length }⟩, ?_, rfl, ?_, ?_⟩
    · unfold zStep
      simp only [M.bind_def, e1, M.get_def, M.zoom]
      rw [estub, hfail]
      rfl
    · refine ⟨h2.write (by omega), ?_⟩
      simp only
      rw [splice_length (by omega)]
      exact hsm'
    · simp only
      rw [splice_length (by omega)]
      omega

/-! ### The output methods -/

theorem getChar_obuf {o o' : OBuf} {c : Byte} (h : OBuf.getChar o = .ok c o') : o'.obuf = o.obuf := by
  unfold OBuf.getChar at h
  split at h
  · cases h
  · split at h
    · cases h
    · injection h with _ h
      rw [← h]

theorem zDrain_ok {env : Env} {P : Nat} {T : Transform (ZSt ζ)} {p : PutMethods (ZSt ζ)}
    (hT : T = inheritBuf (·.ob) (fun o t => { t with ob := o }) p) {t : ZSt ζ} {q : Bytes}
    (ht : ZInv env P t q) {op : TOp} (hop : op = .getString ∨ op = .getSubstring) :
    ∃ t', T.call op t = .ok q t' ∧ t'.zs = t.zs ∧ ZInv env P t' [] := by
  subst hT
  have hrep := ht.rep
  have hsm := ht.small
  rcases hop with rfl | rfl
  · refine ⟨⟨t.zs, { t.ob with obeg := 0, oend := 0 }⟩, ?_, rfl, hrep.clear, hsm⟩
    unfold Transform.call inheritBuf M.zoom
    simp only [getString_ok hrep]
  · obtain ⟨h1, h2, h3⟩ := getSubstring_ok hrep
    refine ⟨⟨t.zs, { t.ob with obeg := 0, oend := 0 }⟩, ?_, rfl, hrep.clear, hsm⟩
    have hz : (inheritBuf (·.ob) (fun o (t : ZSt ζ) => { t with ob := o }) p).getSubstring t
        = .ok (t.ob.obuf, (t.ob.obeg : Int), (q.length : Int))
            ⟨t.zs, { t.ob with obeg := 0, oend := 0 }⟩ := by
      simp only [inheritBuf, M.zoom, h1]
    refine (M.bind_ok hz).trans ?_
    simp only [bytesSub_ok h2, h3]
    rfl

theorem zGet_ok {env : Env} {P : Nat} {T : Transform (ZSt ζ)} {p : PutMethods (ZSt ζ)}
    (hT : T = inheritBuf (·.ob) (fun o t => { t with ob := o }) p) {t : ZSt ζ} {q : Bytes}
    (ht : ZInv env P t q) {op : TOp} (hop : op = .getString ∨ op = .getSubstring ∨ op = .getChar ∨
      op = .getByte ∨ op = .available) :
    ∃ x q' t', T.call op t = .ok x t' ∧ x ++ q' = q ∧ t'.zs = t.zs ∧ ZInv env P t' q' := by
  subst hT
  have hrep := ht.rep
  have hsm := ht.small
  rcases hop with rfl | rfl | rfl | rfl | rfl
  · obtain ⟨t', h1, h2, h3⟩ := zDrain_ok (T := inheritBuf (·.ob) (fun o t => { t with ob := o }) p) rfl ht (.inl rfl)
    exact ⟨q, [], t', h1, by simp, h2, h3⟩
  · obtain ⟨t', h1, h2, h3⟩ := zDrain_ok (T := inheritBuf (·.ob) (fun o t => { t with ob := o }) p) rfl ht (.inr rfl)
    exact ⟨q, [], t', h1, by simp, h2, h3⟩
  · cases q with
    | nil =>
      refine ⟨[], [], t, ?_, rfl, rfl, ht⟩
      unfold Transform.call inheritBuf M.zoom
      simp only [getChar_nil hrep]
    | cons c q =>
      obtain ⟨o', h1, h2⟩ := getChar_cons hrep
      refine ⟨[c], q, ⟨t.zs, o'⟩, ?_, rfl, rfl, h2, ?_⟩
      · unfold Transform.call inheritBuf M.zoom
        simp only [h1]
      · simp only [getChar_obuf h1]; exact hsm
  · cases q with
    | nil =>
      refine ⟨[], [], t, ?_, rfl, rfl, ht⟩
      unfold Transform.call inheritBuf M.zoom getByte
      simp only [M.bind_def, getChar_nil hrep]
    | cons c q =>
      obtain ⟨o', h1, h2⟩ := getChar_cons hrep
      refine ⟨[c], q, ⟨t.zs, o'⟩, ?_, rfl, rfl, h2, ?_⟩
      · unfold Transform.call inheritBuf M.zoom getByte
        simp only [M.bind_def, h1, M.pure_def]
        simp
      · simp only [getChar_obuf h1]; exact hsm
  · refine ⟨[], q, t, ?_, rfl, rfl, ht⟩
    unfold Transform.call inheritBuf M.zoom
    rfl

theorem zInv_init {env : Env} {P : Nat} (h : 512 ≤ env.maxLen) (z : ζ) :
    ZInv env P ⟨z, OBuf.init env 512⟩ [] := by
  refine ⟨rep_init env 512 (by omega) h, ?_⟩
  simp [OBuf.init]

/-! ### Histories -/

/-- What has to be known of the methods to conclude about histories: `R zs c p` holds before and after
each method that returns normally, where `c` is the data put so far and `p` all the output so far. -/
theorem zCall_ok {env : Env} {P : Nat} {T : Transform (ZSt ζ)} {p : PutMethods (ZSt ζ)}
    (hT : T = inheritBuf (·.ob) (fun o t => { t with ob := o }) p) (R : ζ → Bytes → Bytes → Prop)
    (Bad : Bytes → Exn → Prop) {t : ZSt ζ} {q : Bytes} {c g : Bytes}
    (ht : ZInv env P t q) (hR : R t.zs c (g ++ q)) {op : TOp} (hop : op.Proper) (hs : op.input.length < 2 ^ 32)
    (hputString : p.putString = fun s => p.putSubstring s 0 s.length)
    (hputChar : p.putChar = fun ch => p.putSubstring [ch] 0 1)
    (hputByte : p.putByte = putByteChr p.putChar)
    (hput : ∀ (src : Bytes) (ofs len : Nat), ofs + len ≤ src.length → len < 2 ^ 32 →
      slice src ofs len = op.input →
      (∃ t' o, p.putSubstring src ofs len t = .ok () t' ∧ ZInv env P t' (q ++ o) ∧
        R t'.zs (c ++ op.input) (g ++ q ++ o)) ∨
      (∃ e t', p.putSubstring src ofs len t = .exn e t' ∧ Bad (c ++ op.input) e)) :
    (∃ x q' t', T.call op t = .ok x t' ∧ ZInv env P t' q' ∧ R t'.zs (c ++ op.input) (g ++ x ++ q')) ∨
    (∃ e t', T.call op t = .exn e t' ∧ Bad (c ++ op.input) e) := by
  have hgets : (op = .getString ∨ op = .getSubstring ∨ op = .getChar ∨ op = .getByte ∨ op = .available) →
      op.input = [] →
      (∃ x q' t', T.call op t = .ok x t' ∧ ZInv env P t' q' ∧ R t'.zs (c ++ op.input) (g ++ x ++ q')) ∨
      (∃ e t', T.call op t = .exn e t' ∧ Bad (c ++ op.input) e) := by
    intro h1 h2
    obtain ⟨x, q', t', h3, h4, h5, h6⟩ := zGet_ok hT ht h1
    exact .inl ⟨x, q', t', h3, h6, by rw [h2, List.append_nil, h5, List.append_assoc, h4]; exact hR⟩
  have hputs : ∀ (src : Bytes) (ofs len : Nat), ofs + len ≤ src.length → len < 2 ^ 32 →
      slice src ofs len = op.input → (T.call op t = (do p.putSubstring src ofs len; pure []) t) →
      (∃ x q' t', T.call op t = .ok x t' ∧ ZInv env P t' q' ∧ R t'.zs (c ++ op.input) (g ++ x ++ q')) ∨
      (∃ e t', T.call op t = .exn e t' ∧ Bad (c ++ op.input) e) := by
    intro src ofs len h1 h2 h3 h4
    rw [h4]
    rcases hput src ofs len h1 h2 h3 with ⟨t', o, h5, h6, h7⟩ | ⟨e, t', h5, h6⟩
    · refine .inl ⟨[], q ++ o, t', by simp [M.bind_def, h5], h6, ?_⟩
      rwa [List.append_nil, ← List.append_assoc]
    · exact .inr ⟨e, t', by simp [M.bind_def, h5], h6⟩
  cases op with
  | putSubstring b ofs len =>
    obtain ⟨⟨h1, h2, h3⟩, _⟩ := hop
    obtain ⟨ofs, rfl⟩ := Int.eq_ofNat_of_zero_le h2
    obtain ⟨len, rfl⟩ := Int.eq_ofNat_of_zero_le h1
    have hl : ofs + len ≤ b.length := by omega
    have hi : (TOp.putSubstring b ofs len).input = slice b ofs len := by simp [TOp.input]
    refine hputs b ofs len hl ?_ hi.symm ?_
    · rw [hi, slice_length_of_le hl] at hs; exact hs
    · subst hT; rfl
  | putString s =>
    refine hputs s 0 s.length (by omega) hs (by simp [TOp.input, slice]) ?_
    subst hT
    simp only [Transform.call, inheritBuf, hputString]
    rfl
  | putChar ch =>
    refine hputs [ch] 0 1 (by simp) (by omega) (by simp [TOp.input, slice]) ?_
    subst hT
    simp only [Transform.call, inheritBuf, hputChar]
    rfl
  | putByte b =>
    obtain ⟨_, h1, h2⟩ := hop
    refine hputs [BitVec.ofInt 8 b] 0 1 (by simp) (by omega) (by simp [TOp.input, slice]) ?_
    subst hT
    simp only [Transform.call, inheritBuf, hputByte, putByteChr, charChr, if_pos (And.intro h1 h2), hputChar]
    rfl
  | getString => exact hgets (.inl rfl) rfl
  | getSubstring => exact hgets (.inr (.inl rfl)) rfl
  | getChar => exact hgets (.inr (.inr (.inl rfl))) rfl
  | getByte => exact hgets (.inr (.inr (.inr (.inl rfl)))) rfl
  | available => exact hgets (.inr (.inr (.inr (.inr rfl)))) rfl

/-! ### `compress` -/

section
variable {env : Env} {P : Nat} {L : ZLib ζ} {z0 : ζ}

theorem deflateFails_ok {c : ZCode} (h : c = .ok) : deflateFails c = false := by subst h; rfl
theorem deflateFails_end {c : ZCode} (h : c = .streamEnd) : deflateFails c = false := by subst h; rfl

theorem compressPut_from (hr : ZRoom env P) {Valid : Bytes → Bytes → Prop} (D : DeflateContract L z0 Valid)
    {cb gb data : Bytes}
    (hsz : ∀ {z c p}, D.Live z c p → cb <+: c → gb <+: p → c <+: data → p.length ≤ gb.length + P) :
    ∀ (fuel : Nat) {t : ZSt ζ} {q g c src : Bytes} {ofs len : Nat}, ZInv env P t q → cb <+: c → gb <+: g →
      D.Live t.zs c (g ++ q) → ofs + len ≤ src.length → len < 2 ^ 32 → c ++ slice src ofs len <+: data →
      gb.length + P + 1 < fuel + (g ++ q).length →
      ∃ t' o, Zlib.compressPut env L fuel src ofs len t = .ok () t' ∧ ZInv env P t' (q ++ o) ∧
        D.Live t'.zs (c ++ slice src ofs len) (g ++ q ++ o) ∧ (0 < len → ¬ D.Clean t'.zs) ∧
        (len = 0 → t'.zs = t.zs) := by
  intro fuel
  induction fuel with
  | zero =>
    intro t q g c src ofs len ht hcb hgb hL hs hl hd hf
    have := hsz hL hcb (hgb.trans (List.prefix_append _ _)) ((List.prefix_append _ _).trans hd)
    omega
  | succ fuel ih =>
    intro t q g c src ofs len ht hcb hgb hL hs hl hd hf
    have hgl := hgb.length_le
    have hP := hsz hL hcb (hgb.trans (List.prefix_append _ _)) ((List.prefix_append _ _).trans hd)
    have hsl : (slice src ofs len).length = len := slice_length_of_le hs
    unfold Zlib.compressPut
    rcases Nat.eq_zero_or_pos len with h0 | h0
    · subst h0
      refine ⟨t, [], ?_, by simpa using ht, by simpa [slice] using hL, by omega, fun _ => rfl⟩
      simp
    · rw [if_pos (by omega)]
      obtain ⟨n, hn, _, hok⟩ := zStep_ok hr D.bounded deflateFails ht
        (by simp only [List.length_append] at hP; omega) hs hl .noFlush
      have hne : slice src ofs len ≠ [] := by
        intro h; rw [h] at hsl; simp at hsl; omega
      obtain ⟨h1, h2, h3, h4⟩ := D.put (n := n) hL hne (by omega)
      obtain ⟨t1, e1, e2, e3, _⟩ := hok (deflateFails_ok h1)
      have hin := D.bounded.usedIn .noFlush (slice src ofs len) n t.zs
      rw [hsl] at hin
      generalize L.deflate .noFlush (slice src ofs len) n t.zs = r at *
      simp only [M.bind_def, e1]
      have htake : (slice src ofs len).take r.usedIn = slice src ofs r.usedIn := by
        unfold slice; rw [List.take_take, Nat.min_eq_left hin]
      rw [htake] at h2
      by_cases hlt : r.usedIn < len
      · rw [if_pos (by omega)]
        have hfull : r.out.length = n := by omega
        have hsplit : slice src ofs len = slice src ofs r.usedIn ++ slice src (ofs + r.usedIn) (len - r.usedIn) := by
          rw [← slice_append_right, show r.usedIn + (len - r.usedIn) = len by omega]
        have c1 : (ofs : Int) + r.usedIn = ((ofs + r.usedIn : Nat) : Int) := by omega
        have c2 : (len : Int) - r.usedIn = ((len - r.usedIn : Nat) : Int) := by omega
        rw [c1, c2]
        rw [hsplit, ← List.append_assoc] at hd
        rw [← e2] at h2
        obtain ⟨t2, o, f1, f2, f3, f4, f5⟩ := ih (t := t1) (q := q ++ r.out) (g := g) (c := c ++ slice src ofs r.usedIn)
          (src := src) (ofs := ofs + r.usedIn) (len := len - r.usedIn) e3
          (hcb.trans (List.prefix_append _ _)) hgb (by rw [← List.append_assoc]; exact h2)
          (by omega) (by omega) hd (by simp only [List.length_append] at hf ⊢; omega)
        refine ⟨t2, r.out ++ o, f1, by rw [← List.append_assoc]; exact f2, ?_, ?_, by omega⟩
        · rw [hsplit]
          rw [← List.append_assoc, ← List.append_assoc]
          rw [← List.append_assoc] at f3
          exact f3
        · intro _; exact f4 (by omega)
      · rw [if_neg (by omega)]
        obtain rfl : r.usedIn = len := by omega
        refine ⟨t1, r.out, rfl, e3, ?_, ?_, by omega⟩
        · rw [e2]; exact h2
        · intro _; rw [e2]; exact h4 h0

theorem compressFlush_from (hr : ZRoom env P) {Valid : Bytes → Bytes → Prop} (D : DeflateContract L z0 Valid)
    {cb gb data : Bytes}
    (hsz : ∀ {z c p}, D.Live z c p → cb <+: c → gb <+: p → c <+: data → p.length ≤ gb.length + P) :
    ∀ (fuel : Nat) {t : ZSt ζ} {q g c : Bytes}, ZInv env P t q → cb <+: c → gb <+: g →
      D.Live t.zs c (g ++ q) → ¬ D.Clean t.zs → c <+: data → gb.length + P + 1 < fuel + (g ++ q).length →
      ∃ t' o, Zlib.compressFlush env L fuel t = .ok () t' ∧ ZInv env P t' (q ++ o) ∧
        D.Live t'.zs c (g ++ q ++ o) := by
  intro fuel
  induction fuel with
  | zero =>
    intro t q g c ht hcb hgb hL hc hd hf
    have := hsz hL hcb (hgb.trans (List.prefix_append _ _)) hd
    omega
  | succ fuel ih =>
    intro t q g c ht hcb hgb hL hc hd hf
    have hgl := hgb.length_le
    have hP := hsz hL hcb (hgb.trans (List.prefix_append _ _)) hd
    unfold Zlib.compressFlush
    obtain ⟨n, hn, _, hok⟩ := zStep_ok hr D.bounded deflateFails ht (src := []) (ofs := 0) (len := 0)
      (by simp only [List.length_append] at hP; omega) (by simp) (by omega) .syncFlush
    have hsl : slice [] 0 0 = [] := rfl
    rw [hsl] at hok
    obtain ⟨h1, h2, h3⟩ := D.flush (n := n) hL hc (by omega)
    obtain ⟨t1, e1, e2, e3, e4⟩ := hok (deflateFails_ok h1)
    generalize L.deflate .syncFlush [] n t.zs = r at *
    have e1' : zStep env L.deflate deflateFails [] 0 0 .syncFlush t = _ := e1
    simp only [M.bind_def, e1', M.get_def]
    by_cases hfull : r.out.length = n
    · rw [if_pos (e4.2 hfull)]
      rw [← e2] at h2
      obtain ⟨t2, o, f1, f2, f3⟩ := ih (t := t1) (q := q ++ r.out) (g := g) (c := c) e3 hcb hgb
        (by rw [← List.append_assoc]; exact h2) (by rw [e2]; exact h3 hfull) hd
        (by simp only [List.length_append] at hf ⊢; omega)
      refine ⟨t2, r.out ++ o, f1, by rw [← List.append_assoc]; exact f2, ?_⟩
      rw [← List.append_assoc] at f3 ⊢
      exact f3
    · rw [if_neg (fun h => hfull (e4.1 h))]
      exact ⟨t1, r.out, rfl, e3, by rw [e2]; exact h2⟩

theorem compressFinish_from (hr : ZRoom env P) {Valid : Bytes → Bytes → Prop} (D : DeflateContract L z0 Valid)
    {cb gb data : Bytes} (hsz : ∀ {z c p}, D.Live z c p ∨ D.Finishing z c p → cb <+: c → gb <+: p → c <+: data →
      p.length ≤ gb.length + P) :
    ∀ (fuel : Nat) {t : ZSt ζ} {q g c : Bytes}, ZInv env P t q → cb <+: c → gb <+: g →
      D.Live t.zs c (g ++ q) ∨ D.Finishing t.zs c (g ++ q) → c <+: data → gb.length + P + 1 < fuel + (g ++ q).length →
      ∃ t' o, Zlib.compressFinish env L fuel t = .ok () t' ∧ ZInv env P t' (q ++ o) ∧
        Valid (g ++ q ++ o) c := by
  intro fuel
  induction fuel with
  | zero =>
    intro t q g c ht hcb hgb hL hd hf
    have := hsz hL hcb (hgb.trans (List.prefix_append _ _)) hd
    omega
  | succ fuel ih =>
    intro t q g c ht hcb hgb hL hd hf
    have hgl := hgb.length_le
    have hP := hsz hL hcb (hgb.trans (List.prefix_append _ _)) hd
    unfold Zlib.compressFinish
    obtain ⟨n, hn, _, hok⟩ := zStep_ok hr D.bounded deflateFails ht (src := []) (ofs := 0) (len := 0)
      (by simp only [List.length_append] at hP; omega) (by simp) (by omega) .finish
    have hsl : slice [] 0 0 = [] := rfl
    rw [hsl] at hok
    rcases D.finish (n := n) hL (by omega) with ⟨h1, h2, h3⟩ | ⟨h1, h2, h3⟩
    · obtain ⟨t1, e1, e2, e3, e4⟩ := hok (deflateFails_end h1)
      generalize L.deflate .finish [] n t.zs = r at *
      have e1' : zStep env L.deflate deflateFails [] 0 0 .finish t = _ := e1
      simp only [M.bind_def, e1', h1]
      refine ⟨⟨(L.deflateEnd t1.zs).2, t1.ob⟩, r.out, ?_, ⟨e3.rep, e3.small⟩, h2⟩
      simp only [zEnd, decide_true, if_true, e2, h3]
    · obtain ⟨t1, e1, e2, e3, e4⟩ := hok (deflateFails_ok h1)
      generalize L.deflate .finish [] n t.zs = r at *
      have e1' : zStep env L.deflate deflateFails [] 0 0 .finish t = _ := e1
      simp only [M.bind_def, e1', h1]
      rw [← e2] at h2
      obtain ⟨t2, o, f1, f2, f3⟩ := ih (t := t1) (q := q ++ r.out) (g := g) (c := c) e3 hcb hgb
        (.inr (by rw [← List.append_assoc]; exact h2)) hd
        (by simp only [List.length_append] at hf ⊢; omega)
      refine ⟨t2, r.out ++ o, ?_, by rw [← List.append_assoc]; exact f2, ?_⟩
      · simpa using f1
      · rw [← List.append_assoc] at f3 ⊢
        exact f3

theorem compressPut_ok (hr : ZRoom env P) {Valid : Bytes → Bytes → Prop} (D : DeflateContract L z0 Valid)
    {data : Bytes} (hsz : ∀ {z c p}, D.Live z c p → c <+: data → p.length ≤ P)
    (fuel : Nat) {t : ZSt ζ} {q g c src : Bytes} {ofs len : Nat} (ht : ZInv env P t q)
    (hL : D.Live t.zs c (g ++ q)) (hs : ofs + len ≤ src.length) (hl : len < 2 ^ 32)
    (hd : c ++ slice src ofs len <+: data) (hf : P + 1 < fuel + (g ++ q).length) :
    ∃ t' o, Zlib.compressPut env L fuel src ofs len t = .ok () t' ∧ ZInv env P t' (q ++ o) ∧
      D.Live t'.zs (c ++ slice src ofs len) (g ++ q ++ o) ∧ (0 < len → ¬ D.Clean t'.zs) ∧
      (len = 0 → t'.zs = t.zs) :=
  compressPut_from hr D (cb := []) (gb := []) (data := data) (fun h _ _ hc => by simpa using hsz h hc) fuel ht
    List.nil_prefix List.nil_prefix hL hs hl hd (by simpa using hf)

theorem compressFlush_ok (hr : ZRoom env P) {Valid : Bytes → Bytes → Prop} (D : DeflateContract L z0 Valid)
    {data : Bytes} (hsz : ∀ {z c p}, D.Live z c p → c <+: data → p.length ≤ P)
    (fuel : Nat) {t : ZSt ζ} {q g c : Bytes} (ht : ZInv env P t q) (hL : D.Live t.zs c (g ++ q))
    (hc : ¬ D.Clean t.zs) (hd : c <+: data) (hf : P + 1 < fuel + (g ++ q).length) :
    ∃ t' o, Zlib.compressFlush env L fuel t = .ok () t' ∧ ZInv env P t' (q ++ o) ∧
      D.Live t'.zs c (g ++ q ++ o) :=
  compressFlush_from hr D (cb := []) (gb := []) (data := data) (fun h _ _ hc => by simpa using hsz h hc) fuel ht
    List.nil_prefix List.nil_prefix hL hc hd (by simpa using hf)

theorem compressFinish_ok (hr : ZRoom env P) {Valid : Bytes → Bytes → Prop} (D : DeflateContract L z0 Valid)
    {data : Bytes} (hsz : ∀ {z c p}, D.Live z c p ∨ D.Finishing z c p → c <+: data → p.length ≤ P)
    (fuel : Nat) {t : ZSt ζ} {q g c : Bytes} (ht : ZInv env P t q)
    (hL : D.Live t.zs c (g ++ q) ∨ D.Finishing t.zs c (g ++ q)) (hd : c <+: data)
    (hf : P + 1 < fuel + (g ++ q).length) :
    ∃ t' o, Zlib.compressFinish env L fuel t = .ok () t' ∧ ZInv env P t' (q ++ o) ∧
      Valid (g ++ q ++ o) c :=
  compressFinish_from hr D (cb := []) (gb := []) (data := data) (fun h _ _ hc => by simpa using hsz h hc) fuel ht
    List.nil_prefix List.nil_prefix hL hd (by simpa using hf)

theorem compressCalls_ok (hr : ZRoom env P) {Valid : Bytes → Bytes → Prop} (D : DeflateContract L z0 Valid)
    {data : Bytes} (hsz : ∀ {z c p}, D.Live z c p → c <+: data → p.length ≤ P) {fuel : Nat} (hf : P + 1 < fuel)
    (ops : List FOp) : ∀ {t : ZSt ζ} {q g c : Bytes} {fresh : Bool}, ZInv env P t q → D.Live t.zs c (g ++ q) →
      (fresh = true → ¬ D.Clean t.zs) → (∀ op ∈ ops, op.Legal ∧ FOp.ByteOk op ∧ FOp.Short op) →
      FlushesFresh fresh ops → c ++ finputOf ops <+: data →
      ∃ x q' t', (Zlib.compress env L fuel).callsF ops t = .ok x t' ∧ ZInv env P t' q' ∧
        D.Live t'.zs (c ++ finputOf ops) (g ++ x ++ q') := by
  induction ops with
  | nil =>
    intro t q g c fresh ht hL _ _ _ _
    exact ⟨[], q, t, rfl, ht, by simpa [finputOf] using hL⟩
  | cons op ops ih =>
    intro t q g c fresh ht hL hfr hops hff hd
    obtain ⟨hleg, hbyte, hshort⟩ := hops op List.mem_cons_self
    have hops' := fun y hy => hops y (List.mem_cons_of_mem _ hy)
    have hin : finputOf (op :: ops) = op.input ++ finputOf ops := by simp [finputOf]
    rw [hin, ← List.append_assoc] at hd
    have hd1 : c ++ op.input <+: data := (List.prefix_append _ _).trans hd
    have hd0 : c <+: data := (List.prefix_append _ _).trans hd1
    rw [hin]
    cases op with
    | flush =>
      obtain ⟨hfresh, hff'⟩ := hff
      obtain ⟨t1, o, e1, e2, e3⟩ := compressFlush_ok hr D hsz fuel ht hL (hfr hfresh) hd0 (by omega)
      have hd' : c ++ finputOf ops <+: data := by simpa [FOp.input] using hd
      obtain ⟨x, q', t2, f1, f2, f3⟩ := ih (q := q ++ o) (g := g) (fresh := false) e2
        (by rw [← List.append_assoc]; exact e3) (by simp) hops' hff' hd'
      refine ⟨x, q', t2, ?_, f2, by simpa [FOp.input] using f3⟩
      simp only [Transform.callsF, Transform.callF, M.bind_def]
      have e1' : (Zlib.compress env L fuel).flush t = .ok () t1 := e1
      simp only [e1', M.pure_def, f1, List.nil_append]
    | call op =>
      rcases zCall_ok (T := Zlib.compress env L fuel) rfl
        (fun z c' p => D.Live z c' p ∧ (op.input ≠ [] → c' = c ++ op.input → ¬ D.Clean z) ∧
          (op.input = [] → z = t.zs)) (fun _ _ => False) ht
        (c := c) (g := g) ⟨hL, by intro h1 h2; simp at h2; exact absurd h2 h1, fun _ => rfl⟩ (op := op) ⟨hleg, hbyte⟩ hshort rfl rfl rfl
        (by
          intro src ofs len h1 h2 h3
          obtain ⟨t', o, e1, e2, e3, e4, e5⟩ := compressPut_ok hr D hsz fuel ht hL h1 h2
            (by rw [h3]; exact hd1) (by omega)
          have hl : op.input.length = len := by rw [← h3, slice_length_of_le h1]
          rw [h3] at e3
          refine .inl ⟨t', o, e1, e2, e3, ?_, ?_⟩
          · intro h4 _
            apply e4
            cases hop : op.input with
            | nil => exact absurd hop h4
            | cons a l => rw [hop] at hl; simp at hl; omega
          · intro h4
            rw [h4] at hl
            exact e5 (by simpa using hl.symm)) with
        ⟨x, q', t', e1, e2, e3, e4, e5⟩ | ⟨_, _, _, h⟩
      · obtain ⟨x2, q2, t2, f1, f2, f3⟩ := ih (q := q') (g := g ++ x) (c := c ++ op.input)
          (fresh := fresh || !op.input.isEmpty) e2 e3 (by
            intro h
            by_cases hne : op.input = []
            · rw [e5 hne]
              rw [hne] at h
              exact hfr (by simpa using h)
            · exact e4 hne rfl) hops' hff hd
        refine ⟨x ++ x2, q2, t2, ?_, f2, ?_⟩
        · simp only [Transform.callsF, Transform.callF, M.bind_def, e1, f1, M.pure_def]
        · rw [← List.append_assoc, ← List.append_assoc]
          exact f3
      · exact absurd h id

theorem compressTotal_ok (hr : ZRoom env P) (h512 : 512 ≤ env.maxLen) {Valid : Bytes → Bytes → Prop}
    (D : DeflateContract L z0 Valid) {ops : List FOp}
    (hsz : ∀ {z c p}, D.Live z c p ∨ D.Finishing z c p → c <+: finputOf ops → p.length ≤ P)
    {fuel : Nat} (hf : P + 1 < fuel) (hops : ∀ op ∈ ops, op.Legal ∧ FOp.ByteOk op ∧ FOp.Short op)
    (hff : FlushesFresh true ops) :
    ∃ x t', (Zlib.compress env L fuel).totalF ops ⟨z0, OBuf.init env 512⟩ = .ok x t' ∧ Valid x (finputOf ops) := by
  obtain ⟨x, q, t1, e1, e2, e3⟩ := compressCalls_ok hr D (fun h => hsz (.inl h)) hf ops
    (t := ⟨z0, OBuf.init env 512⟩) (q := []) (g := []) (c := []) (fresh := true) (zInv_init h512 z0) D.start.1
    (fun _ => D.start.2) hops hff (by simp)
  simp only [List.nil_append] at e3
  obtain ⟨t2, o, f1, f2, f3⟩ := compressFinish_ok hr D hsz fuel e2 (g := x) (.inl e3) (List.prefix_refl _) (by omega)
  refine ⟨x ++ (q ++ o), ⟨t2.zs, { t2.ob with obeg := 0, oend := 0 }⟩, ?_, by rw [← List.append_assoc]; exact f3⟩
  unfold Transform.totalF
  simp only [M.bind_def, e1]
  have f1' : (Zlib.compress env L fuel).finish t1 = .ok () t2 := f1
  have f4 : (Zlib.compress env L fuel).getString t2 = .ok (q ++ o) ⟨t2.zs, { t2.ob with obeg := 0, oend := 0 }⟩ := by
    simp only [Zlib.compress, inheritBuf, M.zoom, getString_ok f2.rep]
  simp only [f1', f4, M.pure_def]

end

/-! ### `uncompress` -/

/-- No continuation of `s` is a complete stream. -/
def ZDead (F : ZFormat) (s : Bytes) : Prop := ∀ w, ¬ F.Stream (s ++ w)

theorem ZDead.append {F : ZFormat} {s : Bytes} (h : ZDead F s) (w : Bytes) : ZDead F (s ++ w) := by
  intro v hv
  rw [List.append_assoc] at hv
  exact h _ hv

theorem zDead_of {F : ZFormat} {s a : Bytes} (ha : a <+: s)
    (hb : F.status a = .bad ∨ (F.status a = .done ∧ a ≠ s)) : ZDead F s := by
  intro w ⟨h1, h2⟩
  have hp : a <+: s ++ w := ha.trans (List.prefix_append _ _)
  by_cases he : a = s ++ w
  · subst he
    rcases hb with hb | ⟨_, hb⟩
    · rw [h1] at hb; cases hb
    · obtain ⟨v, hv⟩ := ha
      have := congrArg List.length hv
      simp only [List.length_append] at this
      have hw : w = [] := List.length_eq_zero_iff.1 (by omega)
      subst hw
      simp at hb
  · have := h2 a hp he
    rcases hb with hb | ⟨hb, _⟩ <;> (rw [this] at hb; cases hb)

section
variable {env : Env} {P : Nat} {L : ZLib ζ} {z0 : ζ} {F : ZFormat}

theorem inflateCode_ok {c : ZCode} (h1 : inflateFails c = false) (h2 : c ≠ .streamEnd) : c = .ok := by
  cases c <;> simp_all [inflateFails]

theorem inflate_step (I : InflateContract L z0 F) {z : ζ} {c d i : Bytes} {n : Nat} (hL : I.Live z c d) (hn : 0 < n)
    (hfails : inflateFails (L.inflate .syncFlush i n z).code = false) :
    I.Live (L.inflate .syncFlush i n z).st (c ++ i.take (L.inflate .syncFlush i n z).usedIn)
      (d ++ (L.inflate .syncFlush i n z).out) := by
  have h := I.call (i := i) hL hn
  dsimp only at h
  generalize L.inflate .syncFlush i n z = r at *
  cases hc : r.code <;> rw [hc] at h hfails
  · exact h.1
  · exact h.1
  · cases hfails
  · cases hfails

theorem uncompressPut_from (hr : ZRoom env P) (I : InflateContract L z0 F) {cb gb data : Bytes}
    (hsz : ∀ {z c d}, I.Live z c d → cb <+: c → gb <+: d → c <+: data → d.length ≤ gb.length + P) :
    ∀ (fuel : Nat) {t : ZSt ζ} {q g c src : Bytes} {ofs len : Nat}, ZInv env P t q → cb <+: c → gb <+: g →
      I.Live t.zs c (g ++ q) → ofs + len ≤ src.length → len < 2 ^ 32 → c ++ slice src ofs len <+: data →
      gb.length + P + 1 < fuel + (g ++ q).length →
      (∃ t' o, Zlib.uncompressPut env L fuel src ofs len t = .ok () t' ∧ ZInv env P t' (q ++ o) ∧
        I.Live t'.zs (c ++ slice src ofs len) (g ++ q ++ o)) ∨
      (∃ t', Zlib.uncompressPut env L fuel src ofs len t = .exn (.error .compressionError) t' ∧
        ZDead F (c ++ slice src ofs len)) := by
  intro fuel
  induction fuel with
  | zero =>
    intro t q g c src ofs len ht hcb hgb hL hs hl hd hf
    have := hsz hL hcb (hgb.trans (List.prefix_append _ _)) ((List.prefix_append _ _).trans hd)
    omega
  | succ fuel ih =>
    intro t q g c src ofs len ht hcb hgb hL hs hl hd hf
    have hgl := hgb.length_le
    have hP := hsz hL hcb (hgb.trans (List.prefix_append _ _)) ((List.prefix_append _ _).trans hd)
    have hsl : (slice src ofs len).length = len := slice_length_of_le hs
    unfold Zlib.uncompressPut
    rcases Nat.eq_zero_or_pos len with h0 | h0
    · subst h0
      refine .inl ⟨t, [], ?_, by simpa using ht, by simpa [slice] using hL⟩
      simp
    · rw [if_pos (by omega)]
      obtain ⟨n, hn, hbad, hok⟩ := zStep_ok hr I.bounded inflateFails ht
        (by simp only [List.length_append] at hP; omega) hs hl .syncFlush
      have hcall := I.call (i := slice src ofs len) hL (show 0 < n by omega)
      dsimp only at hcall
      have hstep := inflate_step I (i := slice src ofs len) hL (show 0 < n by omega)
      have hin := I.bounded.usedIn .syncFlush (slice src ofs len) n t.zs
      rw [hsl] at hin
      generalize L.inflate .syncFlush (slice src ofs len) n t.zs = r at *
      have htake : (slice src ofs len).take r.usedIn = slice src ofs r.usedIn := by
        unfold slice; rw [List.take_take, Nat.min_eq_left hin]
      have hsplit : slice src ofs len = slice src ofs r.usedIn ++ slice src (ofs + r.usedIn) (len - r.usedIn) := by
        rw [← slice_append_right, show r.usedIn + (len - r.usedIn) = len by omega]
      rw [htake] at hcall hstep
      cases hfl : inflateFails r.code with
      | true =>
        obtain ⟨t', e⟩ := hbad hfl
        refine .inr ⟨t', by simp only [M.bind_def, e], ?_⟩
        have hdead : (∃ a, a <+: slice src ofs len ∧ F.status (c ++ a) = .bad ∧
            ∀ b, b <+: a → b ≠ a → F.status (c ++ b) = .more) ∨
            (slice src ofs len = [] ∧ g ++ q = F.out c ∧ F.status c = .more) := by
          cases hc : r.code <;> rw [hc] at hcall hfl
          · cases hfl
          · cases hfl
          · exact hcall
          · exact hcall
        rcases hdead with ⟨a, ha, hb, _⟩ | ⟨h, _⟩
        · exact zDead_of (a := c ++ a) (List.prefix_append_right_inj c |>.2 ha) (.inl hb)
        · rw [h] at hsl; simp at hsl; omega
      | false =>
        obtain ⟨t1, e1, e2, e3, _⟩ := hok hfl
        have hL1 := hstep hfl
        simp only [M.bind_def, e1]
        by_cases hlt : r.usedIn < len
        · rw [if_pos (by omega)]
          by_cases hend : r.code = .streamEnd
          · rw [if_pos (by simp [hend])]
            refine .inr ⟨t1, rfl, ?_⟩
            rw [hend] at hcall
            refine zDead_of (a := c ++ slice src ofs r.usedIn) ?_ (.inr ⟨hcall.2.1, ?_⟩)
            · rw [hsplit, ← List.append_assoc]; exact List.prefix_append _ _
            · intro h
              have := congrArg List.length h
              simp only [List.length_append, hsl] at this
              rw [slice_length_of_le (by omega)] at this
              omega
          · rw [if_neg (by simp [hend])]
            have hcode : r.code = .ok := inflateCode_ok hfl hend
            rw [hcode] at hcall
            have hfull : r.out.length = n := by
              rcases hcall.2.2 with h | ⟨h, _⟩
              · exact h
              · omega
            have c1 : (ofs : Int) + r.usedIn = ((ofs + r.usedIn : Nat) : Int) := by omega
            have c2 : (len : Int) - r.usedIn = ((len - r.usedIn : Nat) : Int) := by omega
            rw [c1, c2]
            rw [hsplit, ← List.append_assoc] at hd
            rw [← e2] at hL1
            rcases ih (t := t1) (q := q ++ r.out) (g := g) (c := c ++ slice src ofs r.usedIn)
              (src := src) (ofs := ofs + r.usedIn) (len := len - r.usedIn) e3
              (hcb.trans (List.prefix_append _ _)) hgb (by rw [← List.append_assoc]; exact hL1)
              (by omega) (by omega) hd (by simp only [List.length_append] at hf ⊢; omega) with
              ⟨t2, o, f1, f2, f3⟩ | ⟨t2, f1, f2⟩
            · refine .inl ⟨t2, r.out ++ o, f1, by rw [← List.append_assoc]; exact f2, ?_⟩
              rw [hsplit, ← List.append_assoc, ← List.append_assoc]
              rw [← List.append_assoc] at f3
              exact f3
            · refine .inr ⟨t2, f1, ?_⟩
              rw [hsplit, ← List.append_assoc]; exact f2
        · rw [if_neg (by omega)]
          obtain rfl : r.usedIn = len := by omega
          exact .inl ⟨t1, r.out, rfl, e3, by rw [e2]; exact hL1⟩

theorem uncompressPut_ok (hr : ZRoom env P) (I : InflateContract L z0 F) {data : Bytes}
    (hsz : ∀ a, a <+: data → (F.out a).length ≤ P)
    (fuel : Nat) {t : ZSt ζ} {q g c src : Bytes} {ofs len : Nat} (ht : ZInv env P t q)
    (hL : I.Live t.zs c (g ++ q)) (hs : ofs + len ≤ src.length) (hl : len < 2 ^ 32)
    (hd : c ++ slice src ofs len <+: data) (hf : P + 1 < fuel + (g ++ q).length) :
    (∃ t' o, Zlib.uncompressPut env L fuel src ofs len t = .ok () t' ∧ ZInv env P t' (q ++ o) ∧
      I.Live t'.zs (c ++ slice src ofs len) (g ++ q ++ o)) ∨
    (∃ t', Zlib.uncompressPut env L fuel src ofs len t = .exn (.error .compressionError) t' ∧
      ZDead F (c ++ slice src ofs len)) :=
  uncompressPut_from hr I (cb := []) (gb := []) (data := data)
    (fun h _ _ hc => by have := Nat.le_trans (I.live h).1.length_le (hsz _ hc); simpa using this) fuel ht
    List.nil_prefix List.nil_prefix hL hs hl hd (by simpa using hf)

theorem uncompressCalls_ok (hr : ZRoom env P) (I : InflateContract L z0 F) {data : Bytes}
    (hsz : ∀ a, a <+: data → (F.out a).length ≤ P) {fuel : Nat} (hf : P + 1 < fuel)
    (ops : List FOp) : ∀ {t : ZSt ζ} {q g c : Bytes}, ZInv env P t q → I.Live t.zs c (g ++ q) →
      (∀ op ∈ ops, op.Legal ∧ FOp.ByteOk op ∧ FOp.Short op) → c ++ finputOf ops <+: data →
      (∃ x q' t', (Zlib.uncompress env L fuel).callsF ops t = .ok x t' ∧ ZInv env P t' q' ∧
        I.Live t'.zs (c ++ finputOf ops) (g ++ x ++ q')) ∨
      (∃ t', (Zlib.uncompress env L fuel).callsF ops t = .exn (.error .compressionError) t' ∧
        ZDead F (c ++ finputOf ops)) := by
  induction ops with
  | nil =>
    intro t q g c ht hL _ _
    exact .inl ⟨[], q, t, rfl, ht, by simpa [finputOf] using hL⟩
  | cons op ops ih =>
    intro t q g c ht hL hops hd
    obtain ⟨hleg, hbyte, hshort⟩ := hops op List.mem_cons_self
    have hops' := fun y hy => hops y (List.mem_cons_of_mem _ hy)
    have hin : finputOf (op :: ops) = op.input ++ finputOf ops := by simp [finputOf]
    rw [hin, ← List.append_assoc] at hd
    have hd1 : c ++ op.input <+: data := (List.prefix_append _ _).trans hd
    rw [hin]
    have hcall : (∃ x q' t', (Zlib.uncompress env L fuel).callF op t = .ok x t' ∧ ZInv env P t' q' ∧
        I.Live t'.zs (c ++ op.input) (g ++ x ++ q')) ∨
        (∃ e t', (Zlib.uncompress env L fuel).callF op t = .exn e t' ∧
          (e = .error .compressionError ∧ ZDead F (c ++ op.input))) := by
      cases op with
      | flush =>
        exact .inl ⟨[], q, t, rfl, ht, by simpa [FOp.input] using hL⟩
      | call op =>
        exact zCall_ok (T := Zlib.uncompress env L fuel) rfl I.Live
          (fun s e => e = .error .compressionError ∧ ZDead F s) ht hL (op := op) ⟨hleg, hbyte⟩ hshort rfl rfl rfl
          (by
            intro src ofs len h1 h2 h3
            rcases uncompressPut_ok hr I hsz fuel ht hL h1 h2 (by rw [h3]; exact hd1) (by omega) with
              ⟨t', o, e1, e2, e3⟩ | ⟨t', e1, e2⟩
            · rw [h3] at e3
              exact .inl ⟨t', o, e1, e2, e3⟩
            · rw [h3] at e2
              exact .inr ⟨_, t', e1, rfl, e2⟩)
    rcases hcall with ⟨x, q', t', e1, e2, e3⟩ | ⟨e, t', e1, rfl, e2⟩
    · rcases ih (q := q') (g := g ++ x) (c := c ++ op.input) e2 e3 hops' hd with
        ⟨x2, q2, t2, f1, f2, f3⟩ | ⟨t2, f1, f2⟩
      · refine .inl ⟨x ++ x2, q2, t2, ?_, f2, ?_⟩
        · simp only [Transform.callsF, M.bind_def, e1, f1, M.pure_def]
        · rw [← List.append_assoc, ← List.append_assoc]
          exact f3
      · refine .inr ⟨t2, ?_, by rw [← List.append_assoc]; exact f2⟩
        simp only [Transform.callsF, M.bind_def, e1, f1]
    · refine .inr ⟨t', ?_, by rw [← List.append_assoc]; exact e2.append _⟩
      simp only [Transform.callsF, M.bind_def, e1]

/-- `do_finish` for a complete stream: no more input is used, the remaining data is delivered. -/
theorem doFinish_done_from (hr : ZRoom env P) (I : InflateContract L z0 F) {gb c : Bytes}
    (hsz : ∀ {z d}, I.Live z c d → gb <+: d → d.length ≤ gb.length + P) (hc : F.status c = .done) :
    ∀ (fuel : Nat) (first : Bool) {t : ZSt ζ} {q g : Bytes}, ZInv env P t q → gb <+: g →
      I.Live t.zs c (g ++ q) → gb.length + P < fuel + (g ++ q).length →
      ∃ t' q', Zlib.doFinish env L fuel first t = .ok () t' ∧ ZInv env P t' q' ∧
        I.Live t'.zs c (g ++ q') ∧ g ++ q' = F.out c := by
  intro fuel
  induction fuel with
  | zero =>
    intro first t q g ht hgb hL hf
    have := hsz hL (hgb.trans (List.prefix_append _ _))
    omega
  | succ fuel ih =>
    intro first t q g ht hgb hL hf
    have hgl := hgb.length_le
    have hP := hsz hL (hgb.trans (List.prefix_append _ _))
    unfold Zlib.doFinish
    obtain ⟨len, hlen, hlen1⟩ : ∃ len : Nat, (if first then (1 : Int) else 0) = len ∧ len ≤ 1 := by
      cases first
      · exact ⟨0, rfl, by omega⟩
      · exact ⟨1, rfl, by omega⟩
    rw [hlen]
    obtain ⟨n, hn, _, hok⟩ := zStep_ok hr I.bounded inflateFails ht (src := [0x20]) (ofs := 0) (len := len)
      (by simp only [List.length_append] at hP; omega) (by simp; omega) (by omega) .syncFlush
    have hcall := I.call (i := slice [0x20] 0 len) hL (show 0 < n by omega)
    dsimp only at hcall
    have hstep := inflate_step I (i := slice [0x20] 0 len) hL (show 0 < n by omega)
    generalize L.inflate .syncFlush (slice [0x20] 0 len) n t.zs = r at *
    have hfl : inflateFails r.code = false := by
      have hno : ¬ ((∃ a, a <+: slice [0x20] 0 len ∧ F.status (c ++ a) = .bad ∧
            ∀ b, b <+: a → b ≠ a → F.status (c ++ b) = .more) ∨
            (slice [0x20] 0 len = [] ∧ g ++ q = F.out c ∧ F.status c = .more)) := by
        rintro (⟨a, _, hb, hm⟩ | ⟨_, _, h⟩)
        · by_cases ha : a = []
          · subst ha; rw [List.append_nil, hc] at hb; cases hb
          · have := hm [] List.nil_prefix (Ne.symm ha)
            rw [List.append_nil, hc] at this; cases this
        · rw [hc] at h; cases h
      cases hcd : r.code <;> rw [hcd] at hcall
      · rfl
      · rfl
      · exact absurd hcall hno
      · exact absurd hcall hno
    obtain ⟨t1, e1, e2, e3, _⟩ := hok hfl
    have hL1 := hstep hfl
    have hcc : c ++ (slice [0x20] 0 len).take r.usedIn = c := by
      apply Classical.byContradiction
      intro hne
      have := (I.live hL1).2.2 c (List.prefix_append _ _) (Ne.symm hne)
      rw [hc] at this; cases this
    rw [hcc] at hcall hL1
    have e1' : zStep env L.inflate inflateFails [0x20] 0 (len : Int) .syncFlush t = _ := e1
    simp only [M.bind_def, e1']
    by_cases hend : r.code = .streamEnd
    · rw [if_neg (by simp [hend])]
      rw [hend] at hcall
      refine ⟨t1, q ++ r.out, rfl, e3, by rw [e2, ← List.append_assoc]; exact hL1, ?_⟩
      rw [← List.append_assoc]; exact hcall.2.2
    · rw [if_pos (by simp [hend])]
      have hcode : r.code = .ok := inflateCode_ok hfl hend
      rw [hcode] at hcall
      have hfull : r.out.length = n := by
        rcases hcall.2.2 with h | ⟨_, _, h⟩
        · exact h
        · rw [hc] at h; cases h
      exact ih false (t := t1) (q := q ++ r.out) (g := g) e3 hgb (by rw [e2, ← List.append_assoc]; exact hL1)
        (by simp only [List.length_append] at hf ⊢; omega)

/-- `do_finish`, when the input is used up and no byte is left to offer. -/
theorem doFinish_rest_from (hr : ZRoom env P) (I : InflateContract L z0 F) {gb c : Bytes}
    (hsz : ∀ {z d}, I.Live z c d → gb <+: d → d.length ≤ gb.length + P) :
    ∀ (fuel : Nat) {t : ZSt ζ} {q g : Bytes}, ZInv env P t q → gb <+: g →
      I.Live t.zs c (g ++ q) → gb.length + P < fuel + (g ++ q).length →
      (∃ t' q', Zlib.doFinish env L fuel false t = .ok () t' ∧ ZInv env P t' q' ∧
        I.Live t'.zs c (g ++ q') ∧ F.status c = .done ∧ g ++ q' = F.out c) ∨
      (∃ t', Zlib.doFinish env L fuel false t = .exn (.error .compressionError) t') := by
  intro fuel
  induction fuel with
  | zero =>
    intro t q g ht hgb hL hf
    have := hsz hL (hgb.trans (List.prefix_append _ _))
    omega
  | succ fuel ih =>
    intro t q g ht hgb hL hf
    have hgl := hgb.length_le
    have hP := hsz hL (hgb.trans (List.prefix_append _ _))
    unfold Zlib.doFinish
    obtain ⟨n, hn, hbad, hok⟩ := zStep_ok hr I.bounded inflateFails ht (src := [0x20]) (ofs := 0) (len := 0)
      (by simp only [List.length_append] at hP; omega) (by simp) (by omega) .syncFlush
    have hcall := I.call (i := slice [0x20] 0 0) hL (show 0 < n by omega)
    dsimp only at hcall
    have hstep := inflate_step I (i := slice [0x20] 0 0) hL (show 0 < n by omega)
    have hin := I.bounded.usedIn .syncFlush (slice [0x20] 0 0) n t.zs
    generalize L.inflate .syncFlush (slice [0x20] 0 0) n t.zs = r at *
    cases hfl : inflateFails r.code with
    | true =>
      obtain ⟨t', e⟩ := hbad hfl
      have e' : zStep env L.inflate inflateFails [0x20] 0 0 .syncFlush t = _ := e
      exact .inr ⟨t', by simp only [M.bind_def, Bool.false_eq_true, if_false, e']⟩
    | false =>
      obtain ⟨t1, e1, e2, e3, _⟩ := hok hfl
      have hL1 := hstep hfl
      have hcc : c ++ (slice [0x20] 0 0).take r.usedIn = c := by simp [slice]
      rw [hcc] at hcall hL1
      have e1' : zStep env L.inflate inflateFails [0x20] 0 0 .syncFlush t = _ := e1
      simp only [M.bind_def, Bool.false_eq_true, if_false, e1']
      by_cases hend : r.code = .streamEnd
      · rw [if_neg (by simp [hend])]
        rw [hend] at hcall
        refine .inl ⟨t1, q ++ r.out, rfl, e3, by rw [e2, ← List.append_assoc]; exact hL1, hcall.2.1, ?_⟩
        rw [← List.append_assoc]; exact hcall.2.2
      · rw [if_pos (by simp [hend])]
        have hcode : r.code = .ok := inflateCode_ok hfl hend
        rw [hcode] at hcall
        have hpos : 0 < r.out.length := by
          rcases hcall.2.1 with h | h
          · simp [slice] at hin; omega
          · exact h
        exact ih (t := t1) (q := q ++ r.out) (g := g) e3 hgb (by rw [e2, ← List.append_assoc]; exact hL1)
          (by simp only [List.length_append] at hf ⊢; omega)

/-- `do_finish` at the end of an incomplete stream. -/
theorem doFinish_more_from (hr : ZRoom env P) (I : InflateContract L z0 F) {gb c : Bytes}
    (hsz : ∀ {z c' d}, I.Live z c' d → c <+: c' → c' <+: c ++ [0x20] → gb <+: d → d.length ≤ gb.length + P) (hc : F.status c = .more)
    (fuel : Nat) {t : ZSt ζ} {q g : Bytes} (ht : ZInv env P t q) (hgb : gb <+: g)
    (hL : I.Live t.zs c (g ++ q)) (hf : gb.length + P + 1 < fuel + (g ++ q).length) :
    (∃ t' q', Zlib.doFinish env L fuel true t = .ok () t' ∧ ZInv env P t' q' ∧
      I.Live t'.zs (c ++ [0x20]) (g ++ q') ∧ F.status (c ++ [0x20]) = .done ∧ g ++ q' = F.out (c ++ [0x20])) ∨
    (∃ t', Zlib.doFinish env L fuel true t = .exn (.error .compressionError) t') := by
  have hgl := hgb.length_le
  have hP := hsz hL (List.prefix_refl _) (List.prefix_append _ _) (hgb.trans (List.prefix_append _ _))
  cases fuel with
  | zero => omega
  | succ fuel =>
    unfold Zlib.doFinish
    obtain ⟨n, hn, hbad, hok⟩ := zStep_ok hr I.bounded inflateFails ht (src := [0x20]) (ofs := 0) (len := 1)
      (by simp only [List.length_append] at hP; omega) (by simp) (by omega) .syncFlush
    have hcall := I.call (i := slice [0x20] 0 1) hL (show 0 < n by omega)
    dsimp only at hcall
    have hstep := inflate_step I (i := slice [0x20] 0 1) hL (show 0 < n by omega)
    have hin := I.bounded.usedIn .syncFlush (slice [0x20] 0 1) n t.zs
    generalize L.inflate .syncFlush (slice [0x20] 0 1) n t.zs = r at *
    have hs1 : slice [(0x20 : Byte)] 0 1 = [0x20] := rfl
    rw [hs1] at hcall hstep hin
    simp only [List.length_singleton] at hin
    cases hfl : inflateFails r.code with
    | true =>
      obtain ⟨t', e⟩ := hbad hfl
      have e' : zStep env L.inflate inflateFails [0x20] 0 1 .syncFlush t = _ := e
      exact .inr ⟨t', by simp only [M.bind_def, if_true, e']⟩
    | false =>
      obtain ⟨t1, e1, e2, e3, _⟩ := hok hfl
      have hL1 := hstep hfl
      have e1' : zStep env L.inflate inflateFails [0x20] 0 1 .syncFlush t = _ := e1
      simp only [M.bind_def, if_true, e1']
      by_cases hend : r.code = .streamEnd
      · rw [if_neg (by simp [hend])]
        rw [hend] at hcall
        have hused : r.usedIn = 1 := by
          apply Classical.byContradiction
          intro hne
          have h0 : r.usedIn = 0 := by omega
          have := hcall.2.1
          rw [h0] at this
          simp [hc] at this
        rw [hused] at hcall hL1
        refine .inl ⟨t1, q ++ r.out, rfl, e3, by rw [e2, ← List.append_assoc]; exact hL1, hcall.2.1, ?_⟩
        rw [← List.append_assoc]; exact hcall.2.2
      · rw [if_pos (by simp [hend])]
        have hused : r.usedIn = 0 ∨ r.usedIn = 1 := by omega
        rcases hused with h | h
        · rw [h] at hL1
          simp only [List.take_zero, List.append_nil] at hL1
          rcases doFinish_rest_from hr I (gb := gb)
            (fun h hg => hsz h (List.prefix_refl _) (List.prefix_append _ _) hg) fuel (t := t1) (q := q ++ r.out)
            (g := g) e3 hgb
            (by rw [e2, ← List.append_assoc]; exact hL1)
            (by simp only [List.length_append] at hf ⊢; omega) with ⟨_, _, _, _, _, h4, _⟩ | h
          · rw [hc] at h4; cases h4
          · exact .inr h
        · rw [h] at hL1
          exact doFinish_rest_from hr I (gb := gb)
            (fun h hg => hsz h (List.prefix_append _ _) (List.prefix_refl _) hg) fuel (t := t1) (q := q ++ r.out)
            (g := g) e3 hgb
            (by rw [e2, ← List.append_assoc]; exact hL1)
            (by simp only [List.length_append] at hf ⊢; omega)

theorem doFinish_done (hr : ZRoom env P) (I : InflateContract L z0 F) {c : Bytes}
    (hsz : (F.out c).length ≤ P) (hc : F.status c = .done) (fuel : Nat) (first : Bool) {t : ZSt ζ} {q g : Bytes}
    (ht : ZInv env P t q) (hL : I.Live t.zs c (g ++ q)) (hf : P < fuel + (g ++ q).length) :
    ∃ t' q', Zlib.doFinish env L fuel first t = .ok () t' ∧ ZInv env P t' q' ∧
      I.Live t'.zs c (g ++ q') ∧ g ++ q' = F.out c :=
  doFinish_done_from hr I (gb := [])
    (fun h _ => by have := Nat.le_trans (I.live h).1.length_le hsz; simpa using this) hc fuel first ht
    List.nil_prefix hL (by simpa using hf)

theorem doFinish_more (hr : ZRoom env P) (I : InflateContract L z0 F) {c : Bytes}
    (hsz : ∀ a, a <+: c ++ [0x20] → (F.out a).length ≤ P) (hc : F.status c = .more)
    (fuel : Nat) {t : ZSt ζ} {q g : Bytes} (ht : ZInv env P t q)
    (hL : I.Live t.zs c (g ++ q)) (hf : P + 1 < fuel + (g ++ q).length) :
    (∃ t' q', Zlib.doFinish env L fuel true t = .ok () t' ∧ ZInv env P t' q' ∧
      I.Live t'.zs (c ++ [0x20]) (g ++ q') ∧ F.status (c ++ [0x20]) = .done ∧ g ++ q' = F.out (c ++ [0x20])) ∨
    (∃ t', Zlib.doFinish env L fuel true t = .exn (.error .compressionError) t') :=
  doFinish_more_from hr I (gb := [])
    (fun h _ hc _ => by have := Nat.le_trans (I.live h).1.length_le (hsz _ hc); simpa using this) hc fuel ht
    List.nil_prefix hL (by simpa using hf)

theorem uncompressTotal_ok (hr : ZRoom env P) (h512 : 512 ≤ env.maxLen) (I : InflateContract L z0 F)
    {ops : List FOp} (hsz : ∀ a, a <+: finputOf ops ++ [0x20] → (F.out a).length ≤ P)
    {fuel : Nat} (hf : P + 1 < fuel) (hops : ∀ op ∈ ops, op.Legal ∧ FOp.ByteOk op ∧ FOp.Short op) :
    (F.Stream (finputOf ops) → ∃ t', (Zlib.uncompress env L fuel).totalF ops ⟨z0, OBuf.init env 512⟩
      = .ok (F.out (finputOf ops)) t') ∧
    (¬ F.Stream (finputOf ops) →
      (∃ t', (Zlib.uncompress env L fuel).totalF ops ⟨z0, OBuf.init env 512⟩
        = .exn (.error .compressionError) t') ∨
      (F.Stream (finputOf ops ++ [0x20]) ∧ ∃ t', (Zlib.uncompress env L fuel).totalF ops ⟨z0, OBuf.init env 512⟩
        = .ok (F.out (finputOf ops ++ [0x20])) t')) := by
  have hfin : ∀ {x d : Bytes} {t1 t2 : ZSt ζ} {q' c'},
      (Zlib.uncompress env L fuel).callsF ops ⟨z0, OBuf.init env 512⟩ = .ok x t1 →
      Zlib.doFinish env L fuel true t1 = .ok () t2 → ZInv env P t2 q' → I.Live t2.zs c' (x ++ q') →
      x ++ q' = d →
      ∃ t', (Zlib.uncompress env L fuel).totalF ops ⟨z0, OBuf.init env 512⟩ = .ok d t' := by
    intro x d t1 t2 q' c' h1 h2 h3 h4 h5
    have f1 : (Zlib.uncompress env L fuel).finish t1 = .ok () ⟨(L.inflateEnd t2.zs).2, t2.ob⟩ := by
      show (Zlib.doFinish env L fuel true >>= fun _ => zEnd L.inflateEnd) t1 = _
      simp only [M.bind_def, h2, zEnd, I.stop h4, if_true]
    have f4 : (Zlib.uncompress env L fuel).getString ⟨(L.inflateEnd t2.zs).2, t2.ob⟩
        = .ok q' ⟨(L.inflateEnd t2.zs).2, { t2.ob with obeg := 0, oend := 0 }⟩ := by
      simp only [Zlib.uncompress, inheritBuf, M.zoom, getString_ok h3.rep]
    refine ⟨⟨(L.inflateEnd t2.zs).2, { t2.ob with obeg := 0, oend := 0 }⟩, ?_⟩
    unfold Transform.totalF
    simp only [M.bind_def, h1, f1, f4, M.pure_def, h5]
  have hexn : ∀ {x : Bytes} {t1 t2 : ZSt ζ},
      (Zlib.uncompress env L fuel).callsF ops ⟨z0, OBuf.init env 512⟩ = .ok x t1 →
      Zlib.doFinish env L fuel true t1 = .exn (.error .compressionError) t2 →
      ∃ t', (Zlib.uncompress env L fuel).totalF ops ⟨z0, OBuf.init env 512⟩ = .exn (.error .compressionError) t' := by
    intro x t1 t2 h1 h2
    have f1 : (Zlib.uncompress env L fuel).finish t1 = .exn (.error .compressionError) t2 := by
      show (Zlib.doFinish env L fuel true >>= fun _ => zEnd L.inflateEnd) t1 = _
      simp only [M.bind_def, h2]
    refine ⟨t2, ?_⟩
    unfold Transform.totalF
    simp only [M.bind_def, h1, f1]
  rcases uncompressCalls_ok hr I (data := finputOf ops)
    (fun a ha => hsz a (ha.trans (List.prefix_append _ _))) hf ops
    (t := ⟨z0, OBuf.init env 512⟩) (q := []) (g := []) (c := []) (zInv_init h512 z0) I.start hops (by simp) with
    ⟨x, q, t1, e1, e2, e3⟩ | ⟨t1, e1, e2⟩
  · simp only [List.nil_append] at e3
    have hlive := I.live e3
    refine ⟨?_, ?_⟩
    · rintro ⟨hd, _⟩
      obtain ⟨t2, q', f1, f2, f3, f4⟩ := doFinish_done hr I (hsz _ (List.prefix_append _ _)) hd fuel true e2 e3 (by omega)
      exact hfin e1 f1 f2 f3 f4
    · intro hns
      have hmore : F.status (finputOf ops) = .more := by
        cases hst : F.status (finputOf ops) with
        | more => rfl
        | done => exact absurd ⟨hst, hlive.2.2⟩ hns
        | bad => exact absurd hst hlive.2.1
      rcases doFinish_more hr I hsz hmore fuel e2 e3 (by omega) with ⟨t2, q', f1, f2, f3, f4, f5⟩ | ⟨t2, f1⟩
      · exact .inr ⟨⟨f4, (I.live f3).2.2⟩, hfin e1 f1 f2 f3 f5⟩
      · exact .inl (hexn e1 f1)
  · simp only [List.nil_append] at e2
    refine ⟨?_, ?_⟩
    · intro h
      exact absurd (by simpa using h) (e2 [])
    · intro _
      refine .inl ⟨t1, ?_⟩
      unfold Transform.totalF
      simp only [M.bind_def, e1]

end

/-! ### Flushing twice, large strings, bad ranges -/

section
variable {env : Env} {P : Nat} {L : ZLib ζ} {z0 : ζ}

theorem compressFlush_clean (hr : ZRoom env P) {Valid : Bytes → Bytes → Prop} (D : DeflateContract L z0 Valid)
    (hst : D.Strict) {data : Bytes} (hsz : ∀ {z c p}, D.Live z c p → c <+: data → p.length ≤ P) :
    ∀ (fuel : Nat) {t : ZSt ζ} {q g c : Bytes}, ZInv env P t q →
      D.Live t.zs c (g ++ q) → ¬ D.Clean t.zs → c <+: data →
      ∀ t', Zlib.compressFlush env L fuel t = .ok () t' → D.Clean t'.zs := by
  intro fuel
  induction fuel with
  | zero =>
    intro t q g c ht hL hc hd t' h
    cases h
  | succ fuel ih =>
    intro t q g c ht hL hc hd t' h
    have hP := hsz hL hd
    unfold Zlib.compressFlush at h
    obtain ⟨n, hn, _, hok⟩ := zStep_ok hr D.bounded deflateFails ht (src := []) (ofs := 0) (len := 0)
      (by simp only [List.length_append] at hP; omega) (by simp) (by omega) .syncFlush
    have hsl : slice [] 0 0 = [] := rfl
    rw [hsl] at hok
    obtain ⟨h1, h2, h3⟩ := D.flush (n := n) hL hc (by omega)
    have h4 := hst.flushed (n := n) hL hc (by omega)
    dsimp only at h4
    obtain ⟨t1, e1, e2, e3, e4⟩ := hok (deflateFails_ok h1)
    generalize L.deflate .syncFlush [] n t.zs = r at *
    have e1' : zStep env L.deflate deflateFails [] 0 0 .syncFlush t = _ := e1
    simp only [M.bind_def, e1', M.get_def] at h
    by_cases hfull : r.out.length = n
    · rw [if_pos (e4.2 hfull)] at h
      rw [← e2] at h2
      exact ih (t := t1) (q := q ++ r.out) (g := g) (c := c) e3
        (by rw [← List.append_assoc]; exact h2) (by rw [e2]; exact h3 hfull) hd t' h
    · rw [if_neg (fun h => hfull (e4.1 h))] at h
      injection h with _ h
      rw [← h, e2]
      exact h4 hfull

theorem compressFlush_bad (hr : ZRoom env P) {Valid : Bytes → Bytes → Prop} (D : DeflateContract L z0 Valid)
    (hst : D.Strict) {t : ZSt ζ} {q g c : Bytes} (hP : (g ++ q).length ≤ P) (ht : ZInv env P t q)
    (hL : D.Live t.zs c (g ++ q)) (hc : D.Clean t.zs) {fuel : Nat} (hf : 0 < fuel) :
    ∃ t', Zlib.compressFlush env L fuel t = .exn (.error .compressionError) t' := by
  obtain ⟨fuel, rfl⟩ : ∃ k, fuel = k + 1 := ⟨fuel - 1, by omega⟩
  unfold Zlib.compressFlush
  obtain ⟨n, hn, hbad, _⟩ := zStep_ok hr D.bounded deflateFails ht (src := []) (ofs := 0) (len := 0)
    (by simp only [List.length_append] at hP; omega) (by simp) (by omega) .syncFlush
  have hsl : slice [] 0 0 = [] := rfl
  rw [hsl] at hbad
  obtain ⟨t', e⟩ := hbad (by rw [hst.clean hL hc]; rfl)
  have e' : zStep env L.deflate deflateFails [] 0 0 .syncFlush t = _ := e
  exact ⟨t', by simp only [M.bind_def, e']⟩

theorem compressCalls_bad (hr : ZRoom env P) {Valid : Bytes → Bytes → Prop} (D : DeflateContract L z0 Valid)
    (hst : D.Strict) {data : Bytes} (hsz : ∀ {z c p}, D.Live z c p → c <+: data → p.length ≤ P) {fuel : Nat}
    (hf : P + 1 < fuel)
    (ops : List FOp) : ∀ {t : ZSt ζ} {q g c : Bytes} {fresh : Bool}, ZInv env P t q → D.Live t.zs c (g ++ q) →
      (fresh = true → ¬ D.Clean t.zs) → (fresh = false → D.Clean t.zs) →
      (∀ op ∈ ops, op.Legal ∧ FOp.ByteOk op ∧ FOp.Short op) →
      ¬ FlushesFresh fresh ops → c ++ finputOf ops <+: data →
      ∃ t', (Zlib.compress env L fuel).callsF ops t = .exn (.error .compressionError) t' := by
  induction ops with
  | nil =>
    intro t q g c fresh _ _ _ _ _ h
    exact absurd trivial h
  | cons op ops ih =>
    intro t q g c fresh ht hL hfr hfr' hops hff hd
    obtain ⟨hleg, hbyte, hshort⟩ := hops op List.mem_cons_self
    have hops' := fun y hy => hops y (List.mem_cons_of_mem _ hy)
    have hin : finputOf (op :: ops) = op.input ++ finputOf ops := by simp [finputOf]
    rw [hin, ← List.append_assoc] at hd
    have hd1 : c ++ op.input <+: data := (List.prefix_append _ _).trans hd
    have hd0 : c <+: data := (List.prefix_append _ _).trans hd1
    cases op with
    | flush =>
      cases fresh with
      | false =>
        obtain ⟨t', e⟩ := compressFlush_bad hr D hst (hsz hL hd0) ht hL (hfr' rfl) (fuel := fuel) (by omega)
        refine ⟨t', ?_⟩
        have e' : (Zlib.compress env L fuel).flush t = .exn (.error .compressionError) t' := e
        simp only [Transform.callsF, Transform.callF, M.bind_def, e']
      | true =>
        obtain ⟨t1, o, e1, e2, e3⟩ := compressFlush_ok hr D hsz fuel ht hL (hfr rfl) hd0 (by omega)
        have e4 := compressFlush_clean hr D hst hsz fuel ht hL (hfr rfl) hd0 t1 e1
        have hd' : c ++ finputOf ops <+: data := by simpa [FOp.input] using hd
        obtain ⟨t2, f1⟩ := ih (q := q ++ o) (g := g) (fresh := false) e2
          (by rw [← List.append_assoc]; exact e3) (by simp) (fun _ => e4) hops' (fun h => hff ⟨rfl, h⟩) hd'
        refine ⟨t2, ?_⟩
        have e1' : (Zlib.compress env L fuel).flush t = .ok () t1 := e1
        simp only [Transform.callsF, Transform.callF, M.bind_def, e1', M.pure_def, f1]
    | call op =>
      rcases zCall_ok (T := Zlib.compress env L fuel) rfl
        (fun z c' p => D.Live z c' p ∧ (op.input ≠ [] → c' = c ++ op.input → ¬ D.Clean z) ∧
          (op.input = [] → z = t.zs)) (fun _ _ => False) ht
        (c := c) (g := g) ⟨hL, by intro h1 h2; simp at h2; exact absurd h2 h1, fun _ => rfl⟩ (op := op) ⟨hleg, hbyte⟩ hshort rfl rfl rfl
        (by
          intro src ofs len h1 h2 h3
          obtain ⟨t', o, e1, e2, e3, e4, e5⟩ := compressPut_ok hr D hsz fuel ht hL h1 h2
            (by rw [h3]; exact hd1) (by omega)
          have hl : op.input.length = len := by rw [← h3, slice_length_of_le h1]
          rw [h3] at e3
          refine .inl ⟨t', o, e1, e2, e3, ?_, ?_⟩
          · intro h4 _
            apply e4
            cases hop : op.input with
            | nil => exact absurd hop h4
            | cons a l => rw [hop] at hl; simp at hl; omega
          · intro h4
            rw [h4] at hl
            exact e5 (by simpa using hl.symm)) with
        ⟨x, q', t', e1, e2, e3, e4, e5⟩ | ⟨_, _, _, h⟩
      · obtain ⟨t2, f1⟩ := ih (q := q') (g := g ++ x) (c := c ++ op.input)
          (fresh := fresh || !op.input.isEmpty) e2 e3 (by
            intro h
            by_cases hne : op.input = []
            · rw [e5 hne]
              rw [hne] at h
              exact hfr (by simpa using h)
            · exact e4 hne rfl) (by
            intro h
            simp only [Bool.or_eq_false_iff, Bool.not_eq_false', List.isEmpty_iff] at h
            rw [e5 h.2]
            exact hfr' h.1) hops' hff hd
        refine ⟨t2, ?_⟩
        simp only [Transform.callsF, Transform.callF, M.bind_def, e1, f1]
      · exact absurd h id

/-- A string of `2^32 + k` bytes is taken as `k` bytes. -/
theorem compressPut_large (hr : ZRoom env P) {Valid : Bytes → Bytes → Prop} (D : DeflateContract L z0 Valid)
    {k : Nat} (hk : 0 < k) (hk' : k < 2 ^ 32) (hsz : ∀ {z c p}, D.Live z c p → c.length ≤ k → p.length ≤ P)
    {fuel : Nat} (hf : P + 1 < fuel) {t : ZSt ζ} (ht : ZInv env P t []) (hL : D.Live t.zs [] [])
    {src : Bytes} (hs : src.length = 2 ^ 32 + k) :
    ∃ t' o w, Zlib.compressPut env L fuel src 0 src.length t = .ok () t' ∧ ZInv env P t' o ∧
      D.Live t'.zs w o ∧ w.length = k := by
  obtain ⟨fuel, rfl⟩ : ∃ n, fuel = n + 1 := ⟨fuel - 1, by omega⟩
  unfold Zlib.compressPut
  rw [if_pos (by omega)]
  have hav : zAvail (src.length : Int) = k := by unfold zAvail; omega
  obtain ⟨n, hn, _, hok⟩ := zStep_ok hr D.bounded deflateFails ht (src := src) (ofs := 0) (len := k)
      (by simp) (by omega) hk' .noFlush
  have hsl : (slice src 0 k).length = k := slice_length_of_le (by omega)
  have hne : slice src 0 k ≠ [] := by
    intro h; rw [h] at hsl; simp at hsl; omega
  obtain ⟨h1, h2, h3, _⟩ := D.put (n := n) hL hne (by omega)
  obtain ⟨t1, e1, e2, e3, _⟩ := hok (deflateFails_ok h1)
  have hin := D.bounded.usedIn .noFlush (slice src 0 k) n t.zs
  rw [hsl] at hin
  generalize L.deflate .noFlush (slice src 0 k) n t.zs = r at *
  -- the same call, with the length truncated by the stub
  have hstep : zStep env L.deflate deflateFails src 0 src.length .noFlush t
      = .ok (decide (r.code = .streamEnd), ((2 ^ 32 + r.usedIn : Nat) : Int)) t1 := by
    have hk2 : zAvail (k : Int) = k := zAvail_nat hk'
    have hkey : ∀ (s : ζ × Bytes) (dp dl : Int), zlibStub L.deflate deflateFails src 0 src.length dp dl .noFlush s
        = (do let x ← zlibStub L.deflate deflateFails src 0 k dp dl .noFlush
              pure (x.1, x.2.1 + 2 ^ 32, x.2.2)) s := by
      intro s dp dl
      obtain ⟨z, dst⟩ := s
      rw [M.bind_def]
      unfold zlibStub
      simp only [hav, hk2]
      split
      · rfl
      · split
        · rfl
        · simp only [M.pure_def]
          have x : ∀ u : Nat, (src.length : Int) - (k - u : Nat) = (k : Int) - (k - u : Nat) + 2 ^ 32 := by
            intro u; omega
          rw [x]
    have hz : zStep env L.deflate deflateFails src 0 src.length .noFlush t
        = (do let x ← zStep env L.deflate deflateFails src 0 k .noFlush
              pure (x.1, x.2 + 2 ^ 32)) t := by
      unfold zStep
      simp only [M.bind_def]
      cases ZSt.out (ensureCapacity env 256) t with
      | ok a t' =>
        simp only [M.get_def, M.zoom, hkey]
        rw [M.bind_def]
        cases zlibStub L.deflate deflateFails src 0 k t'.ob.oend ((t'.ob.obuf.length : Int) - t'.ob.oend) .noFlush
          (t'.zs, t'.ob.obuf) with
        | ok a t' => rfl
        | exn => rfl
        | ub => rfl
        | loop => rfl
      | exn => rfl
      | ub => rfl
      | loop => rfl
    have e1' : zStep env L.deflate deflateFails src 0 (k : Int) .noFlush t = _ := e1
    rw [hz, M.bind_def, e1']
    simp only [M.pure_def]
    have x : (r.usedIn : Int) + 2 ^ 32 = ((2 ^ 32 + r.usedIn : Nat) : Int) := by omega
    rw [x]
  simp only [M.bind_def, hstep]
  have htake : (slice src 0 k).take r.usedIn = slice src 0 r.usedIn := by
    unfold slice; rw [List.take_take, Nat.min_eq_left hin]
  simp only [List.nil_append, htake] at h2 e3
  have hl1 : (slice src 0 r.usedIn).length = r.usedIn := slice_length_of_le (by omega)
  by_cases hlt : r.usedIn < k
  · rw [if_pos (by omega)]
    have hfull : r.out.length = n := by omega
    have c1 : (0 : Int) + ((2 ^ 32 + r.usedIn : Nat) : Int) = ((2 ^ 32 + r.usedIn : Nat) : Int) := by omega
    have c2 : (src.length : Int) - ((2 ^ 32 + r.usedIn : Nat) : Int) = ((k - r.usedIn : Nat) : Int) := by omega
    rw [c1, c2]
    have hl2 : (slice src (2 ^ 32 + r.usedIn) (k - r.usedIn)).length = k - r.usedIn := slice_length_of_le (by omega)
    rw [← e2] at h2
    obtain ⟨t2, o, f1, f2, f3, _⟩ := compressPut_ok hr D
      (data := slice src 0 r.usedIn ++ slice src (2 ^ 32 + r.usedIn) (k - r.usedIn))
      (fun hL hc => hsz hL (by have := hc.length_le; simp only [List.length_append] at this; omega))
      fuel (t := t1) (q := r.out) (g := []) (c := slice src 0 r.usedIn)
      (src := src) (ofs := 2 ^ 32 + r.usedIn) (len := k - r.usedIn) e3 (by simpa using h2)
      (by omega) (by omega) (List.prefix_refl _) (by simp; omega)
    refine ⟨t2, r.out ++ o, slice src 0 r.usedIn ++ slice src (2 ^ 32 + r.usedIn) (k - r.usedIn), f1, f2,
      by rw [List.nil_append] at f3; exact f3, ?_⟩
    rw [List.length_append, hl1, hl2]; omega
  · rw [if_neg (by omega)]
    refine ⟨t1, r.out, _, rfl, e3, by rw [e2]; exact h2, ?_⟩
    rw [hl1]; omega

/-- `put_substring` with a range that is not within the string: zlib reads outside of it. -/
theorem zStep_ub (hr : ZRoom env P) (fn : ZCall ζ) (fails : ZCode → Bool) {t : ZSt ζ} {q : Bytes}
    (ht : ZInv env P t q) (hq : q.length ≤ P) {src : Bytes} {ofs len : Int} (h0 : 0 < len) (hl : len < 2 ^ 32)
    (hbad : ¬ InRange src ofs len) (f : ZFlush) : zStep env fn fails src ofs len f t = .ub := by
  have hf := hr.fits
  obtain ⟨o, h1, _, _⟩ := ensureCapacity_ok ht.rep 256 (by omega)
  have e1 : ZSt.out (ensureCapacity env 256) t = .ok () { t with ob := o } := by
    unfold ZSt.out M.zoom
    have h1' : ensureCapacity env 256 t.ob = .ok () o := h1
    simp only [h1']
  have hav : ((zAvail len : Nat) : Int) = len := by unfold zAvail; omega
  unfold zStep
  simp only [M.bind_def, e1, M.get_def, M.zoom]
  have : zlibStub fn fails src ofs len o.oend ((o.obuf.length : Int) - o.oend) f (t.zs, o.obuf) = .ub := by
    unfold zlibStub
    simp only [hav]
    rw [if_pos]
    left
    rintro (h | h)
    · omega
    · exact hbad h
  rw [this]

end

end Verif
