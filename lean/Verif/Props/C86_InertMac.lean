import Verif.Props.C86_InertAuth
import Verif.Props.C15_C17_Mac
import Verif.Props.C34_Gcm
/-
C86 A call that raises an exception has no effect: the MACs built from block ciphers.

True of `add_string`, `add_char`, `add_byte` and `result`. False of `add_substring`, which has
absorbed the blocks that precede the end of the string when it notices that the range is not valid
(`C86_mac_add_substring`).
-/
namespace Verif

open Spec

variable {τ ρ σ : Type}

/-- The object holds the chaining value `p.1` and the pending bytes `p.2`. -/
structure MacAt (n : Nat) (k : σ) (st : MacSt σ) (p : Bytes × Bytes) : Prop where
  key : st.c = k
  buf : st.buffer.length = n
  ivlen : p.1.length = n
  iv : st.iv = p.1
  used : st.used = p.2.length
  le : p.2.length ≤ n
  pend : st.buffer.take p.2.length = p.2

/-- The method returns `r` in the states related to `p`, and leads to states related to `p'`. -/
def Gives (R : τ → ρ → Prop) (m : M τ α) (p : ρ) (r : Except Exn α) (p' : ρ) : Prop :=
  ∀ t, R t p → match r with
    | .ok a => ∃ t', m t = .ok a t' ∧ R t' p'
    | .error e => ∃ t', m t = .exn e t' ∧ R t' p'

theorem Gives.determined {R : τ → ρ → Prop} {m : M τ α} {p : ρ} {r : Except Exn α} {p' : ρ}
    (h : Gives R m p r p') : Determined R m p := by
  refine ⟨some (r, p'), fun t ht => ?_⟩
  have := h t ht
  cases r <;> exact this

/-- If the method returns, or raises without changing `p`, exceptions keep the state. -/
theorem Gives.keeps {R : τ → ρ → Prop} {m : M τ α}
    (h : ∀ p, (∃ t, R t p) → (∃ a p', Gives R m p (.ok a) p') ∨ ∃ e, Gives R m p (.error e) p)
    (P : Exn → Prop) : KeepsWhen R P m := by
  intro p t e t' _ hR hm
  rcases h p ⟨t, hR⟩ with ⟨a, p', h1⟩ | ⟨e1, h1⟩
  · obtain ⟨t1, e2, _⟩ := h1 t hR
    rw [hm] at e2; cases e2
  · obtain ⟨t1, e2, r2⟩ := h1 t hR
    rw [hm] at e2; cases e2; exact r2

section
variable {c : BlockCipher σ} {k : σ} {E : Bytes → Bytes} (hc : PureCipher c k E)
include hc

theorem macAdd_gives (src : Bytes) : ∀ (m : Nat) (ofs len : Int) (p : Bytes × Bytes),
    len.toNat * 2 + (if p.2.length = 0 then 0 else 1) = m → p.1.length = c.blocksize →
    p.2.length ≤ c.blocksize →
    ∃ r p', Gives (MacAt c.blocksize k) (macAddSubstring c src ofs len) p r p'
      ∧ (0 ≤ ofs ∧ ofs + len ≤ src.length → r = .ok ()) := by
  intro m
  induction m using Nat.strongRecOn with
  | _ m ih =>
    intro ofs len p hm hiv hle
    have hpos := hc.pos
    by_cases hlen : len ≤ 0
    · refine ⟨.ok (), p, fun t ht => ⟨t, ?_, ht⟩, fun _ => rfl⟩
      rw [macAddSubstring, if_pos hlen]
    by_cases hfit : (p.2.length : Int) + len ≤ c.blocksize
    · by_cases hr : InRange src ofs len
      · obtain ⟨h1, h2, h3⟩ := hr
        obtain ⟨ofs, rfl⟩ := Int.eq_ofNat_of_zero_le h2
        obtain ⟨len, rfl⟩ := Int.eq_ofNat_of_zero_le h1
        refine ⟨.ok (), (p.1, p.2 ++ slice src ofs len), fun t ht => ?_, fun _ => rfl⟩
        obtain ⟨ib, hb1, hb2, hb3⟩ := blit_ibuf (m := len) (src := src) (ofs := ofs) (used := t.used) ht.buf
          (by rw [ht.used]; exact ht.pend) ht.used (by have := ht.used; omega) (by omega)
        have hsl : (slice src ofs len).length = len := slice_length_of_le (by omega)
        refine ⟨{ t with buffer := ib, used := t.used + len }, ?_, ?_⟩
        · rw [macAddSubstring, if_neg hlen, if_pos (by rw [ht.used]; exact hfit), hb1]
          simp
        · exact { key := ht.key, buf := hb2, ivlen := hiv, iv := ht.iv
                  used := by simp only [List.length_append, ht.used, hsl]
                  le := by simp only [List.length_append, hsl]; omega
                  pend := by simp only [List.length_append, hsl]; rw [← ht.used]; exact hb3 }
      · refine ⟨.error .invalidArg, p, fun t ht => ⟨t, ?_, ht⟩, fun hl => absurd ⟨by omega, hl.1, by omega⟩ hr⟩
        rw [macAddSubstring, if_neg hlen, if_pos (by rw [ht.used]; exact hfit), bytesBlit_bad_src hr]
    · by_cases hr : InRange src ofs ((c.blocksize : Int) - p.2.length)
      · obtain ⟨h1, h2, h3⟩ := hr
        obtain ⟨ofs, rfl⟩ := Int.eq_ofNat_of_zero_le h2
        have hn : (c.blocksize : Int) - p.2.length = ((c.blocksize - p.2.length : Nat) : Int) := by omega
        have hsl : (slice src ofs (c.blocksize - p.2.length)).length = c.blocksize - p.2.length :=
          slice_length_of_le (by omega)
        have hblk : ∀ t, MacAt c.blocksize k t p →
            bytesBlit src ofs t.buffer t.used ((c.blocksize : Int) - t.used)
              = some (p.2 ++ slice src ofs (c.blocksize - p.2.length)) := by
          intro t ht
          obtain ⟨ib, hb1, hb2, hb3⟩ := blit_ibuf (m := c.blocksize - p.2.length) (src := src) (ofs := ofs)
            (used := t.used) ht.buf (by rw [ht.used]; exact ht.pend) ht.used (by have := ht.used; omega) (by omega)
          rw [List.take_of_length_le (by rw [hb2, ht.used]; omega)] at hb3
          rw [ht.used] at hb1 ⊢
          rw [hn, hb1, hb3]
        generalize hib : p.2 ++ slice src ofs (c.blocksize - p.2.length) = ib at hblk
        have hibl : ib.length = c.blocksize := by rw [← hib, List.length_append, hsl]; omega
        have hxl : (xorb ib p.1).length = c.blocksize := by rw [xorb_length]; omega
        have hEl : (E (xorb ib p.1)).length = c.blocksize := hc.out_len (s := k) rfl hxl
        obtain ⟨r, p', hrec, hok⟩ := ih ((len - ((c.blocksize : Int) - p.2.length)).toNat * 2)
          (by rw [← hm]; split <;> omega)
          ((ofs : Int) + ((c.blocksize : Int) - p.2.length)) (len - ((c.blocksize : Int) - p.2.length))
          (E (xorb ib p.1), []) (by simp) hEl (by simp)
        refine ⟨r, p', fun t ht => ?_, fun hl => hok (by omega)⟩
        have hblock := macBlock_ok hc (st := { t with buffer := ib }) ht.key hibl (by
          simp only; rw [ht.iv]; exact hiv)
        simp only [ht.iv] at hblock
        have e2 : macAddSubstring c src ofs len t
            = macAddSubstring c src (ofs + ((c.blocksize : Int) - p.2.length)) (len - ((c.blocksize : Int) - p.2.length))
              { t with buffer := xorb ib p.1, iv := E (xorb ib p.1), used := 0 } := by
          rw [macAddSubstring, if_neg hlen, if_neg (by rw [ht.used]; exact hfit)]
          simp only
          have hb := hblk t ht
          split
          · rename_i h0; rw [hb] at h0; cases h0
          · rename_i b h0
            rw [hb] at h0
            cases h0
            rw [show ({ c := t.c, iv := t.iv, buffer := ib, used := t.used } : MacSt σ) = { t with buffer := ib } from rfl]
            rw [ht.iv, hblock]
            simp only
            rw [dif_neg (by omega), ht.used]
        rw [e2]
        exact hrec _ { key := ht.key, buf := hxl, ivlen := hEl, iv := rfl, used := rfl, le := by simp, pend := by simp }
      · refine ⟨.error .invalidArg, p, fun t ht => ⟨t, ?_, ht⟩,
          fun hl => absurd ⟨by omega, by omega, by omega⟩ hr⟩
        rw [macAddSubstring, if_neg hlen, if_neg (by rw [ht.used]; exact hfit)]
        simp only
        split
        · rfl
        · rename_i b h0
          rw [ht.used, bytesBlit_bad_src hr] at h0
          cases h0

theorem macAddChar_gives (ch : Byte) (p : Bytes × Bytes) (hiv : p.1.length = c.blocksize)
    (hle : p.2.length ≤ c.blocksize) :
    ∃ p', Gives (MacAt c.blocksize k) (macAddChar c ch) p (.ok ()) p' := by
  have hpos := hc.pos
  by_cases hlt : p.2.length < c.blocksize
  · refine ⟨(p.1, p.2 ++ [ch]), fun t ht => ?_⟩
    refine ⟨{ t with buffer := t.buffer.set t.used ch, used := t.used + 1 }, ?_, ?_⟩
    · have hu := ht.used
      have hb := ht.buf
      rw [macAddChar, if_pos (by omega), bytesSet_ok (by omega)]
    · exact { key := ht.key, buf := by simpa using ht.buf, ivlen := hiv, iv := ht.iv
              used := by simp [ht.used]
              le := by simp; omega
              pend := by
                simp only
                rw [set_eq_splice (by have := ht.buf; have := ht.used; omega), List.length_append, ht.used,
                  take_splice (x := [ch]) (by have := ht.buf; simp; omega), ht.pend] }
  · refine ⟨(E (xorb p.2 p.1), [ch]), fun t ht => ?_⟩
    have hb : t.buffer = p.2 := by
      rw [← ht.pend, List.take_of_length_le (by rw [ht.buf]; omega)]
    have hxl : (xorb p.2 p.1).length = c.blocksize := by rw [xorb_length]; omega
    have hblock := macBlock_ok hc (st := t) ht.key ht.buf (by rw [ht.iv]; exact hiv)
    rw [hb, ht.iv] at hblock
    refine ⟨{ t with buffer := (xorb p.2 p.1).set 0 ch, iv := E (xorb p.2 p.1), used := 1 }, ?_, ?_⟩
    · have hu := ht.used
      rw [macAddChar, if_neg (by omega), M.bind_ok hblock, M.bind_ok (M.get_def _)]
      simp only
      rw [show (0 : Int) = ((0 : Nat) : Int) by rfl, bytesSet_ok (by omega)]
      rfl
    · exact { key := ht.key, buf := by simpa using hxl, ivlen := hc.out_len (s := k) rfl hxl, iv := rfl
              used := rfl, le := by simp; omega
              pend := by
                simp only
                rw [set_eq_splice (by omega)]
                have := take_splice (b := xorb p.2 p.1) (o := 0) (x := [ch]) (by simp; omega)
                simpa using this }

/-- The pending block, if it is full, is processed first. -/
theorem macFlush_gives (p : Bytes × Bytes) (hiv : p.1.length = c.blocksize) (hle : p.2.length ≤ c.blocksize) :
    Gives (MacAt c.blocksize k) (do
        let st ← M.get
        if st.used = c.blocksize then
          macBlock c
          M.modify fun st => { st with used := 0 } : M (MacSt σ) Unit) p (.ok ())
      (if p.2.length = c.blocksize then (E (xorb p.2 p.1), []) else p) := by
  intro t ht
  simp only
  rw [M.bind_ok (M.get_def t)]
  by_cases hfull : p.2.length = c.blocksize
  · have hb : t.buffer = p.2 := by
      rw [← ht.pend, List.take_of_length_le (by rw [ht.buf]; omega)]
    have hxl : (xorb p.2 p.1).length = c.blocksize := by rw [xorb_length]; omega
    have hblock := macBlock_ok hc (st := t) ht.key ht.buf (by rw [ht.iv]; exact hiv)
    rw [hb, ht.iv] at hblock
    rw [if_pos hfull, if_pos (by rw [ht.used]; exact hfull), M.bind_ok hblock]
    exact ⟨_, rfl, { key := ht.key, buf := hxl, ivlen := hc.out_len (s := k) rfl hxl, iv := rfl
                     used := rfl, le := by simp, pend := by simp }⟩
  · rw [if_neg hfull, if_neg (by rw [ht.used]; exact hfull)]
    exact ⟨t, rfl, ht⟩

/-- `result` without padding. -/
theorem macResult_none_gives (p : Bytes × Bytes) (hiv : p.1.length = c.blocksize)
    (hle : p.2.length ≤ c.blocksize) :
    (∃ a p', a.length = c.blocksize ∧ Gives (MacAt c.blocksize k) (macResult c none) p (.ok a) p')
    ∨ ∃ e, Gives (MacAt c.blocksize k) (macResult c none) p (.error e) p := by
  have hpos := hc.pos
  have hflush := macFlush_gives hc p hiv hle
  by_cases hfull : p.2.length = c.blocksize
  · rw [if_pos hfull] at hflush
    have hEl : (E (xorb p.2 p.1)).length = c.blocksize :=
      hc.out_len (s := k) rfl (by rw [xorb_length]; omega)
    refine .inl ⟨E (xorb p.2 p.1), (E (xorb p.2 p.1), []), hEl, fun t ht => ?_⟩
    obtain ⟨t', e1, r1⟩ := hflush t ht
    refine ⟨t', ?_, r1⟩
    rw [macResult_eq, M.bind_ok e1, M.bind_ok (M.get_def _)]
    simp only
    rw [if_neg (by rw [r1.used]; simp)]
    simp only [M.bind_def, M.get_def, M.pure_def, r1.iv]
  · rw [if_neg hfull] at hflush
    by_cases h0 : p.2.length = 0
    · refine .inl ⟨p.1, p, hiv, fun t ht => ?_⟩
      obtain ⟨t', e1, r1⟩ := hflush t ht
      refine ⟨t', ?_, r1⟩
      rw [macResult_eq, M.bind_ok e1, M.bind_ok (M.get_def _)]
      simp only
      rw [if_neg (by rw [r1.used]; simpa using h0)]
      simp only [M.bind_def, M.get_def, M.pure_def, r1.iv]
    · refine .inr ⟨.error .wrongDataLength, fun t ht => ?_⟩
      obtain ⟨t', e1, r1⟩ := hflush t ht
      refine ⟨t', ?_, r1⟩
      rw [macResult_eq, M.bind_ok e1, M.bind_ok (M.get_def _)]
      simp only
      rw [if_pos (by rw [r1.used]; simpa using h0)]
      rfl

/-- `result` with padding. -/
theorem macResult_some_gives {P : PadScheme} {pad : Bytes → Bytes} (hp : P.Computes c.blocksize pad)
    (p : Bytes × Bytes) (hiv : p.1.length = c.blocksize) (hle : p.2.length ≤ c.blocksize) :
    ∃ a p', a.length = c.blocksize ∧ Gives (MacAt c.blocksize k) (macResult c (some P)) p (.ok a) p' := by
  have hpos := hc.pos
  have hflush := macFlush_gives hc p hiv hle
  generalize hq : (if p.2.length = c.blocksize then (E (xorb p.2 p.1), []) else p) = q at hflush
  have hq1 : q.1.length = c.blocksize := by
    rw [← hq]
    split
    · exact hc.out_len (s := k) rfl (by rw [xorb_length]; omega)
    · exact hiv
  have hq2 : q.2.length < c.blocksize := by
    rw [← hq]
    split
    · simpa using hpos
    · omega
  have hpl := hp.pad_len hq2
  have hxl : (xorb (pad q.2) q.1).length = c.blocksize := by rw [xorb_length]; omega
  have hEl : (E (xorb (pad q.2) q.1)).length = c.blocksize := hc.out_len (s := k) rfl hxl
  refine ⟨E (xorb (pad q.2) q.1), (E (xorb (pad q.2) q.1), []), hEl, fun t ht => ?_⟩
  obtain ⟨t', e1, r1⟩ := hflush t ht
  have hpad : P.pad t'.buffer t'.used = .ok (pad q.2) := by
    rw [hp.pad_ok r1.buf (by rw [r1.used]; exact hq2), r1.used, r1.pend]
  have hblock := macBlock_ok hc (st := { t' with buffer := pad q.2 }) r1.key hpl (by
    simp only; rw [r1.iv]; exact hq1)
  refine ⟨{ t' with buffer := xorb (pad q.2) q.1, iv := E (xorb (pad q.2) q.1), used := 0 }, ?_, ?_⟩
  · rw [macResult_eq, M.bind_ok e1, M.bind_ok (M.get_def _)]
    simp only [hpad, ofExcept]
    simp only [r1.iv] at hblock
    rw [M.bind_def]
    simp only [M.pure, M.pure_def, M.bind_def, M.modify_def, M.get_def]
    rw [r1.iv, hblock]
  · exact { key := r1.key, buf := hxl, ivlen := hEl, iv := rfl, used := rfl, le := by simp, pend := by simp }

/-- `result` of CMAC. -/
theorem cmacResult_gives (K1 K2 : Bytes) (hK1 : K1.length = c.blocksize) (hK2 : K2.length = c.blocksize)
    (p : Bytes × Bytes) (hiv : p.1.length = c.blocksize) (hle : p.2.length ≤ c.blocksize) :
    Gives (MacAt c.blocksize k) (cmacResult c K1 K2) p
      (.ok (E (xorb (xorb (if p.2.length = c.blocksize then p.2 else Spec.pad8000 c.blocksize p.2) p.1)
        (if p.2.length = c.blocksize then K1 else K2))))
      (E (xorb (xorb (if p.2.length = c.blocksize then p.2 else Spec.pad8000 c.blocksize p.2) p.1)
        (if p.2.length = c.blocksize then K1 else K2)), []) := by
  have hpos := hc.pos
  have hcomp := _8000_computes (n := c.blocksize)
  have key : ∀ (b K : Bytes) (x : MacSt σ), b.length = c.blocksize → K.length = c.blocksize →
      x.c = k → x.buffer = b → x.iv = p.1 → ∃ st', (do
        let st ← M.get
        macXor c st.iv
        macXor c K
        macCall c
        M.modify fun st => { st with used := 0 }
        let st ← M.get
        pure st.iv : M (MacSt σ) Bytes) x = .ok (E (xorb (xorb b p.1) K)) st'
        ∧ MacAt c.blocksize k st' (E (xorb (xorb b p.1) K), []) := by
    intro b K x hbl hKl hxk hxb hxi
    have hxl : (xorb (xorb b p.1) K).length = c.blocksize := by simp only [xorb_length]; omega
    refine ⟨{ c := x.c, iv := E (xorb (xorb b p.1) K), buffer := xorb (xorb b p.1) K, used := 0 }, ?_, ?_⟩
    · rw [M.bind_ok (M.get_def x), M.bind_ok (macXor_ok (by rw [hxb, hbl]) (by rw [hxi, hiv])),
        M.bind_ok (macXor_ok (by simp only [xorb_length, hxb, hxi]; omega) hKl),
        M.bind_ok (macCall_ok (st := ⟨x.c, x.iv, xorb (xorb x.buffer x.iv) K, x.used⟩) hc hxk
          (by simp only [hxb, hxi]; exact hxl) (by simp only [hxi, hiv]))]
      simp only [M.bind_def, M.modify_def, M.get_def, M.pure_def, hxb, hxi]
    · exact { key := hxk, buf := hxl, ivlen := hc.out_len (s := k) rfl hxl, iv := rfl, used := rfl
              le := by simp, pend := by simp }
  intro t ht
  simp only
  unfold cmacResult
  rw [M.bind_ok (M.get_def t)]
  by_cases h : p.2.length = c.blocksize
  · simp only [if_pos h]
    rw [if_pos (by rw [ht.used]; exact h)]
    have hb : t.buffer = p.2 := by
      rw [← ht.pend, List.take_of_length_le (by rw [ht.buf]; omega)]
    rw [M.bind_ok (M.pure_def _ _)]
    exact key p.2 K1 t h hK1 ht.key hb ht.iv
  · simp only [if_neg h]
    rw [if_neg (by rw [ht.used]; exact h)]
    have hpad : Padding._8000.pad t.buffer t.used = .ok (Spec.pad8000 c.blocksize p.2) := by
      rw [hcomp.pad_ok ht.buf (by rw [ht.used]; omega), ht.used, ht.pend]
    rw [M.bind_def]
    simp only [M.bind_def, hpad, ofExcept, M.pure, M.modify_def, M.pure_def]
    have := key (Spec.pad8000 c.blocksize p.2) K2 { t with buffer := Spec.pad8000 c.blocksize p.2 }
      (hcomp.pad_len (by omega)) hK2 ht.key rfl ht.iv
    simpa only [M.bind_def, M.get_def, M.modify_def, M.pure_def] using this

/-- The methods that add data. -/
theorem mac_add_gives (pad : Option PadScheme) (op : HOp) (p : Bytes × Bytes)
    (hiv : p.1.length = c.blocksize) (hle : p.2.length ≤ c.blocksize) :
    ∃ r p', Gives (MacAt c.blocksize k) ((mac c pad).call op) p r p'
      ∧ (notAddSubstring (.add op) → r = .ok ()) := by
  cases op with
  | addSubstring b ofs len =>
    obtain ⟨r, p', h, _⟩ := macAdd_gives hc b _ ofs len p rfl hiv hle
    exact ⟨r, p', h, fun h => h.elim⟩
  | addString b =>
    obtain ⟨r, p', h, h1⟩ := macAdd_gives hc b _ 0 b.length p rfl hiv hle
    exact ⟨r, p', h, fun _ => h1 (by omega)⟩
  | addChar ch =>
    obtain ⟨p', h⟩ := macAddChar_gives hc ch p hiv hle
    exact ⟨_, p', h, fun _ => rfl⟩
  | addByte b =>
    obtain ⟨p', h⟩ := macAddChar_gives hc (BitVec.ofInt 8 b) p hiv hle
    exact ⟨_, p', h, fun _ => rfl⟩

end

/-- `Gives`, followed by a method that returns the empty result. -/
theorem Gives.unit {R : τ → ρ → Prop} {m : M τ Unit} {p : ρ} {r : Except Exn Unit} {p' : ρ}
    (h : Gives R m p r p') : Gives R (do m; pure ([] : Bytes)) p (r.map fun _ => []) p' := by
  intro t ht
  have := h t ht
  cases r with
  | ok a =>
    obtain ⟨t', e1, r1⟩ := this
    exact ⟨t', M.bind_ok e1, r1⟩
  | error e =>
    obtain ⟨t', e1, r1⟩ := this
    exact ⟨t', M.bind_exn e1, r1⟩

/-- A class whose calls return, or raise without changing the abstract state, except `add_substring`. -/
theorem hash_noEffect {R : τ → ρ → Prop} {H : HashObj τ} {t0 : τ} (h0 : ∃ p, R t0 p)
    (hadd : ∀ op p, (∃ t, R t p) → ∃ r p', Gives R (H.call op) p r p' ∧ (notAddSubstring (.add op) → r = .ok ()))
    (hres : ∀ p, (∃ t, R t p) → (∃ a p', Gives R H.result p (.ok a) p') ∨ ∃ e, Gives R H.result p (.error e) p)
    {x : HashCall} (hx : notAddSubstring x) : NoEffectBy (performHash H) t0 x anyExn := by
  refine noEffectBy_of_keeps (R := R) (fun y p hp => ?_) h0 ?_
  · cases y with
    | add op =>
      obtain ⟨r, p', h, _⟩ := hadd op p hp
      exact h.unit.determined
    | result =>
      rcases hres p hp with ⟨a, p', h⟩ | ⟨e, h⟩ <;> exact h.determined
  · cases x with
    | add op =>
      refine Gives.keeps (fun p hp => ?_) _
      obtain ⟨r, p', h, hr⟩ := hadd op p hp
      rw [hr hx] at h
      exact .inl ⟨_, _, h.unit⟩
    | result => exact Gives.keeps hres _

theorem macAt_init {env : Env} {c : BlockCipher σ} {k : σ} {iv : Option Bytes} {st : MacSt σ}
    (h : macInit env c k iv = .ok st) :
    MacAt c.blocksize k st (iv.getD (List.replicate c.blocksize 0), []) := by
  have hr := macRep_init (E := id) h
  obtain ⟨hk, hb, hi, bs, rest, he, hbs, hrl, hne, hiv, hu, htk⟩ := hr
  have he' : bs.flatten ++ rest = [] := he.symm
  have h2 : rest = [] := (List.append_eq_nil_iff.1 he').2
  have h1 : bs = [] := by
    by_cases h : bs = []
    · exact h
    · exact absurd h2 (hne h)
  subst h1
  subst h2
  have hiv' : st.iv = iv.getD (List.replicate c.blocksize 0) := hiv
  exact { key := hk, buf := hb, ivlen := hiv' ▸ hi, iv := hiv', used := hu, le := by simp, pend := by simp }

/-- A padding scheme of the library, or none. -/
def LibraryPad (pad : Option PadScheme) (n : Nat) : Prop := ∀ P, pad = some P → LibraryPadding P n

theorem macResult_gives {c : BlockCipher σ} {k : σ} {E : Bytes → Bytes} (hc : PureCipher c k E)
    {pad : Option PadScheme} (hp : LibraryPad pad c.blocksize) (p : Bytes × Bytes)
    (hiv : p.1.length = c.blocksize) (hle : p.2.length ≤ c.blocksize) :
    (∃ a p', a.length = c.blocksize ∧ Gives (MacAt c.blocksize k) (macResult c pad) p (.ok a) p')
    ∨ ∃ e, Gives (MacAt c.blocksize k) (macResult c pad) p (.error e) p := by
  cases pad with
  | none => exact macResult_none_gives hc p hiv hle
  | some P =>
    rcases hp P rfl with ⟨rfl, hn⟩ | rfl
    · exact .inl (macResult_some_gives hc (length_computes hc.pos hn) p hiv hle)
    · exact .inl (macResult_some_gives hc _8000_computes p hiv hle)

/-- C86, `mac`: no call other than `add_substring` that raises has an effect. -/
theorem C86_mac_partial {c : BlockCipher σ} {k : σ} {E : Bytes → Bytes} (hc : PureCipher c k E) (env : Env)
    {pad : Option PadScheme} (hp : LibraryPad pad c.blocksize) {iv : Option Bytes} {t : MacSt σ}
    (ht : macInit env c k iv = .ok t) {x : HashCall} (hx : notAddSubstring x) :
    NoEffectBy (performHash (mac c pad)) t x anyExn := by
  refine hash_noEffect ⟨_, macAt_init ht⟩ (fun op p hq => ?_) (fun p hq => ?_) hx
  · obtain ⟨t, hq⟩ := hq
    exact mac_add_gives hc pad op p hq.ivlen hq.le
  · obtain ⟨t, hq⟩ := hq
    rcases macResult_gives hc hp p hq.ivlen hq.le with ⟨a, p', _, h⟩ | h
    · exact .inl ⟨a, p', h⟩
    · exact .inr h

/-! ### CMAC and the MAC with a final triple encryption -/

/-- A CMAC object with subkeys `K1`, `K2`. -/
def CmacAt (n : Nat) (k : σ) (K1 K2 : Bytes) (t : CmacSt σ) (p : Bytes × Bytes) : Prop :=
  MacAt n k t.m p ∧ t.k1 = K1 ∧ t.k2 = K2

theorem Gives.onCmac {n : Nat} {k : σ} {K1 K2 : Bytes} {m : M (MacSt σ) α} {p p' : Bytes × Bytes}
    {r : Except Exn α} (h : Gives (MacAt n k) m p r p') : Gives (CmacAt n k K1 K2) (CmacSt.onMac m) p r p' := by
  intro t ht
  have := h t.m ht.1
  cases r <;>
  · obtain ⟨t', e1, r1⟩ := this
    exact ⟨{ t with m := t' }, by simp only [CmacSt.onMac, M.zoom, e1], r1, ht.2⟩

theorem cmac_call_eq (c : BlockCipher σ) (op : HOp) :
    (cmac c).call op = CmacSt.onMac ((mac c none).call op) := by cases op <;> rfl

theorem cmacAt_new {c : BlockCipher σ} {k : σ} {E : Bytes → Bytes} (hc : PureCipher c k E)
    (h16 : c.blocksize = 16) {env : Env} {iv : Option Bytes} {t : CmacSt σ} {s : σ}
    (ht : aesCmacNew env c k iv = .ok t s) :
    CmacAt c.blocksize k (Spec.K1 E) (Spec.K2 E) t (iv.getD (List.replicate c.blocksize 0), []) := by
  cases hm : macInit env c k iv with
  | ok m =>
    rw [aesCmacNew_ok hc env h16 hm] at ht
    cases ht
    exact ⟨macAt_init hm, rfl, rfl⟩
  | error e =>
    rw [aesCmacNew_eq hc env h16, hm] at ht
    cases ht

/-- C86, CMAC: no call other than `add_substring` that raises has an effect. -/
theorem C86_cmac_partial {c : BlockCipher σ} {k : σ} {E : Bytes → Bytes} (hc : PureCipher c k E)
    (h16 : c.blocksize = 16) (env : Env) {iv : Option Bytes} {t : CmacSt σ} {s : σ}
    (ht : aesCmacNew env c k iv = .ok t s) {x : HashCall} (hx : notAddSubstring x) :
    NoEffectBy (performHash (cmac c)) t x anyExn := by
  refine hash_noEffect ⟨_, cmacAt_new hc h16 ht⟩ (fun op p hq => ?_) (fun p hq => ?_) hx
  · obtain ⟨t, hq, _⟩ := hq
    obtain ⟨r, p', h1, h2⟩ := mac_add_gives hc none op p hq.ivlen hq.le
    rw [cmac_call_eq]
    exact ⟨r, p', h1.onCmac, h2⟩
  · obtain ⟨t, hq, _⟩ := hq
    refine .inl ⟨E (xorb (xorb (if p.2.length = c.blocksize then p.2 else Spec.pad8000 c.blocksize p.2) p.1)
        (if p.2.length = c.blocksize then Spec.K1 E else Spec.K2 E)),
      (E (xorb (xorb (if p.2.length = c.blocksize then p.2 else Spec.pad8000 c.blocksize p.2) p.1)
        (if p.2.length = c.blocksize then Spec.K1 E else Spec.K2 E)), []), fun t ht => ?_⟩
    · have h := (cmacResult_gives hc (Spec.K1 E) (Spec.K2 E) (by rw [h16]; exact ofBits_length _)
        (by rw [h16]; exact ofBits_length _) p hq.ivlen hq.le).onCmac (K1 := Spec.K1 E) (K2 := Spec.K2 E) t ht
      obtain ⟨t', e1, r1⟩ := h
      refine ⟨t', ?_, r1⟩
      show (M.get >>= fun st => CmacSt.onMac (cmacResult c st.k1 st.k2)) t = _
      rw [M.bind_ok (M.get_def _), ht.2.1, ht.2.2]
      exact e1

/-- A MAC object with a final triple encryption. -/
def Mac3At {σ2 σ3 : Type} (n : Nat) (k : σ) (k2 : σ2) (k3 : σ3) (t : Mac3St σ σ2 σ3) (p : Bytes × Bytes) :
    Prop :=
  MacAt n k t.m p ∧ t.c2 = k2 ∧ t.c3 = k3

theorem Gives.onMac3 {σ2 σ3 : Type} {n : Nat} {k : σ} {k2 : σ2} {k3 : σ3} {m : M (MacSt σ) α}
    {p p' : Bytes × Bytes} {r : Except Exn α} (h : Gives (MacAt n k) m p r p') :
    Gives (Mac3At n k k2 k3) (Mac3St.onMac m) p r p' := by
  intro t ht
  have := h t.m ht.1
  cases r <;>
  · obtain ⟨t', e1, r1⟩ := this
    exact ⟨{ t with m := t' }, by simp only [Mac3St.onMac, M.zoom, e1], r1, ht.2⟩

/-- C86, `mac_final_triple`: no call other than `add_substring` that raises has an effect. -/
theorem C86_mac_final_triple_partial {σ2 σ3 : Type} {c1 : BlockCipher σ} {c2 : BlockCipher σ2}
    {c3 : BlockCipher σ3} {k1 : σ} {k2 : σ2} {k3 : σ3} {E1 E2 E3 : Bytes → Bytes}
    (h1 : PureCipher c1 k1 E1) (h2 : PureCipher c2 k2 E2) (h3 : PureCipher c3 k3 E3) (env : Env)
    {pad : Option PadScheme} (hp : LibraryPad pad c1.blocksize) {iv : Option Bytes} {t : Mac3St σ σ2 σ3}
    (ht : mac3Init env c1 c2 c3 k1 k2 k3 iv = .ok t) {x : HashCall} (hx : notAddSubstring x) :
    NoEffectBy (performHash (macFinalTriple c1 c2 c3 pad)) t x anyExn := by
  obtain ⟨hb1, hb2, m, hm, rfl⟩ := mac3Init_inv ht
  refine hash_noEffect (R := Mac3At c1.blocksize k1 k2 k3) ⟨_, macAt_init hm, rfl, rfl⟩ (fun op p hq => ?_)
    (fun p hq => ?_) hx
  · obtain ⟨t, hq, _⟩ := hq
    obtain ⟨r, p', e1, e2⟩ := mac_add_gives h1 pad op p hq.ivlen hq.le
    have : (macFinalTriple c1 c2 c3 pad).call op = Mac3St.onMac ((mac c1 pad).call op) := by cases op <;> rfl
    rw [this]
    exact ⟨r, p', e1.onMac3, e2⟩
  · obtain ⟨t, hq, _⟩ := hq
    rcases macResult_gives h1 hp p hq.ivlen hq.le with ⟨a, p', hal, h⟩ | ⟨e, h⟩
    · refine .inl ⟨E3 (E2 a), p', fun t ht => ?_⟩
      obtain ⟨t', e1, r1⟩ := h.onMac3 (k2 := k2) (k3 := k3) t ht
      obtain ⟨m', c2', c3'⟩ := t'
      obtain ⟨r1, rfl, rfl⟩ := r1
      refine ⟨⟨m', c2', c3'⟩, ?_, r1, rfl, rfl⟩
      show (Mac3St.onMac (macResult c1 pad) >>= fun r => mac3Finish c2 c3 r) t = _
      rw [M.bind_ok e1, mac3Finish_ok h2 h3 (by omega) (by omega)]
    · refine .inr ⟨e, fun t ht => ?_⟩
      obtain ⟨t', e1, r1⟩ := h.onMac3 (k2 := k2) (k3 := k3) t ht
      exact ⟨t', M.bind_exn e1, r1⟩

/-! ### `add_substring` -/

/-- A range that the string does not have, on an object whose pending block `p.2` the string completes
to `b`: the block is absorbed before the exception is raised. -/
theorem macAdd_absorbs {c : BlockCipher σ} {k : σ} {E : Bytes → Bytes} (hc : PureCipher c k E)
    {src : Bytes} {p : Bytes × Bytes} (hiv : p.1.length = c.blocksize) {len : Int}
    (hsrc : p.2.length + src.length = c.blocksize) (hlen : (src.length : Int) < len) :
    Gives (MacAt c.blocksize k) (macAddSubstring c src 0 len) p (.error .invalidArg)
      (E (xorb (p.2 ++ src) p.1), []) := by
  intro t ht
  simp only
  have hpos := hc.pos
  obtain ⟨ib, hb1, hb2, hb3⟩ := blit_ibuf (m := src.length) (src := src) (ofs := 0) (used := t.used) ht.buf
    (by rw [ht.used]; exact ht.pend) ht.used (by have := ht.used; omega) (by omega)
  rw [List.take_of_length_le (by rw [hb2, ht.used]; omega), slice_full] at hb3
  subst hb3
  have hxl : (xorb (p.2 ++ src) p.1).length = c.blocksize := by rw [xorb_length, List.length_append]; omega
  have hblock := macBlock_ok hc (st := { t with buffer := p.2 ++ src }) ht.key hb2 (by
    simp only; rw [ht.iv]; exact hiv)
  simp only [ht.iv] at hblock
  have hn : (c.blocksize : Int) - t.used = (src.length : Nat) := by rw [ht.used]; omega
  have e2 : macAddSubstring c src 0 len t
      = macAddSubstring c src (0 + (src.length : Int)) (len - (src.length : Int))
        { t with buffer := xorb (p.2 ++ src) p.1, iv := E (xorb (p.2 ++ src) p.1), used := 0 } := by
    rw [macAddSubstring, if_neg (by omega), if_neg (by rw [ht.used]; omega)]
    simp only
    rw [Int.natCast_zero] at hb1
    split
    · rename_i h0; rw [hn, hb1] at h0; cases h0
    · rename_i b h0
      rw [hn, hb1] at h0
      cases h0
      rw [ht.iv, hblock]
      simp only
      rw [dif_neg (by omega), hn]
  rw [e2]
  refine ⟨{ t with buffer := xorb (p.2 ++ src) p.1, iv := E (xorb (p.2 ++ src) p.1), used := 0 }, ?_,
    { key := ht.key, buf := hxl, ivlen := hc.out_len (s := k) rfl hxl, iv := rfl, used := rfl,
                   le := by simp, pend := by simp }⟩
  have hbad : ∀ n : Int, 0 < n → ¬ InRange src (0 + (src.length : Int)) n := by
    intro n hn; unfold InRange; omega
  rw [macAddSubstring, if_neg (by omega)]
  split
  · rw [bytesBlit_bad_src (hbad _ (by omega))]
  · simp only
    split
    · rfl
    · rename_i b h0
      rw [bytesBlit_bad_src (hbad _ (by simp; omega))] at h0
      cases h0

theorem traceBy_gives {R : τ → ρ → Prop} {step : γ → M τ Bytes} {x : γ} {p p' : ρ} {r : Except Exn Bytes}
    (h : Gives R (step x) p r p') {t : τ} (ht : R t p) (cs : List γ) :
    ∃ t', R t' p' ∧ traceBy step (x :: cs) t = some r :: traceBy step cs t' := by
  have := h t ht
  cases r <;>
  · obtain ⟨t', e1, r1⟩ := this
    exact ⟨t', r1, by rw [traceBy, e1]⟩

/-- C86 is false of `add_substring` of `mac`: given a string of one block and a longer length, it raises
`Invalid_argument`, but the block has been absorbed, and `result` gives its MAC. -/
theorem C86_mac_add_substring {c : BlockCipher σ} {k : σ} {E : Bytes → Bytes} (hc : PureCipher c k E)
    (env : Env) {iv : Option Bytes} {t : MacSt σ} (ht : macInit env c k iv = .ok t) (b : Bytes)
    (hb : b.length = c.blocksize) (len : Int) (hlen : (c.blocksize : Int) < len) :
    traceBy (performHash (mac c none)) [.add (.addSubstring b 0 len), .result] t
      = [some (.error .invalidArg), some (.ok (E (xorb b (iv.getD (List.replicate c.blocksize 0)))))]
    ∧ traceBy (performHash (mac c none)) [.result] t
      = [some (.ok (iv.getD (List.replicate c.blocksize 0)))]
    ∧ (E (xorb b (iv.getD (List.replicate c.blocksize 0))) ≠ iv.getD (List.replicate c.blocksize 0) →
      ¬ NoEffectBy (performHash (mac c none)) t (.add (.addSubstring b 0 len)) anyExn) := by
  have hat := macAt_init ht
  generalize hv : iv.getD (List.replicate c.blocksize 0) = v at hat ⊢
  have hvl : v.length = c.blocksize := hat.ivlen
  have hpos := hc.pos
  have hres : ∀ w : Bytes, w.length = c.blocksize → Gives (MacAt c.blocksize k) (macResult c none) (w, []) (.ok w) (w, []) := by
    intro w hw t ht
    obtain ⟨t', e1, r1⟩ := macFlush_gives hc (w, []) hw (by simp) t ht
    rw [if_neg (by simp; omega)] at r1
    refine ⟨t', ?_, r1⟩
    rw [macResult_eq, M.bind_ok e1, M.bind_ok (M.get_def _)]
    simp only
    rw [if_neg (by rw [r1.used]; simp)]
    simp only [M.bind_def, M.get_def, M.pure_def, r1.iv]
  have h1 := macAdd_absorbs hc (src := b) (p := (v, [])) hvl (by simpa using hb) (by rw [hb]; exact hlen)
  rw [List.nil_append] at h1
  have hEl : (E (xorb b v)).length = c.blocksize := hc.out_len (s := k) rfl (by rw [xorb_length]; omega)
  have hadd : Gives (MacAt c.blocksize k) (performHash (mac c none) (.add (.addSubstring b 0 len))) (v, [])
      (.error .invalidArg) (E (xorb b v), []) := h1.unit
  obtain ⟨t1, r1, e1⟩ := traceBy_gives (step := performHash (mac c none)) hadd hat [.result]
  obtain ⟨t2, r2, e2⟩ := traceBy_gives (step := performHash (mac c none)) (x := .result) (hres _ hEl) r1 []
  obtain ⟨t3, r3, e3⟩ := traceBy_gives (step := performHash (mac c none)) (x := .result) (hres _ hvl) hat []
  refine ⟨by rw [e1, e2]; rfl, e3, fun hne hno => hne ?_⟩
  obtain ⟨t4, e4, r4⟩ := hadd t hat
  obtain ⟨t5, r5, e5⟩ := traceBy_gives (step := performHash (mac c none)) (x := .result) (hres _ hEl) r4 []
  have := hno t .start _ t4 trivial e4 [.result]
  rw [e3, e5] at this
  simpa [traceBy] using this.symm

/-- C86 is false of `add_substring` of CMAC: after one block of message, a call that adds nothing but
raises `Invalid_argument` changes the tag, from the CMAC of the block to a value obtained from an
additional, empty last block. -/
theorem C86_cmac_add_substring {c : BlockCipher σ} {k : σ} {E : Bytes → Bytes} (hc : PureCipher c k E)
    (h16 : c.blocksize = 16) (env : Env) {t : CmacSt σ} {s : σ} (ht : aesCmacNew env c k none = .ok t s)
    (b : Bytes) (hb : b.length = 16) :
    traceBy (performHash (cmac c)) [.add (.addString b), .result] t
      = [some (.ok []), some (.ok (E (xorb b (Spec.K1 E))))]
    ∧ traceBy (performHash (cmac c)) [.add (.addString b), .add (.addSubstring [] 0 1), .result] t
      = [some (.ok []), some (.error .invalidArg),
         some (.ok (E (xorb (xorb (Spec.pad8000 16 []) (E b)) (Spec.K2 E))))]
    ∧ (E (xorb b (Spec.K1 E)) ≠ E (xorb (xorb (Spec.pad8000 16 []) (E b)) (Spec.K2 E)) →
      ¬ NoEffectBy (performHash (cmac c)) t (.add (.addSubstring [] 0 1)) anyExn) := by
  have hat := cmacAt_new hc h16 ht
  have hz : xorb b (List.replicate c.blocksize 0) = b := xorb_zeros (by omega)
  rw [Option.getD_none] at hat
  have hvl : (List.replicate c.blocksize (0 : Byte)).length = c.blocksize := List.length_replicate
  have hK1 : (Spec.K1 E).length = c.blocksize := by rw [h16]; exact ofBits_length _
  have hK2 : (Spec.K2 E).length = c.blocksize := by rw [h16]; exact ofBits_length _
  have hres : ∀ p : Bytes × Bytes, p.1.length = c.blocksize → p.2.length ≤ c.blocksize →
      Gives (CmacAt c.blocksize k (Spec.K1 E) (Spec.K2 E)) (performHash (cmac c) .result) p
        (.ok (E (xorb (xorb (if p.2.length = c.blocksize then p.2 else Spec.pad8000 c.blocksize p.2) p.1)
          (if p.2.length = c.blocksize then Spec.K1 E else Spec.K2 E))))
        (E (xorb (xorb (if p.2.length = c.blocksize then p.2 else Spec.pad8000 c.blocksize p.2) p.1)
          (if p.2.length = c.blocksize then Spec.K1 E else Spec.K2 E)), []) := by
    intro p h1 h2 t ht
    obtain ⟨t', e1, r1⟩ := (cmacResult_gives hc (Spec.K1 E) (Spec.K2 E) hK1 hK2 p h1 h2).onCmac
      (K1 := Spec.K1 E) (K2 := Spec.K2 E) t ht
    refine ⟨t', ?_, r1⟩
    show (M.get >>= fun st => CmacSt.onMac (cmacResult c st.k1 st.k2)) t = _
    rw [M.bind_ok (M.get_def _), ht.2.1, ht.2.2]
    exact e1
  have hadd : Gives (CmacAt c.blocksize k (Spec.K1 E) (Spec.K2 E)) (performHash (cmac c) (.add (.addString b)))
      (List.replicate c.blocksize 0, []) (.ok []) (List.replicate c.blocksize 0, b) := by
    have : Gives (MacAt c.blocksize k) (macAddSubstring c b 0 b.length) (List.replicate c.blocksize 0, [])
        (.ok ()) (List.replicate c.blocksize 0, b) := by
      intro t ht
      obtain ⟨ib, hb1, hb2, hb3⟩ := blit_ibuf (m := b.length) (src := b) (ofs := 0) (used := t.used) ht.buf
        (by rw [ht.used]; exact ht.pend) ht.used (by have := ht.used; simp at this; omega) (by omega)
      have hu : t.used = 0 := ht.used
      rw [slice_full, hu, Nat.zero_add] at hb3
      refine ⟨{ t with buffer := ib, used := t.used + b.length }, ?_, ?_⟩
      · rw [Int.natCast_zero] at hb1
        rw [macAddSubstring, if_neg (by omega), if_pos (by rw [hu]; omega), hb1]
        simp
      · exact { key := ht.key, buf := hb2, ivlen := hvl, iv := ht.iv, used := by simp [hu], le := by simp; omega
                pend := hb3 }
    exact this.onCmac.unit
  have hbad : Gives (CmacAt c.blocksize k (Spec.K1 E) (Spec.K2 E)) (performHash (cmac c) (.add (.addSubstring [] 0 1)))
      (List.replicate c.blocksize 0, b) (.error .invalidArg) (E b, []) := by
    have := macAdd_absorbs hc (src := []) (p := (List.replicate c.blocksize 0, b)) hvl (by simp; omega)
      (len := 1) (by simp)
    rw [List.append_nil, hz] at this
    exact this.onCmac.unit
  obtain ⟨t1, r1, e1⟩ := traceBy_gives (step := performHash (cmac c)) hadd hat [.result]
  obtain ⟨t2, r2, e2⟩ := traceBy_gives (step := performHash (cmac c)) (hres _ hvl (by simp; omega)) r1 []
  obtain ⟨t3, r3, e3⟩ := traceBy_gives (step := performHash (cmac c)) hadd hat [.add (.addSubstring [] 0 1), .result]
  obtain ⟨t4, r4, e4⟩ := traceBy_gives (step := performHash (cmac c)) hbad r3 [.result]
  have hEl : (E b).length = c.blocksize := hc.out_len (s := k) rfl (by omega)
  obtain ⟨t5, r5, e5⟩ := traceBy_gives (step := performHash (cmac c)) (hres (E b, []) hEl (by simp)) r4 []
  refine ⟨?_, ?_, fun hne hno => hne ?_⟩
  · rw [e1, e2]
    simp only [if_pos (show b.length = c.blocksize by omega), hz]
    rfl
  · rw [e3, e4, e5]
    simp only [List.length_nil, h16]
    rfl
  · obtain ⟨u1, f1, s1⟩ := hadd t hat
    obtain ⟨u2, f2, s2⟩ := hbad u1 s1
    have h1 := hno u1 (.returned .start trivial (M.bind_ok f1)) _ u2 trivial f2 [.result]
    obtain ⟨_, _, g1⟩ := traceBy_gives (step := performHash (cmac c)) (hres _ hvl (by simp; omega)) s1 []
    obtain ⟨_, _, g2⟩ := traceBy_gives (step := performHash (cmac c)) (hres (E b, []) hEl (by simp)) s2 []
    rw [g1, g2] at h1
    simp only [if_pos (show b.length = c.blocksize by omega), hz] at h1
    simp only [traceBy, h16] at h1
    simpa using h1

/-! ### Non-vacuity -/

open Example in
/-- A state in which `result` raises. -/
example : ∃ t, macInit env64 toyEnc key none = .ok t ∧
    traceBy (performHash (mac toyEnc none)) [.add (.addChar 1), .result] t
      = [some (.ok []), some (.error (.error .wrongDataLength))] := by
  refine ⟨_, rfl, ?_⟩
  decide +kernel

open Example in
/-- A block absorbed by a call that raises. -/
example : ∃ t, macInit env64 toyEnc key none = .ok t ∧
    ¬ NoEffectBy (performHash (mac toyEnc none)) t (.add (.addSubstring [1, 2, 3, 4] 0 5)) anyExn :=
  ⟨_, rfl, (C86_mac_add_substring toyEnc_pure env64 (iv := none) rfl [1, 2, 3, 4] rfl 5 (by decide)).2.2 (by decide)⟩

open Example in
/-- A CMAC changed by a call that raises. -/
example : ∃ t s, aesCmacNew env64 gcmToyEnc gcmKey none = .ok t s ∧
    ¬ NoEffectBy (performHash (cmac gcmToyEnc)) t (.add (.addSubstring [] 0 1)) anyExn := by
  obtain ⟨t, ht, _⟩ := C17_cmac gcmToyEnc_pure rfl env64 none nofun
  exact ⟨t, _, ht, (C86_cmac_add_substring gcmToyEnc_pure rfl env64 ht gcmKey rfl).2.2 (by decide +kernel)⟩

end Verif
