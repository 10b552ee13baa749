import Verif.Proof.InterruptCtr
import Verif.Props.C07_C11_Modes
import Verif.Props.C115_Interrupt
/-
C116: counter mode and asynchronous exceptions. A program that catches the exception raised by a signal
handler and goes on encrypting relies on fresh counter blocks. The counter is not incremented atomically,
so this fails (`C116_reuse`, `C116_limit`); it holds as long as no carry is interrupted and the number of
calls, completed or not, is within the range of the counter (`C116_ctr_partial`).
-/
namespace Verif

open Spec Cipher

/-- C116, in part: over any history of calls on an object of class `ctr`, interrupted at any points but not
when the last byte of the counter is 0xFF, no two blocks are encrypted with the same counter block, for as
many calls as the counter has values. Missing: a call interrupted while a carry is due (`C116_reuse`)
and more calls than that (`C116_limit`). -/
theorem C116_ctr_partial {σ : Type} {c : BlockCipher σ} {k : σ} {E : Bytes → Bytes} {env : Env}
    (h : PureCipher c k E) {iv : Option Bytes} (hiv : Spec.IVOk c.blocksize iv) {inc : Option Nat}
    (hinc : Spec.IncOk c.blocksize inc) (sched : Sched) {nincr : Nat} {st : CtrSt (Sched × σ)}
    (hi : ctrInit env c.atomic (sched, k) iv (inc.map Int.ofNat) = .ok (nincr, st))
    {blocks : List (Bytes × Bytes)} {n : Nat}
    (hc : Calls (ctrI nincr c.atomic) (fun st => st.m.iv.getLast? ≠ some 0xFF) st blocks n)
    (hn : n ≤ 256 ^ nincr) : DistinctMasks E c.blocksize blocks := by
  rw [ctrInit_ok env c.atomic (sched, k) hiv hinc] at hi
  cases hi
  have hle : Spec.incOf c.blocksize inc ≤ c.blocksize := incOf_le hinc
  have hivl : (Spec.ivOf c.blocksize iv).length = c.blocksize := ivOf_length hiv
  obtain ⟨is, p1, p2, p3, p4⟩ := ctrI_calls h hle hivl hc 0 rfl
    (counterBlock_zero (Spec.ivOf c.blocksize iv) _ (by rw [hivl]; exact hle)).symm (by simp [Env.create, BlockCipher.atomic])
  refine ⟨is.map (counterBlock (Spec.ivOf c.blocksize iv) (Spec.incOf c.blocksize inc)), ?_, ?_, ?_⟩
  · rw [List.Nodup, List.pairwise_map]
    refine p1.imp_of_mem ?_
    intro i j hi hj hij he
    have h1 := p2 i hi
    have h2 := p2 j hj
    have := counterBlock_inj (by exact Nat.lt_of_lt_of_le (by omega) hn)
      (by exact Nat.lt_of_lt_of_le (by omega) hn) he
    omega
  · rw [List.length_map, p3]
  · intro p x hp
    rw [List.zip_map_right, List.mem_map] at hp
    obtain ⟨⟨p', i⟩, hm, he⟩ := hp
    cases he
    exact ⟨by rw [counterBlock_length _ _ _ (by rw [hivl]; exact hle), hivl], p4 _ _ hm⟩

/-! ### The carry of the counter is lost -/

/-- Encrypt blocks of zeroes one at a time, until a call raises an exception: what was read after each
call, and the transform. -/
def Example.feed (A : AnyTransform) : Nat → A.τ → List Bytes × Option A.τ
  | 0, t => ([], some t)
  | n + 1, t =>
    match A.T.putString (List.replicate 8 0) t with
    | .ok () t =>
      match A.T.getString t with
      | .ok o t => let r := feed A n t; (o :: r.1, r.2)
      | _ => ([], none)
    | .exn _ t => ([], some t)
    | _ => ([], none)

/-- The run of `C116_reuse`. -/
def Example.reuse : Bool :=
  match desI Example.env64 (some .CTR) none none Example.desKey .encrypt (Example.breakAt 5115) with
  | some (.ok A) =>
    match Example.feed A 1000 A.t with
    | (l, some t) =>
      match Example.feed A 1 t with
      | ([b], some _) => decide (l.length = 256 ∧ b.length = 8 ∧ l[1]? = some b)
      | _ => false
    | _ => false
  | _ => false

set_option maxRecDepth 4000 in
theorem Example.reuse_true : Example.reuse = true := by decide +kernel

/-- C116 is false: DES in counter mode from a zero IV. Blocks of zeroes are encrypted one by one; a signal
arrives during the 257th call, while the carry of the counter is being propagated, and its handler raises
an exception. The program goes on: the next block is encrypted exactly as the first one was (a
block is encrypted when more data comes, so the first one is read after the second call). -/
theorem C116_reuse : ∃ (A : AnyTransform) (t t' : A.τ) (l : List Bytes) (b : Bytes),
    desI Example.env64 (some .CTR) none none Example.desKey .encrypt (Example.breakAt 5115)
      = some (.ok A) ∧
    Example.feed A 1000 A.t = (l, some t) ∧ l.length = 256 ∧
    Example.feed A 1 t = ([b], some t') ∧ b.length = 8 ∧ l[1]? = some b := by
  have h := Example.reuse_true
  unfold Example.reuse at h
  split at h
  · next A hA =>
    split at h
    · next l t hf =>
      split at h
      · next b t' hg =>
        have := of_decide_eq_true h
        exact ⟨A, t, t', l, b, hA, hf, this.1, hg, this.2.1, this.2.2⟩
      · cases h
    · cases h
  · cases h

/-! ### The limit on the number of blocks is not kept -/

/-- Interruptions of the second and third calls, each after the counter was incremented and before the
number of blocks left was decremented. -/
def Example.twice : Sched :=
  List.replicate 6 none ++ (List.replicate 4 none ++ [some .failure]) ++
    (List.replicate 4 none ++ [some .failure])

/-- The bound on the number of calls in `C116_ctr_partial` is needed: with a counter of one byte, of 257
calls two are interrupted and 255 return, none raises `Message_too_long`, and the last one uses the same
counter block as the first one. -/
theorem C116_limit : ∃ st,
    ctrInit Example.env64 Example.toyEnc.atomic (Example.twice, Example.key) none (some 1) = .ok (1, st) ∧
    ((ctrI 1 Example.toyEnc.atomic).attempts st
        (List.replicate 257 ⟨.other [1, 2, 3, 4], 0, 0, [0, 0, 0, 0]⟩)).map (fun r => r.map (·.1))
      = some none :: some (some .failure) :: some (some .failure) :: List.replicate 254 (some none) ∧
    ((ctrI 1 Example.toyEnc.atomic).attempts st
        (List.replicate 257 ⟨.other [1, 2, 3, 4], 0, 0, [0, 0, 0, 0]⟩))[256]?
      = ((ctrI 1 Example.toyEnc.atomic).attempts st
          (List.replicate 257 ⟨.other [1, 2, 3, 4], 0, 0, [0, 0, 0, 0]⟩))[0]? :=
  ⟨_, rfl, by decide +kernel, by decide +kernel⟩

/-! ### Non-vacuity -/

/-- Calls with the same block, as many as asked for. -/
def Example.history (c : BlockCipher σ) (tolerated : σ → Bool) (b : Bytes) :
    Nat → σ → Option (List (Bytes × Bytes))
  | 0, _ => some []
  | n + 1, s =>
    match c.transform (.other b) 0 0 (s, b) with
    | .ok () (s', d) => (history c tolerated b n s').map ((slice b 0 c.blocksize, slice d 0 c.blocksize) :: ·)
    | .exn _ (s', _) => if tolerated s then history c tolerated b n s' else none
    | _ => none

theorem Example.history_calls {c : BlockCipher σ} {tolerated : σ → Bool} {b : Bytes}
    (hb : b.length = c.blocksize) : ∀ {n : Nat} {s : σ} {l : List (Bytes × Bytes)},
      Example.history c tolerated b n s = some l → Calls c (fun s => tolerated s = true) s l n
  | 0, s, l, h => by cases h; exact .none s
  | n + 1, s, l, h => by
    unfold Example.history at h
    have h0 : (0 : Nat) + c.blocksize ≤ ((Src.other b).read b).length := by
      simp only [Src.read]; omega
    split at h
    · next s' d hr =>
      rw [Option.map_eq_some_iff] at h
      obtain ⟨l', h1, rfl⟩ := h
      exact .returned (src := .other b) (so := 0) (dofs := 0) h0 h0 hr (history_calls hb h1)
    · next e s' d hr =>
      split at h
      · next ht => exact .raised (src := .other b) (so := 0) (dofs := 0) h0 h0 ht hr (history_calls hb h)
      · cases h
    · cases h

open Example in
/-- The hypotheses of `C116_ctr_partial` are met by a history of 256 calls with a counter of one byte,
the second and the third of which are interrupted after the counter was incremented. -/
example : ∃ st blocks,
    ctrInit env64 toyEnc.atomic (twice, key) none ((some 1 : Option Nat).map Int.ofNat) = .ok (1, st) ∧
    Calls (ctrI 1 toyEnc.atomic) (fun st => st.m.iv.getLast? ≠ some 0xFF) st blocks 256 ∧
    blocks.length = 254 ∧ 256 ≤ 256 ^ 1 := by
  refine ⟨⟨⟨(twice, key), [0, 0, 0, 0], env64.create 4⟩, 256⟩, ?_⟩
  have h : (history (ctrI 1 toyEnc.atomic) (fun st => decide (st.m.iv.getLast? ≠ some 0xFF))
      [1, 2, 3, 4] 256 ⟨⟨(twice, key), [0, 0, 0, 0], env64.create 4⟩, 256⟩).map List.length
      = some 254 := by decide +kernel
  rw [Option.map_eq_some_iff] at h
  obtain ⟨l, h1, h2⟩ := h
  have := history_calls (by rfl) h1
  simp only [decide_eq_true_eq] at this
  exact ⟨l, rfl, this, h2, by decide⟩

end Verif
