import Verif.Model.Blake2
import Verif.Proof.MD
/-
Buffering that keeps the last block: what the context holds after any data has been added.
-/
namespace Verif

/-- The context reflects the data `m`: full blocks have been processed, except the last one, which
is in the buffer. -/
structure LRep (n : Nat) (tr : γ → Bytes → γ) (h0 : γ) (m : Bytes) (c : MDBuf γ) : Prop where
  buf : c.buffer.length = n
  split : ∃ bs : List Bytes, ∃ rest : Bytes, m = bs.flatten ++ rest ∧ (∀ b ∈ bs, b.length = n) ∧
    rest.length ≤ n ∧ (bs ≠ [] → rest ≠ []) ∧ c.h = bs.foldl tr h0 ∧ c.numbytes = rest.length ∧
    c.buffer.take rest.length = rest

theorem lazyTail_rep {n : Nat} (hn : 0 < n) {tr : γ → Bytes → γ} {h0 : γ}
    (data : Bytes) (c : MDBuf γ) (hb : c.buffer.length = n) (bs : List Bytes)
    (hbs : ∀ b ∈ bs, b.length = n) (hh : c.h = bs.foldl tr h0) (hd0 : bs ≠ [] → data ≠ []) :
    ∃ c', lazyTail n tr c data = some c' ∧ LRep n tr h0 (bs.flatten ++ data) c' := by
  induction h : data.length using Nat.strongRecOn generalizing data c bs with
  | _ k ih =>
    rw [lazyTail]
    by_cases hd : n < data.length
    · rw [dif_pos ⟨hn, hd⟩]
      have e : bs.flatten ++ data = (bs ++ [data.take n]).flatten ++ data.drop n := by simp
      have hbs' : ∀ b ∈ bs ++ [data.take n], b.length = n := by
        intro b hm
        rcases List.mem_append.1 hm with hm | hm
        · exact hbs b hm
        · simp at hm; subst hm; simp; omega
      rw [e]
      refine ih (data.drop n).length (by simp; omega) (data.drop n)
        { c with h := tr c.h (data.take n) } hb _ hbs' (by simp [hh]) (fun _ he => ?_) rfl
      have := congrArg List.length he
      simp at this; omega
    · rw [dif_neg (fun x => hd x.2)]
      have hw : cWrite c.buffer 0 data = some (splice c.buffer 0 data) := by
        rw [show (0 : Int) = ((0 : Nat) : Int) by rfl, cWrite_ok (by omega)]
      rw [hw]
      refine ⟨_, rfl, ?_, bs, data, rfl, hbs, by omega, hd0, hh, rfl, ?_⟩
      · simp only; rw [splice_length (by omega)]; exact hb
      · exact splice_zero_take (by omega)

theorem lazyAdd_rep {n : Nat} (hn : 0 < n) {tr : γ → Bytes → γ} {h0 : γ} {m : Bytes}
    {c : MDBuf γ} (hr : LRep n tr h0 m c) (data : Bytes) :
    ∃ c', lazyAdd n tr c data = some c' ∧ LRep n tr h0 (m ++ data) c' := by
  obtain ⟨hb, bs, rest, rfl, hbs, hle, hne, hh, hnb, htk⟩ := hr
  rw [lazyAdd]
  by_cases h0' : c.numbytes = 0
  · rw [if_neg (by omega)]
    have hr0 : rest = [] := List.length_eq_zero_iff.1 (by omega)
    subst hr0
    have hb0 : bs = [] := by
      cases bs with
      | nil => rfl
      | cons b bs => exact absurd rfl (hne (by simp))
    subst hb0
    simpa using lazyTail_rep hn data c hb [] hbs hh (by simp)
  · rw [if_pos (by omega)]
    by_cases hd : data.length ≤ n - c.numbytes
    · simp only [hd, if_true]
      rw [cWrite_ok (by omega)]
      refine ⟨_, rfl, ?_, bs, rest ++ data, by simp, hbs, by simp; omega, ?_, hh, by simp [hnb], ?_⟩
      · simp only; rw [splice_length (by omega)]; exact hb
      · intro hx; simp [hne hx]
      · simp only [List.length_append]
        rw [hnb, take_splice (by omega), htk]
    · simp only [hd, if_false]
      have htl : (data.take (n - c.numbytes)).length = n - c.numbytes := by simp; omega
      rw [cWrite_ok (by omega)]
      have hfull : splice c.buffer c.numbytes (data.take (n - c.numbytes))
          = rest ++ data.take (n - c.numbytes) := by
        rw [splice_prefix (p := rest) (by rw [hnb]; exact htk) (by omega)]
      simp only [hfull]
      have e : bs.flatten ++ rest ++ data
          = (bs ++ [rest ++ data.take (n - c.numbytes)]).flatten ++ data.drop (n - c.numbytes) := by
        simp
      rw [e]
      refine lazyTail_rep hn _ _ (by simp; omega) _ ?_ (by simp [hh]) (fun _ he => ?_)
      · intro b hm
        rcases List.mem_append.1 hm with hm | hm
        · exact hbs b hm
        · simp at hm; subst hm; simp; omega
      · have := congrArg List.length he
        simp at this; omega

end Verif
