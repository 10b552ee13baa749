import Verif.Proof.InterruptHashWithin
import Verif.Props.C118_InterruptHash
import Verif.Props.C29_Blake3
import Verif.Props.C69_Md5
/-
C118, BLAKE3 and MD5: the histories for which they compute what they should when they are not interrupted.
-/
namespace Verif

open Spec

/-- C118 for BLAKE3, with and without key: less than 2^64 bytes in all, the domain of BLAKE3. -/
theorem C118_blake3 (e : B3Env) (he : 1 ≤ e.maxSimd) (key : Bytes) (sz : Int) (stack0 : Bytes)
    (hs : stack0.length = 1760) (s : Option B3Hasher) (h : b3New key sz stack0 = .ok s) (sched : Sched) :
    AllOrNothingWithin (TotalBelow (2 ^ 64)) (b3Class e sz).interruptible (sched, s)
      (Spec.BLAKE3 (sz / 8).toNat key) :=
  fun _ _ _ _ hw ha hr => attempts_result_within (interruptible_call _) interruptible_ok
    (fun ops ho hsub => C29_blake3 e he key sz stack0 hs s h ops ho (totalBelow_sublist hw hsub)) ha hr

theorem b3_result (e : B3Env) (sz : Int) (c : Option B3Hasher) :
    (b3Class e sz).result c = .ub ∨ ∃ r, (b3Class e sz).result c = .ok r c := by
  cases c with
  | none => exact .inl rfl
  | some c =>
    cases hx : b3Finalize c (sz / 8).toNat with
    | none =>
      left
      simp [b3Class, stubHash, M.bind_def, M.get, M.orUB, hx]
      rfl
    | some r =>
      right
      exact ⟨r, by simp [b3Class, stubHash, M.bind_def, M.get, M.orUB, M.modify, M.pure_def, hx]; rfl⟩

/-- With BLAKE3, `result` too can be interrupted and called again: it leaves the context as it was. -/
theorem C118_blake3_result (e : B3Env) (sz : Int) (p p' : Sched × Option B3Hasher) (x : Exn)
    (hr : (b3Class e sz).interruptible.result p = .exn x p') : p'.2 = p.2 := by
  obtain ⟨sched, c⟩ := p
  have hb := b3_result e sz c
  rcases interruptible_exn (m := (b3Class e sz).result) hr with h | ⟨_, h⟩ | h
  · exact h
  · rw [h] at hb
    rcases hb with hb | ⟨_, hb⟩
    · cases hb
    · injection hb with _ hb
  · rw [h] at hb
    rcases hb with hb | ⟨_, hb⟩ <;> cases hb

/-- C118 for MD5: additions of less than 4 GiB each. -/
theorem C118_md5 (E : Md5Engine γ) (hE : E.Correct) (sched : Sched) :
    AllOrNothingWithin (EachBelow (2 ^ 32)) (md5 E).interruptible (sched, md5Init E) Spec.MD5 :=
  fun _ _ _ _ hw ha hr => attempts_result_within (interruptible_call _) interruptible_ok
    (fun ops ho hsub => C69_md5_partial E hE ops ho (eachBelow_sublist hw hsub)) ha hr

/-- C118 for HMAC-MD5: a key and additions of less than 4 GiB each. -/
theorem C118_hmac_md5 (E : Md5Engine γ) (hE : E.Correct) (key : Bytes) (hk : key.length < 2 ^ 32) (sched : Sched) :
    ∃ c, hmacMd5New E key (md5Init E) = .ok () c ∧
      AllOrNothingWithin (EachBelow (2 ^ 32)) (hmacI (md5 E) 64 (fun _ => md5Init E) key) (sched, c)
        (Spec.HMAC Spec.MD5 64 key) := by
  obtain ⟨c, h1, h2⟩ := C69_hmac_md5_partial E hE key hk
  exact ⟨c, h1, fun _ _ _ _ hw ha hr => attempts_result_within (hmacI_call _ _ _ _) hmacI_result
    (fun ops ho hsub => h2 ops ho (eachBelow_sublist hw hsub)) ha hr⟩

/-- The history of the other file is within the limits. -/
example : TotalBelow (2 ^ 64) Example.attempted ∧ EachBelow (2 ^ 32) Example.attempted := by
  constructor
  · unfold TotalBelow; decide
  · unfold EachBelow; decide

set_option maxRecDepth 100000 in
/-- A run of BLAKE3 that meets the hypotheses: "abc" in spite of exceptions, one of them in `result`. -/
example :
    (match (b3Class ⟨2, 0xaa⟩ 256).interruptible.addString (ascii "abc")
        ([none, some .failure, none, some .failure], some (b3Init [] (List.replicate 1760 0x55))) with
      | .exn _ p1 =>
        match (b3Class ⟨2, 0xaa⟩ 256).interruptible.result p1 with
        | .exn _ p2 =>
          match (b3Class ⟨2, 0xaa⟩ 256).interruptible.result p2 with
          | .ok r _ => decide (r = natToBE 32
              0x6437b3ac38465133ffb63b75273a8db548c558465d79db03fd359c6cd5bd9d85)
          | _ => false
        | _ => false
      | _ => false) = true := by decide +kernel

end Verif
