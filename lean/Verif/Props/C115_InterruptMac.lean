import Verif.Proof.InterruptMacQuiet
import Verif.Props.C115_Interrupt
/-
C115 for the MACs based on block ciphers.
-/
namespace Verif

open Spec Cipher

/-- C115 for `MAC.des`: whatever the key, IV and padding, whatever the points at which calls are
interrupted, after any sequence of calls, completed or not, every call returns or raises an exception: it
accesses no memory out of bounds and it ends. -/
theorem C115_mac_des {env : Env} {iv : Option Bytes} {pad : Option PadScheme} {key : Bytes} {sched : Sched}
    {A : AnyHash} (hp : ∀ p, pad = some p → PadKeeps p)
    (h : MAC.desI env iv pad key sched = some (.ok A)) : MemorySafe (invokeH A.H) anyCall A.t :=
  (MAC.ofBlockI_ok hp (fun _ hb => desBlock_ok hb) h).any

/-- C115 for `MAC.triple_des`. -/
theorem C115_mac_triple_des {env : Env} {iv : Option Bytes} {pad : Option PadScheme} {key : Bytes}
    {sched : Sched} {A : AnyHash} (hp : ∀ p, pad = some p → PadKeeps p)
    (h : MAC.tripleDesI env iv pad key sched = some (.ok A)) : MemorySafe (invokeH A.H) anyCall A.t :=
  (MAC.ofBlockI_ok hp (fun _ hb => tripleDesBlock_ok hb) h).any

/-- C115 for `MAC.des_final_triple_des`. -/
theorem C115_mac_des_final_triple_des {env : Env} {iv : Option Bytes} {pad : Option PadScheme} {key : Bytes}
    {sched : Sched} {A : AnyHash} (hp : ∀ p, pad = some p → PadKeeps p)
    (h : MAC.desFinalTripleDesI env iv pad key sched = some (.ok A)) :
    MemorySafe (invokeH A.H) anyCall A.t :=
  (MAC.desFinalTripleDesI_ok hp h).any

/-- C115 for `MAC.aes`, with or without AES-NI, as long as `wipe` is not called. -/
theorem C115_mac_aes {env : Env} {host : AesHost} {iv : Option Bytes} {pad : Option PadScheme} {key : Bytes}
    {sched : Sched} {A : AnyHash} (hp : ∀ p, pad = some p → PadKeeps p)
    (h : MAC.aesI env host iv pad key sched = some (.ok A)) : MemorySafe (invokeH A.H) notWipeH A.t :=
  (MAC.ofBlockI_ok hp (fun _ hb => aesBlock_ok hb) h).notWipe

/-- C115 for `MAC.aes_cmac`, as long as `wipe` is not called. -/
theorem C115_mac_aes_cmac {env : Env} {host : AesHost} {iv : Option Bytes} {key : Bytes} {sched : Sched}
    {A : AnyHash} (h : MAC.aesCmacI env host iv key sched = some (.ok A)) :
    MemorySafe (invokeH A.H) notWipeH A.t :=
  (MAC.aesCmacI_ok h).notWipe

/-- With interruption points at which nothing happens, these are the MACs of Model/Mac. -/
theorem C115_quiet_mac (c : BlockCipher σ) (c2 : BlockCipher σ2) (c3 : BlockCipher σ3)
    (pad : Option PadScheme) :
    @macI σ (quiet σ) c pad = mac c pad
      ∧ @macFinalTripleI σ (quiet σ) σ2 σ3 c c2 c3 pad = macFinalTriple c c2 c3 pad
      ∧ @cmacI σ (quiet σ) c = cmac c :=
  ⟨Quiet.mac_eq c pad, Quiet.macFinalTriple_eq c c2 c3 pad, Quiet.cmac_eq c⟩

/-! ### A MAC interrupted and called again is wrong -/

/-- `add_string d0`, `add_string d`, again if it is interrupted, then `result`, again if it is interrupted:
the exceptions and the result. -/
def Example.macRetry (A : AnyHash) (d0 d : Bytes) : Option (Option Exn × Option Exn × Bytes) :=
  let fin (e : Option Exn) (t : A.τ) := match A.H.result t with
    | .ok r _ => some (e, none, r)
    | .exn e' t =>
      match A.H.result t with
      | .ok r _ => some (e, some e', r)
      | _ => none
    | _ => none
  match A.H.addString d0 A.t with
  | .ok () t =>
    match A.H.addString d t with
    | .exn e t =>
      match A.H.addString d t with
      | .ok () t => fin (some e) t
      | _ => none
    | .ok () t => fin none t
    | _ => none
  | _ => none

/-- The same, on the object if it was made. -/
def Example.maced (r : Option (Except Exn AnyHash)) (d0 d : Bytes) :
    Option (Option Exn × Option Exn × Bytes) :=
  match r with
  | some (.ok A) => Example.macRetry A d0 d
  | _ => none

theorem Example.maced_some {r : Option (Except Exn AnyHash)} {d0 d : Bytes}
    {x : Option Exn × Option Exn × Bytes} (h : Example.maced r d0 d = some x) :
    ∃ A, r = some (.ok A) ∧ Example.macRetry A d0 d = some x := by
  unfold Example.maced at h
  split at h
  · exact ⟨_, rfl, h⟩
  · cases h

/-- `MAC.des` with a fixed key, the 0x80 0x00... padding and no IV. -/
def Example.macAt (sched : Sched) : Option (Except Exn AnyHash) :=
  MAC.desI Example.env64 none (some Padding._8000) Example.desKey sched

/-- An interrupted `add_string` cannot be made again: with `MAC.des`, `d0` is added, then `add_string d` is
interrupted by an exception, is called again and returns; the result is not the MAC of `d0` followed
by any beginning of `d` and `d`. (A part of what was added before the interrupted call is counted twice.) -/
theorem C115_mac_wrong : ∃ (d0 d : Bytes) (sched : Sched) (A : AnyHash) (r : Bytes),
    Example.macAt sched = some (.ok A) ∧ Example.macRetry A d0 d = some (some .failure, none, r) ∧
    ∀ k, ∃ (B : AnyHash) (r' : Bytes), Example.macAt [] = some (.ok B) ∧
      Example.macRetry B d0 (d.take k ++ d) = some (none, none, r') ∧ r'.length = r.length ∧ r' ≠ r := by
  obtain ⟨A, hA, hr⟩ := Example.maced_some (r := Example.macAt (Example.breakAt 6)) (d0 := [1, 2, 3, 4, 5])
    (d := [10, 20, 30, 40, 50, 60])
    (x := (some .failure, none, [0x5b, 0xc4, 0x89, 0x69, 0x7e, 0xfd, 0x70, 0x22])) (by decide +kernel)
  refine ⟨_, _, _, A, _, hA, hr, ?_⟩
  have key : ∀ k ∈ List.range 7,
      (match Example.maced (Example.macAt []) [1, 2, 3, 4, 5]
        (List.take k [10, 20, 30, 40, 50, 60] ++ [10, 20, 30, 40, 50, 60]) with
      | some (none, none, r') =>
        decide (r'.length = 8 ∧ r' ≠ [0x5b, 0xc4, 0x89, 0x69, 0x7e, 0xfd, 0x70, 0x22])
      | _ => false) = true := by decide +kernel
  intro k
  have hk := key (min k 6) (by simp)
  have ht : List.take (min k 6) ([10, 20, 30, 40, 50, 60] : Bytes) = List.take k [10, 20, 30, 40, 50, 60] := by
    exact (List.take_eq_take_min (l := ([10, 20, 30, 40, 50, 60] : Bytes)) (i := k)).symm
  rw [ht] at hk
  split at hk
  · next r' h =>
    obtain ⟨B, hB, hr'⟩ := Example.maced_some h
    exact ⟨B, r', hB, hr', (of_decide_eq_true hk).1, (of_decide_eq_true hk).2⟩
  · cases hk

/-- Nor can `result`: with `MAC.des`, it is interrupted by an exception, is called again and returns something
else than the MAC of the data. -/
theorem C115_mac_result_wrong : ∃ (d : Bytes) (sched : Sched) (A B : AnyHash) (r r' : Bytes),
    Example.macAt sched = some (.ok A) ∧ Example.macAt [] = some (.ok B) ∧
    Example.macRetry A [] d = some (none, some .failure, r) ∧ Example.macRetry B [] d = some (none, none, r') ∧
    r.length = r'.length ∧ r ≠ r' := by
  obtain ⟨A, hA, hr⟩ := Example.maced_some (r := Example.macAt (Example.breakAt 8)) (d0 := []) (d := [1, 2, 3])
    (x := (none, some .failure, [0x3b, 0xeb, 0xe3, 0x78, 0xf6, 0xed, 0x4c, 0xe8])) (by decide +kernel)
  obtain ⟨B, hB, hr'⟩ := Example.maced_some (r := Example.macAt []) (d0 := []) (d := [1, 2, 3])
    (x := (none, none, [0x0d, 0x54, 0x98, 0xd0, 0x54, 0xbf, 0x6c, 0x15])) (by decide +kernel)
  exact ⟨_, _, A, B, _, _, hA, hB, hr, hr', by decide, by decide⟩

/-! ### The objects of the theorems exist, and are interrupted -/

/-- The exception raised by `add_string d` on an object, if it was made. -/
def Example.macInterrupted (r : Option (Except Exn AnyHash)) (d : Bytes) : Option Exn :=
  match r with
  | some (.ok A) =>
    match A.H.addString d A.t with
    | .exn e _ => some e
    | _ => none
  | _ => none

theorem Example.macInterrupted_some {r : Option (Except Exn AnyHash)} {d : Bytes} {e : Exn}
    (h : Example.macInterrupted r d = some e) :
    ∃ A t, r = some (.ok A) ∧ A.H.addString d A.t = .exn e t := by
  unfold Example.macInterrupted at h
  split at h
  · next A =>
    split at h
    · next ht => cases h; exact ⟨A, _, rfl, ht⟩
    · cases h
  · cases h

example : ∃ A t, MAC.desI Example.env64 none (some Padding._8000) Example.desKey (Example.breakAt 6)
      = some (.ok A)
    ∧ A.H.addString (List.replicate 20 7) A.t = .exn .failure t
    ∧ MemorySafe (invokeH A.H) anyCall A.t := by
  obtain ⟨A, t, h1, h2⟩ := Example.macInterrupted_some (d := List.replicate 20 7) (e := .failure)
    (r := MAC.desI Example.env64 none (some Padding._8000) Example.desKey (Example.breakAt 6)) (by decide +kernel)
  exact ⟨A, t, h1, h2, C115_mac_des (fun p hp => by cases hp; exact C65_paddings.1) h1⟩

example : ∃ A t, MAC.tripleDesI Example.env64 none none (Example.desKey ++ Example.desKey) (Example.breakAt 3)
      = some (.ok A)
    ∧ A.H.addString (List.replicate 20 7) A.t = .exn .failure t
    ∧ MemorySafe (invokeH A.H) anyCall A.t := by
  obtain ⟨A, t, h1, h2⟩ := Example.macInterrupted_some (d := List.replicate 20 7) (e := .failure)
    (r := MAC.tripleDesI Example.env64 none none (Example.desKey ++ Example.desKey) (Example.breakAt 3))
    (by decide +kernel)
  exact ⟨A, t, h1, h2, C115_mac_triple_des (fun p hp => by cases hp) h1⟩

example : ∃ A t, MAC.desFinalTripleDesI Example.env64 none none (Example.desKey ++ Example.desKey)
      (Example.breakAt 3) = some (.ok A)
    ∧ A.H.addString (List.replicate 20 7) A.t = .exn .failure t
    ∧ MemorySafe (invokeH A.H) anyCall A.t := by
  obtain ⟨A, t, h1, h2⟩ := Example.macInterrupted_some (d := List.replicate 20 7) (e := .failure)
    (r := MAC.desFinalTripleDesI Example.env64 none none (Example.desKey ++ Example.desKey) (Example.breakAt 3))
    (by decide +kernel)
  exact ⟨A, t, h1, h2, C115_mac_des_final_triple_des (fun p hp => by cases hp) h1⟩

example : ∃ A t, MAC.aesI Example.env64 (.table (List.replicate 61 0)) none none Example.aesKey
      (Example.breakAt 3) = some (.ok A)
    ∧ A.H.addString (List.replicate 20 7) A.t = .exn .failure t
    ∧ MemorySafe (invokeH A.H) notWipeH A.t := by
  obtain ⟨A, t, h1, h2⟩ := Example.macInterrupted_some (d := List.replicate 20 7) (e := .failure)
    (r := MAC.aesI Example.env64 (.table (List.replicate 61 0)) none none Example.aesKey (Example.breakAt 3))
    (by decide +kernel)
  exact ⟨A, t, h1, h2, C115_mac_aes (fun p hp => by cases hp) h1⟩

example : ∃ A t, MAC.aesCmacI Example.env64 (.table (List.replicate 61 0)) none Example.aesKey
      (Example.breakAt 3) = some (.ok A)
    ∧ A.H.addString (List.replicate 20 7) A.t = .exn .failure t
    ∧ MemorySafe (invokeH A.H) notWipeH A.t := by
  obtain ⟨A, t, h1, h2⟩ := Example.macInterrupted_some (d := List.replicate 20 7) (e := .failure)
    (r := MAC.aesCmacI Example.env64 (.table (List.replicate 61 0)) none Example.aesKey (Example.breakAt 3))
    (by decide +kernel)
  exact ⟨A, t, h1, h2, C115_mac_aes_cmac h1⟩

end Verif
