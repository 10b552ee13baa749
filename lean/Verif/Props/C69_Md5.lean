import Verif.Model.Md5
import Verif.Proof.Hmac
import Verif.Proof.SafeHash
import Verif.Props.C25_HashSize
import Verif.Props.C63_C65_Safety
/-
C69: `Hash.md5` objects return the MD5 digest of the data added and `MAC.hmac_md5` objects HMAC-MD5,
given that the MD5 functions of the OCaml runtime implement RFC 1321. True as long as no single
call adds 4 GiB or more; larger strings are truncated.
-/
namespace Verif

theorem MD5_length (m : Bytes) : (Spec.MD5 m).length = 16 := by
  simp [Spec.MD5]

/-- The context results from the updates `parts`, whose concatenation is `m`. -/
def Md5Rep (E : Md5Engine γ) (m : Bytes) (c : γ) : Prop :=
  ∃ parts : List Bytes, parts.flatten = m ∧ c = parts.foldl E.update E.init

/-- The part of a string that `add_string` takes into account. -/
def Spec.low32 (s : Bytes) : Bytes := s.take (s.length % 2 ^ 32)

theorem low32_eq {s : Bytes} (h : s.length < 2 ^ 32) : Spec.low32 s = s := by
  unfold Spec.low32
  rw [Nat.mod_eq_of_lt h, List.take_length]

theorem md5_call (E : Md5Engine γ) {op : HOp} (h : op.Legal) {m : Bytes} {c : γ}
    (hr : Md5Rep E m c) :
    ∃ c', (md5 E).call op c = .ok () c' ∧ Md5Rep E (m ++ Spec.low32 op.input) c' := by
  obtain ⟨parts, rfl, rfl⟩ := hr
  exact ⟨_, stubHash_call h rfl, parts ++ [Spec.low32 op.input], by simp, by
    rw [List.foldl_append]; rfl⟩

theorem md5_calls (E : Md5Engine γ) (ops : List HOp) (hl : ∀ op ∈ ops, op.Legal) {m : Bytes} {c : γ}
    (hr : Md5Rep E m c) :
    ∃ c', (md5 E).calls ops c = .ok () c' ∧
      Md5Rep E (m ++ (ops.map fun op => Spec.low32 op.input).flatten) c' := by
  induction ops generalizing m c with
  | nil => exact ⟨c, rfl, by simpa using hr⟩
  | cons op ops ih =>
    obtain ⟨c1, h1, r1⟩ := md5_call E (hl op List.mem_cons_self) hr
    obtain ⟨c2, h2, r2⟩ := ih (fun o ho => hl o (List.mem_cons_of_mem _ ho)) r1
    refine ⟨c2, ?_, ?_⟩
    · rw [HashObj.calls, h1]; exact h2
    · simpa [List.append_assoc] using r2

/-- C69, what `Hash.md5` does in all cases: every addition is truncated to its length modulo 2^32. -/
theorem C69_md5_exact (E : Md5Engine γ) (hE : E.Correct) (ops : List HOp)
    (hl : ∀ op ∈ ops, op.Legal) :
    ((md5 E).digest ops (md5Init E)).observe
      = some (.ok (Spec.MD5 (ops.map fun op => Spec.low32 op.input).flatten)) := by
  obtain ⟨c, h1, parts, hp, hc⟩ := md5_calls E ops hl (c := md5Init E) (m := []) ⟨[], rfl, rfl⟩
  rw [HashObj.digest, h1, ← List.nil_append (List.flatten _), ← hp, ← hE parts, ← hc]
  simp [md5, md5Final, stubHash, M.bind_def, Out.observe]

/-- C69, `Hash.md5`. Missing: additions of 4 GiB or more in a single call, for which the property
is false (`C69_md5_large`). -/
theorem C69_md5_partial (E : Md5Engine γ) (hE : E.Correct) (ops : List HOp)
    (hl : ∀ op ∈ ops, op.Legal) (small : ∀ op ∈ ops, op.input.length < 2 ^ 32) :
    ((md5 E).digest ops (md5Init E)).observe = some (.ok (Spec.MD5 (hinputOf ops))) := by
  rw [C69_md5_exact E hE ops hl, hinputOf]
  congr 4
  exact List.map_congr_left fun op ho => low32_eq (small op ho)

/-- C69 is false of the code for long strings: all strings of 4 GiB have the digest of the empty
string. -/
theorem C69_md5_large (E : Md5Engine γ) (hE : E.Correct) (s : Bytes) (h : s.length = 2 ^ 32) :
    ((md5 E).digest [.addString s] (md5Init E)).observe = some (.ok (Spec.MD5 [])) := by
  rw [C69_md5_exact E hE [.addString s] (by
    intro op ho
    rw [List.mem_singleton.1 ho]
    show s.length ≤ maxString
    rw [h]; decide +kernel)]
  have : Spec.low32 s = [] := by
    unfold Spec.low32
    rw [h, Nat.mod_self, List.take_zero]
  simp [HOp.input, this]

/-- ... so that the digest depends on how the data are cut into calls: two strings that differ get
the same digest when each is added in one call. -/
theorem C69_md5_collision (E : Md5Engine γ) (hE : E.Correct) (t x y : Bytes)
    (hx : x.length = 2 ^ 32) (hy : y.length = 2 ^ 32) (ht : t.length < 2 ^ 32) :
    ((md5 E).digest [.addString (t ++ x)] (md5Init E)).observe
      = ((md5 E).digest [.addString (t ++ y)] (md5Init E)).observe := by
  have key : ∀ z : Bytes, z.length = 2 ^ 32 →
      ((md5 E).digest [.addString (t ++ z)] (md5Init E)).observe = some (.ok (Spec.MD5 t)) := by
    intro z hz
    have hl : (t ++ z).length = t.length + 2 ^ 32 := by rw [List.length_append, hz]
    rw [C69_md5_exact E hE [.addString (t ++ z)] (by
      intro op ho
      rw [List.mem_singleton.1 ho]
      show (t ++ z).length ≤ maxString
      have : (2 ^ 33 : Nat) ≤ maxString := by decide +kernel
      omega)]
    have : Spec.low32 (t ++ z) = t := by
      unfold Spec.low32
      rw [hl, Nat.add_mod_right, Nat.mod_eq_of_lt ht, List.take_left]
    simp [HOp.input, this]
  rw [key x hx, key y hy]

/-- C69, `MAC.hmac_md5`. Missing: keys and additions of 4 GiB or more in a single call. -/
theorem C69_hmac_md5_partial (E : Md5Engine γ) (hE : E.Correct) (key : Bytes)
    (hk : key.length < 2 ^ 32) :
    ∃ c, hmacMd5New E key (md5Init E) = .ok () c ∧
      ∀ ops : List HOp, (∀ op ∈ ops, op.Legal) → (∀ op ∈ ops, op.input.length < 2 ^ 32) →
        ((hmacMd5 E key).digest ops c).observe
          = some (.ok (Spec.HMAC Spec.MD5 64 key (hinputOf ops))) := by
  have big : (2 ^ 32 : Nat) ≤ maxString := by decide +kernel
  obtain ⟨c, h1, h2⟩ := hmac_computesOn (L := fun op => op.Legal ∧ op.input.length < 2 ^ 32)
    (h := md5 E) (new := fun c => c = md5Init E) (f := Spec.MD5) (B := 64)
    (fresh := fun _ => md5Init E) (key := key)
    { computes := by
        rintro _ rfl ops hops
        exact C69_md5_partial E hE ops (fun op ho => (hops op ho).1) (fun op ho => (hops op ho).2)
      short := fun m => by rw [MD5_length]; decide
      pad := by
        intro b hb
        simp only [HOp.Legal, InRange, HOp.input, slice_length]
        omega
      dig := by
        intro m
        simp only [HOp.Legal, HOp.input, MD5_length]
        omega
      wipe := fun _ => ⟨_, rfl⟩ } (fun _ => rfl) rfl
    (fun _ => ⟨by show key.length ≤ maxString; omega, hk⟩)
  exact ⟨c, h1, fun ops hl hs => h2 ops fun op ho => ⟨hl op ho, hs op ho⟩⟩

/-- C25, MD5: whatever the additions, even large ones. -/
theorem C25_md5_partial (E : Md5Engine γ) (hE : E.Correct) : (md5 E).SizeCorrect (md5Init E) :=
  fun ops hl => ⟨_, C69_md5_exact E hE ops hl, MD5_length _⟩

/-- C65, MD5: an illegal range is rejected, whatever the object has been through. -/
theorem C65_md5 (E : Md5Engine γ) (t0 : γ) :
    Spec.RangeRejected (Spec.invokeH (md5 E)) Spec.anyCall t0 (md5 E).addSubstring :=
  fun t _ _ _ _ hr => stubHash_addSubstring_bad hr t

namespace Example

/-- An engine that meets the contract: it keeps the data. -/
def refMd5 : Md5Engine Bytes :=
  { init := [], update := (· ++ ·), final := fun m => (Spec.MD5 m, []), zero := [] }

theorem refMd5_fold (parts : List Bytes) (m : Bytes) :
    parts.foldl refMd5.update m = m ++ parts.flatten := by
  induction parts generalizing m with
  | nil => simp
  | cons p ps ih => rw [List.foldl_cons, ih]; simp [refMd5]

theorem refMd5_correct : refMd5.Correct := fun parts => by
  rw [show refMd5.init = [] from rfl, refMd5_fold]; rfl

theorem hops_small : ∀ op ∈ hops, op.input.length < 2 ^ 32 := by decide +kernel

/-- RFC 1321 appendix A.5: MD5 ("abc"). -/
example : ((md5 refMd5).digest hops (md5Init refMd5)).observe
    = some (.ok (natToBE 16 0x900150983cd24fb0d6963f7d28e17f72)) := by
  rw [C69_md5_partial refMd5 refMd5_correct hops hops_legal hops_small, hops_input]
  decide +kernel

/-- RFC 2202 section 2, test case 2 (key "Jefe"). -/
example : Spec.HMAC Spec.MD5 64 (ascii "Jefe") (ascii "what do ya want for nothing?")
    = natToBE 16 0x750c783e6ab0b503eaa86e310a5db738 := by decide +kernel

example : ∃ c, hmacMd5New refMd5 (ascii "Jefe") (md5Init refMd5) = .ok () c ∧
    ∀ ops : List HOp, (∀ op ∈ ops, op.Legal) → (∀ op ∈ ops, op.input.length < 2 ^ 32) →
      ((hmacMd5 refMd5 (ascii "Jefe")).digest ops c).observe
        = some (.ok (Spec.HMAC Spec.MD5 64 (ascii "Jefe") (hinputOf ops))) :=
  C69_hmac_md5_partial refMd5 refMd5_correct _ (by decide +kernel)

/-- Long strings exist. -/
example : ∃ s : Bytes, s.length = 2 ^ 32 ∧
    ((md5 refMd5).digest [.addString s] (md5Init refMd5)).observe = some (.ok (Spec.MD5 [])) :=
  ⟨List.replicate (2 ^ 32) 0, List.length_replicate,
    C69_md5_large refMd5 refMd5_correct _ List.length_replicate⟩

end Example

end Verif
