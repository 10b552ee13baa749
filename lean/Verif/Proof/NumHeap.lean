import Verif.Spec.NumHeap
import Verif.Proof.Combinators
import Mathlib.Tactic.Tauto
/-
The functions on numbers in memory compute what the functions on numbers compute.
-/
namespace Verif

open Spec

/-- `L` lists numbers of `h`, and `S` strings of `h`, that do not exist in `h0`. -/
structure Own (h0 h : NumHeap) (L : List (Nat × Int)) (S : List (Nat × Bytes)) : Prop where
  same : Untouched h0 h
  num : ∀ p ∈ L, h0.nums.length ≤ p.1 ∧ h.nums[p.1]? = some p.2
  str : ∀ p ∈ S, h0.strs.length ≤ p.1 ∧ h.strs[p.1]? = some p.2

/-- The same, when the values of the numbers no longer matter. -/
structure Owns (h0 h : NumHeap) (L : List Nat) (S : List (Nat × Bytes)) : Prop where
  same : Untouched h0 h
  num : ∀ p ∈ L, h0.nums.length ≤ p ∧ p < h.nums.length
  str : ∀ p ∈ S, h0.strs.length ≤ p.1 ∧ h.strs[p.1]? = some p.2

variable {h0 h : NumHeap} {L : List (Nat × Int)} {S : List (Nat × Bytes)} {Q : α → β → NumHeap → Prop}

theorem Spec.Untouched.refl (h : NumHeap) : Untouched h h := ⟨List.prefix_refl _, List.prefix_refl _⟩

theorem Own.start (h : NumHeap) : Own h h [] [] :=
  ⟨.refl h, by simp, by simp⟩

theorem Spec.Agrees.get {k : Int → M NumHeap α} {r : Except Exn β} {x v} (ho : Own h0 h L S) (hx : (x, v) ∈ L)
    (hk : Agrees h0 Q (k v h) r) : Agrees h0 Q ((numGet x >>= k) h) r := by
  have : numGet x h = .ok v h := by simp only [numGet, (ho.num _ hx).2]
  rw [M.bind_ok this]; exact hk

theorem Spec.Agrees.new {k : Nat → M NumHeap α} {r : Except Exn β} {v} (ho : Own h0 h L S)
    (hk : ∀ h' y, y = h.nums.length → h.nums.length < h'.nums.length → Own h0 h' ((y, v) :: L) S → Agrees h0 Q (k y h') r) :
    Agrees h0 Q ((numNew v >>= k) h) r := by
  have : numNew v h = .ok h.nums.length { h with nums := h.nums ++ [v] } := rfl
  rw [M.bind_ok this]
  refine hk _ _ rfl (by simp) ⟨⟨ho.same.1.trans (List.prefix_append _ _), ho.same.2⟩, ?_, ho.str⟩
  intro p hp
  rcases List.mem_cons.1 hp with rfl | hp
  · exact ⟨ho.same.1.length_le, by simp⟩
  · exact ⟨(ho.num p hp).1, by
      obtain ⟨h1, h2⟩ := ho.num p hp
      have := (List.getElem?_eq_some_iff.1 h2).1
      simp only
      rw [List.getElem?_append_left this]; exact h2⟩

theorem Spec.Agrees.exc {k : γ → M NumHeap α} {e : Except Exn γ} {g : γ → Except Exn β}
    (ho : Own h0 h L S) (hk : ∀ v, e = .ok v → Agrees h0 Q (k v h) (g v)) :
    Agrees h0 Q ((ofExcept e >>= k) h) (e >>= g) := by
  cases e with
  | ok v => exact hk v rfl
  | error x => exact ⟨rfl, ho.same⟩

theorem Own.tick (ho : Own h0 h L S) : Own h0 { h with tick := h.tick + 1 } L S :=
  ⟨ho.same, ho.num, ho.str⟩

theorem Spec.Agrees.result {k : Nat → M NumHeap α} {r : Except Exn β} {v} {share : Sharing} {args : List Nat}
    (ho : Own h0 h L S) (ha : ∀ a ∈ args, ∃ va, (a, va) ∈ L)
    (hk : ∀ h' y, h.nums.length ≤ h'.nums.length →
      (y ∈ args ∧ h.nums[y]? = some v ∨ h.nums.length ≤ y) →
      Own h0 h' ((y, v) :: L) S → Agrees h0 Q (k y h') r) :
    Agrees h0 Q ((numResult share args v >>= k) h) r := by
  have hnew : Agrees h0 Q ((numNew v >>= k) { h with tick := h.tick + 1 }) r :=
    Agrees.new ho.tick fun h' y e1 e2 => hk h' y (Nat.le_of_lt e2) (.inr (e1 ▸ Nat.le_refl _))
  have hcases : (∃ y ∈ args, h.nums[y]? = some v
        ∧ numResult share args v h = .ok y { h with tick := h.tick + 1 })
      ∨ numResult share args v h = numNew v { h with tick := h.tick + 1 } := by
    unfold numResult
    simp only
    cases hs : args[share h.tick]? with
    | none => exact .inr rfl
    | some y =>
      simp only
      by_cases hv : h.nums[y]? = some v
      · rw [if_pos hv]; exact .inl ⟨y, List.mem_of_getElem? hs, hv, rfl⟩
      · rw [if_neg hv]; exact .inr rfl
  rcases hcases with ⟨y, hy, hv, he⟩ | he
  · rw [M.bind_ok he]
    obtain ⟨va, hva⟩ := ha y hy
    refine hk _ y (Nat.le_refl _) (.inl ⟨hy, hv⟩) ⟨ho.same, ?_, ho.str⟩
    intro p hp
    rcases List.mem_cons.1 hp with rfl | hp
    · exact ⟨(ho.num _ hva).1, hv⟩
    · exact ho.num p hp
  · have e2 : (numResult share args v >>= k) h = (numNew v >>= k) { h with tick := h.tick + 1 } := by
      rw [M.bind_def, M.bind_def, he]
    rw [e2]; exact hnew

theorem Spec.Agrees.str {k : Nat → M NumHeap α} {r : Except Exn β} {s} (ho : Own h0 h L S)
    (hk : ∀ h' y, h0.strs.length ≤ y → (∀ p ∈ S, p.1 < y) → Own h0 h' L ((y, s) :: S) → Agrees h0 Q (k y h') r) :
    Agrees h0 Q ((strNew s >>= k) h) r := by
  have : strNew s h = .ok h.strs.length { h with strs := h.strs ++ [s] } := rfl
  rw [M.bind_ok this]
  refine hk _ _ ho.same.2.length_le
    (fun p hp => (List.getElem?_eq_some_iff.1 (ho.str p hp).2).1)
    ⟨⟨ho.same.1, ho.same.2.trans (List.prefix_append _ _)⟩, ho.num, ?_⟩
  intro p hp
  rcases List.mem_cons.1 hp with rfl | hp
  · exact ⟨ho.same.2.length_le, by simp⟩
  · exact ⟨(ho.str p hp).1, by
      obtain ⟨h1, h2⟩ := ho.str p hp
      have := (List.getElem?_eq_some_iff.1 h2).1
      simp only
      rw [List.getElem?_append_left this]; exact h2⟩

theorem Own.owns (ho : Own h0 h L S) : Owns h0 h (L.map Prod.fst) S :=
  ⟨ho.same, fun p hp => by
    obtain ⟨q, hq, rfl⟩ := List.mem_map.1 hp
    exact ⟨(ho.num q hq).1, (List.getElem?_eq_some_iff.1 (ho.num q hq).2).1⟩, ho.str⟩

theorem prefix_set {l l' : List α} {i : Nat} {a : α} (h : l <+: l') (hi : l.length ≤ i) :
    l <+: l'.set i a := by
  obtain ⟨t, rfl⟩ := h
  rw [List.set_append_right _ _ hi]
  exact List.prefix_append _ _

theorem Spec.Agrees.wipe {k : Unit → M NumHeap α} {r : Except Exn β} {x} {R : List Nat} (ho : Owns h0 h R S)
    (hx : x ∈ R) (hk : ∀ h', Owns h0 h' R S → Agrees h0 Q (k () h') r) :
    Agrees h0 Q ((numWipe x >>= k) h) r := by
  obtain ⟨h1, h2⟩ := ho.num x hx
  have : numWipe x h = .ok () { h with nums := h.nums.set x (zWipe (h.nums[x])) } := by
    simp only [numWipe, List.getElem?_eq_getElem h2]
  rw [M.bind_ok this]
  refine hk _ ⟨⟨prefix_set ho.same.1 h1, ho.same.2⟩, ?_, ho.str⟩
  intro p hp
  simpa using ho.num p hp

/-! ### Operations -/

section ops
variable {share : Sharing} {a b : Nat} {va vb : Int} {k : Nat → M NumHeap α} {r : Except Exn β}

/-- What is known of the result `y`, with value `v`, of an operation on `a` and `b`. -/
def From (h : NumHeap) (a b : Nat) (v : Int) (y : Nat) : Prop :=
  (y = a ∧ h.nums[y]? = some v) ∨ (y = b ∧ h.nums[y]? = some v) ∨ h.nums.length ≤ y

theorem Spec.Agrees.result2 {v} (ho : Own h0 h L S) (ha : (a, va) ∈ L) (hb : (b, vb) ∈ L)
    (hk : ∀ h' y, h.nums.length ≤ h'.nums.length → From h a b v y → Own h0 h' ((y, v) :: L) S →
      Agrees h0 Q (k y h') r) :
    Agrees h0 Q ((numResult share [a, b] v >>= k) h) r := by
  refine Agrees.result ho ?_ fun h' y hl hy => hk h' y hl ?_
  · intro x hx
    simp only [List.mem_cons, List.not_mem_nil, or_false] at hx
    rcases hx with rfl | rfl
    exacts [⟨_, ha⟩, ⟨_, hb⟩]
  · rcases hy with ⟨hy, hv⟩ | hy
    · simp only [List.mem_cons, List.not_mem_nil, or_false] at hy
      rcases hy with rfl | rfl
      exacts [.inl ⟨rfl, hv⟩, .inr (.inl ⟨rfl, hv⟩)]
    · exact .inr (.inr hy)

theorem Spec.Agrees.add (ho : Own h0 h L S) (ha : (a, va) ∈ L) (hb : (b, vb) ∈ L)
    (hk : ∀ h' y, h.nums.length ≤ h'.nums.length → From h a b (va + vb) y →
      Own h0 h' ((y, va + vb) :: L) S → Agrees h0 Q (k y h') r) :
    Agrees h0 Q ((numAdd share a b >>= k) h) r := by
  unfold numAdd
  simp only [M.bind_assoc]
  exact .get ho ha (.get ho hb (.result2 ho ha hb hk))

theorem Spec.Agrees.sub (ho : Own h0 h L S) (ha : (a, va) ∈ L) (hb : (b, vb) ∈ L)
    (hk : ∀ h' y, h.nums.length ≤ h'.nums.length → From h a b (va - vb) y →
      Own h0 h' ((y, va - vb) :: L) S → Agrees h0 Q (k y h') r) :
    Agrees h0 Q ((numSub share a b >>= k) h) r := by
  unfold numSub
  simp only [M.bind_assoc]
  exact .get ho ha (.get ho hb (.result2 ho ha hb hk))

theorem Spec.Agrees.mul (ho : Own h0 h L S) (ha : (a, va) ∈ L) (hb : (b, vb) ∈ L)
    (hk : ∀ h' y, h.nums.length ≤ h'.nums.length → From h a b (va * vb) y →
      Own h0 h' ((y, va * vb) :: L) S → Agrees h0 Q (k y h') r) :
    Agrees h0 Q ((numMul share a b >>= k) h) r := by
  unfold numMul
  simp only [M.bind_assoc]
  exact .get ho ha (.get ho hb (.result2 ho ha hb hk))

theorem Spec.Agrees.lcm (ho : Own h0 h L S) (ha : (a, va) ∈ L) (hb : (b, vb) ∈ L)
    (hk : ∀ h' y, Own h0 h' ((y, (Int.lcm va vb : Int)) :: L) S → Agrees h0 Q (k y h') r) :
    Agrees h0 Q ((numLcm share a b >>= k) h) r := by
  unfold numLcm
  simp only [M.bind_assoc]
  exact .get ho ha (.get ho hb (.result2 ho ha hb fun h' y _ _ => hk h' y))

variable {g : Int → Except Exn β}

theorem Spec.Agrees.rem (ho : Own h0 h L S) (ha : (a, va) ∈ L) (hb : (b, vb) ∈ L)
    (hk : ∀ v h' y, zRem va vb = .ok v → h.nums.length ≤ h'.nums.length → From h a b v y →
      Own h0 h' ((y, v) :: L) S → Agrees h0 Q (k y h') (g v)) :
    Agrees h0 Q ((numRem share a b >>= k) h) (zRem va vb >>= g) := by
  unfold numRem
  simp only [M.bind_assoc]
  exact .get ho ha (.get ho hb (.exc ho fun v hv => .result2 ho ha hb fun h' y => hk v h' y hv))

theorem Spec.Agrees.div (ho : Own h0 h L S) (ha : (a, va) ∈ L) (hb : (b, vb) ∈ L)
    (hk : ∀ v h' y, Own h0 h' ((y, v) :: L) S → Agrees h0 Q (k y h') (g v)) :
    Agrees h0 Q ((numDiv share a b >>= k) h) (zDiv va vb >>= g) := by
  unfold numDiv
  simp only [M.bind_assoc]
  exact .get ho ha (.get ho hb (.exc ho fun v _ => .result2 ho ha hb fun h' y _ _ => hk v h' y))

theorem Spec.Agrees.invert (ho : Own h0 h L S) (ha : (a, va) ∈ L) (hb : (b, vb) ∈ L)
    (hk : ∀ v h' y, Own h0 h' ((y, v) :: L) S → Agrees h0 Q (k y h') (g v)) :
    Agrees h0 Q ((numInvert share a b >>= k) h) (zInvert va vb >>= g) := by
  unfold numInvert
  simp only [M.bind_assoc]
  exact .get ho ha (.get ho hb (.exc ho fun v _ => .result2 ho ha hb fun h' y _ _ => hk v h' y))

theorem Spec.Agrees.modPower {m : Nat} {vm : Int} (ho : Own h0 h L S) (ha : (a, va) ∈ L) (hb : (b, vb) ∈ L)
    (hm : (m, vm) ∈ L)
    (hk : ∀ v h' y, h.nums.length < h'.nums.length → y = h.nums.length →
      Own h0 h' ((y, v) :: L) S → Agrees h0 Q (k y h') (g v)) :
    Agrees h0 Q ((numModPower a b m >>= k) h) (bnModPower va vb vm >>= g) := by
  unfold numModPower
  simp only [M.bind_assoc]
  exact .get ho ha (.get ho hb (.get ho hm (.exc ho fun v _ => .new ho fun h' y e1 e2 => hk v h' y e2 e1)))

theorem Spec.Agrees.toBytes {e : BnEnv} {nb : Option Int} {g : Bytes → Except Exn β} (ho : Own h0 h L S)
    (ha : (a, va) ∈ L)
    (hk : ∀ s h' y, bnToBytes e nb va = .ok s → h0.strs.length ≤ y → (∀ p ∈ S, p.1 < y) →
      Own h0 h' L ((y, s) :: S) → Agrees h0 Q (k y h') (g s)) :
    Agrees h0 Q ((numToBytes e nb a >>= k) h) (bnToBytes e nb va >>= g) := by
  unfold numToBytes
  simp only [M.bind_assoc]
  exact .get ho ha (.exc ho fun s hs => .str ho fun h' y => hk s h' y hs)

/-- `to_bytes` on a number that was already converted. -/
theorem Spec.Agrees.toBytes_again {e : BnEnv} {nb : Option Int} {s} (ho : Own h0 h L S)
    (ha : (a, va) ∈ L) (hs : bnToBytes e nb va = .ok s)
    (hk : ∀ h' y, h0.strs.length ≤ y → (∀ p ∈ S, p.1 < y) → Own h0 h' L ((y, s) :: S) →
      Agrees h0 Q (k y h') r) :
    Agrees h0 Q ((numToBytes e nb a >>= k) h) r := by
  unfold numToBytes
  simp only [M.bind_assoc]
  refine .get ho ha ?_
  rw [hs]
  exact .str ho hk

theorem Own.weaken {L' : List (Nat × Int)} (ho : Own h0 h L S) (h1 : ∀ p ∈ L', p ∈ L) :
    Own h0 h L' S := ⟨ho.same, fun p hp => ho.num p (h1 p hp), ho.str⟩

theorem Own.lt (ho : Own h0 h L S) (ha : (a, va) ∈ L) : a < h.nums.length :=
  (List.getElem?_eq_some_iff.1 (ho.num _ ha).2).1

theorem Spec.Agrees.subMod {p : Nat} {vp : Int} (ho : Own h0 h L S) (ha : (a, va) ∈ L) (hb : (b, vb) ∈ L)
    (hp : (p, vp) ∈ L)
    (hk : ∀ h' y, h.nums.length ≤ h'.nums.length → (y = a ∨ y = b ∨ y = p ∨ h.nums.length ≤ y) →
      Own h0 h' ((y, bnSubMod va vb vp) :: L) S → Agrees h0 Q (k y h') r) :
    Agrees h0 Q ((numSubMod share a b p >>= k) h) r := by
  unfold numSubMod
  simp only [M.bind_assoc]
  refine .sub ho ha hb fun h1 d l1 f1 o1 => .get o1 (List.mem_cons_self ..) ?_
  have hd : d = a ∨ d = b ∨ d = p ∨ h.nums.length ≤ d := by
    rcases f1 with ⟨h, _⟩ | ⟨h, _⟩ | h <;> simp [h]
  by_cases hlt : va - vb < 0
  · rw [if_pos hlt]
    refine .add o1 (List.mem_cons_self ..) (List.mem_cons_of_mem _ hp) fun h2 y l2 f2 o2 =>
      hk h2 y (Nat.le_trans l1 l2) ?_ ?_
    · rcases f2 with ⟨h, _⟩ | ⟨h, _⟩ | h
      · rw [h]; exact hd
      · simp [h]
      · exact .inr (.inr (.inr (Nat.le_trans l1 h)))
    · rw [bnSubMod, if_pos hlt]
      exact o2.weaken (by simp only [List.mem_cons]; tauto)
  · rw [if_neg hlt]
    refine hk h1 d l1 hd ?_
    rw [bnSubMod, if_neg hlt]
    exact o1

theorem Spec.Agrees.wipeKeep {k : Unit → M NumHeap α} {x y : Nat} {v : Int} {R : List Nat}
    (ho : Own h0 h [(y, v)] S) (hR : Owns h0 h R S) (hx : x ∈ R) (hne : x ≠ y)
    (hk : ∀ h', Own h0 h' [(y, v)] S → Owns h0 h' R S → Agrees h0 Q (k () h') r) :
    Agrees h0 Q ((numWipe x >>= k) h) r := by
  obtain ⟨h1, h2⟩ := hR.num x hx
  have : numWipe x h = .ok () { h with nums := h.nums.set x (zWipe (h.nums[x])) } := by
    simp only [numWipe, List.getElem?_eq_getElem h2]
  rw [M.bind_ok this]
  have hs : Untouched h0 { h with nums := h.nums.set x (zWipe (h.nums[x])) } :=
    ⟨prefix_set ho.same.1 h1, ho.same.2⟩
  refine hk _ ⟨hs, ?_, ho.str⟩ ⟨hs, ?_, ho.str⟩
  · intro p hp
    rw [List.mem_singleton] at hp
    subst hp
    have := ho.num (y, v) (List.mem_singleton.2 rfl)
    simp only
    rw [List.getElem?_set_ne hne]
    exact this
  · intro p hp
    simpa using hR.num p hp

theorem zRem_ne_nh {a b v : Int} (h : zRem a b = .ok v) : v ≠ b := by
  unfold zRem at h
  split at h
  · cases h
  · next hb =>
    injection h with h
    subst h
    intro e
    have h1 := Int.natAbs_tmod a b
    rw [e] at h1
    have h2 : b.natAbs ≠ 0 := by omega
    have := Nat.mod_lt a.natAbs (Nat.pos_of_ne_zero h2)
    omega

theorem Spec.Agrees.rem_arg {g : Int → Except Exn β} (ho : Own h0 h L S) (ha : (a, va) ∈ L) (hb : (b, vb) ∈ L)
    (hk : ∀ v h' y, h.nums.length ≤ h'.nums.length → (y = a ∨ h.nums.length ≤ y) →
      Own h0 h' ((y, v) :: L) S → Agrees h0 Q (k y h') (g v)) :
    Agrees h0 Q ((numRem share a b >>= k) h) (zRem va vb >>= g) := by
  refine .rem ho ha hb fun v h' y hv l1 f1 => hk v h' y l1 ?_
  rcases f1 with ⟨h, _⟩ | ⟨h, h2⟩ | h
  · exact .inl h
  · subst h
    have := (ho.num _ hb).2
    rw [h2] at this
    exact absurd (Option.some.inj this) (zRem_ne_nh hv)
  · exact .inr h

set_option maxHeartbeats 1000000 in
/-- `mod_power_CRT` may erase its first argument and no other, and returns the right number. -/
theorem Spec.Agrees.modPowerCRT {p q dp dq qinv : Nat} {vp vq vdp vdq vqinv : Int}
    {g : Int → Except Exn β} (ho : Own h0 h L S)
    (ha : (a, va) ∈ L) (hp : (p, vp) ∈ L) (hq : (q, vq) ∈ L) (hdp : (dp, vdp) ∈ L)
    (hdq : (dq, vdq) ∈ L) (hqinv : (qinv, vqinv) ∈ L) (h1 : a ≠ p) (h2 : a ≠ q) (h3 : a ≠ qinv)
    (hk : ∀ v h' y, Own h0 h' [(y, v)] S → Owns h0 h' (y :: L.map Prod.fst) S →
      Agrees h0 Q (k y h') (g v)) :
    Agrees h0 Q ((numModPowerCRT share a p q dp dq qinv >>= k) h)
      (bnModPowerCRT va vp vq vdp vdq vqinv >>= g) := by
  unfold numModPowerCRT bnModPowerCRT
  simp only [M.bind_assoc, bind_assoc]
  have lp := ho.lt hp
  have lq := ho.lt hq
  have lqi := ho.lt hqinv
  refine .rem_arg ho ha hp fun vap hh1 ap l1 f1 o1 => ?_
  refine .rem_arg o1 (List.mem_cons_of_mem _ ha) (List.mem_cons_of_mem _ hq)
    fun vaq hh2 aq l2 f2 o2 => ?_
  have lap := o2.lt (a := ap) (va := vap) (by simp)
  have laq := o2.lt (a := aq) (va := vaq) (by simp)
  refine .modPower o2 (va := vap) (by simp) (by simp [hdp]) (by simp [hp])
    fun vmp hh3 mp l3 f3 o3 => ?_
  refine .modPower o3 (va := vaq) (by simp) (by simp [hdq]) (by simp [hq])
    fun vmq hh4 mq l4 f4 o4 => ?_
  refine .subMod o4 (va := vmp) (vb := vmq) (vp := vp) (by simp) (by simp) (by simp [hp])
    fun hh5 diff l5 f5 o5 => ?_
  refine .mul o5 (va := bnSubMod vmp vmq vp) (vb := vqinv) (by simp) (by simp [hqinv])
    fun hh6 dq' l6 f6 o6 => ?_
  refine .rem o6 (va := bnSubMod vmp vmq vp * vqinv) (vb := vp) (by simp) (by simp [hp])
    fun vr hh7 r' _ l7 f7 o7 => ?_
  refine .mul o7 (va := vq) (vb := vr) (by simp [hq]) (by simp) fun hh8 prod l8 f8 o8 => ?_
  refine .add o8 (va := vq * vr) (vb := vmq) (by simp) (by simp) fun hh9 res l9 f9 o9 => ?_
  have hres : hh2.nums.length ≤ res ∨ res = p ∨ res = q ∨ res = qinv := by
    have e5 : hh2.nums.length ≤ diff ∨ diff = p := by omega
    have e6 : hh2.nums.length ≤ dq' ∨ dq' = p ∨ dq' = qinv := by
      rcases f6 with ⟨h, _⟩ | ⟨h, _⟩ | h <;> omega
    have e7 : hh2.nums.length ≤ r' ∨ r' = p ∨ r' = qinv := by
      rcases f7 with ⟨h, _⟩ | ⟨h, _⟩ | h <;> omega
    have e8 : hh2.nums.length ≤ prod ∨ prod = p ∨ prod = qinv ∨ prod = q := by
      rcases f8 with ⟨h, _⟩ | ⟨h, _⟩ | h <;> omega
    rcases f9 with ⟨h, _⟩ | ⟨h, _⟩ | h <;> omega
  have hR := o9.owns
  have hO := o9.weaken (L' := [(res, vq * vr + vmq)]) (by simp)
  refine .wipeKeep hO hR (x := ap) (by simp) (by omega) fun h10 o10 r10 => ?_
  refine .wipeKeep o10 r10 (x := aq) (by simp) (by omega) fun h11 o11 r11 => ?_
  refine hk _ h11 res o11 ⟨r11.same, fun x hx => r11.num x ?_, r11.str⟩
  rcases List.mem_cons.1 hx with rfl | hx
  · simp
  · simp only [List.map_cons, List.mem_cons, hx, or_true]

end ops

end Verif
