import Verif.Model.Blowfish
import Verif.Proof.BlowfishPi
import Verif.Proof.Checked
import Verif.Proof.Words
import Verif.Proof.Block
/-
Blowfish: the code against the published algorithm.
-/
namespace Verif.Blowfish

theorem list18 {l : List W32} (h : l.length = 18) :
    ∃ p0 p1 p2 p3 p4 p5 p6 p7 p8 p9 p10 p11 p12 p13 p14 p15 p16 p17,
      l = [p0, p1, p2, p3, p4, p5, p6, p7, p8, p9, p10, p11, p12, p13, p14, p15, p16, p17] := by
  match l, h with
  | [p0, p1, p2, p3, p4, p5, p6, p7, p8, p9, p10, p11, p12, p13, p14, p15, p16, p17], _ =>
    exact ⟨p0, p1, p2, p3, p4, p5, p6, p7, p8, p9, p10, p11, p12, p13, p14, p15, p16, p17, rfl⟩

/-- Two rounds with the swaps cancelled out. -/
theorem rounds2 (f : W32 → W32) (p q : W32) (ps : List W32) (l r : W32) :
    Spec.Blowfish.rounds f (p :: q :: ps) (l, r)
      = Spec.Blowfish.rounds f ps
          (l ^^^ p ^^^ f (r ^^^ (f (l ^^^ p) ^^^ q)), r ^^^ (f (l ^^^ p) ^^^ q)) := by
  simp only [Spec.Blowfish.rounds]
  have : f (l ^^^ p) ^^^ r ^^^ q = r ^^^ (f (l ^^^ p) ^^^ q) := by
    rw [BitVec.xor_comm (f _) r, BitVec.xor_assoc]
  rw [this, BitVec.xor_comm (l ^^^ p)]


/-- The unrolled loop of the code, on pairs of key words. -/
def unrolled (f : W32 → W32) : List (W32 × W32) → W32 × W32 → W32 × W32
  | [], x => x
  | (q, p) :: t, (l, r) =>
    let r := r ^^^ (f l ^^^ q)
    let l := l ^^^ (f r ^^^ p)
    unrolled f t (l, r)

/-- The key words of the pairs, shifted by one. -/
def rlist (p : W32) : List (W32 × W32) → List W32
  | [] => []
  | (q, p') :: t => p :: q :: rlist p' t
def lastp (p : W32) : List (W32 × W32) → W32
  | [] => p
  | (_, p') :: t => lastp p' t

theorem unrolled_eq (f : W32 → W32) : ∀ (t : List (W32 × W32)) (p l r : W32),
    unrolled f t (l ^^^ p, r)
      = ((Spec.Blowfish.rounds f (rlist p t) (l, r)).1 ^^^ lastp p t,
          (Spec.Blowfish.rounds f (rlist p t) (l, r)).2) := by
  intro t
  induction t with
  | nil => intro p l r; rfl
  | cons a t ih =>
    obtain ⟨q, p'⟩ := a
    intro p l r
    simp only [rlist, lastp, rounds2, unrolled]
    rw [← ih, BitVec.xor_assoc (l ^^^ p)]

theorem encryptWords_eq {ctx : Ctx} (h : ctx.P.length = 18) (x : W32 × W32) :
    encryptWords ctx x = Spec.Blowfish.crypt (F ctx.S) ctx.P x := by
  obtain ⟨P, S⟩ := ctx
  obtain ⟨p0, p1, p2, p3, p4, p5, p6, p7, p8, p9, p10, p11, p12, p13, p14, p15, p16, p17, rfl⟩ := list18 h
  obtain ⟨l, r⟩ := x
  have := unrolled_eq (F S) [(p1, p2), (p3, p4), (p5, p6), (p7, p8), (p9, p10), (p11, p12), (p13, p14),
    (p15, p16)] p0 l r
  have e : encryptWords ⟨[p0, p1, p2, p3, p4, p5, p6, p7, p8, p9, p10, p11, p12, p13, p14, p15, p16, p17], S⟩ (l, r)
    = ((unrolled (F S) [(p1, p2), (p3, p4), (p5, p6), (p7, p8), (p9, p10), (p11, p12), (p13, p14),
        (p15, p16)] (l ^^^ p0, r)).2 ^^^ p17,
       (unrolled (F S) [(p1, p2), (p3, p4), (p5, p6), (p7, p8), (p9, p10), (p11, p12), (p13, p14),
        (p15, p16)] (l ^^^ p0, r)).1) := rfl
  rw [e, this]
  rfl

theorem decryptWords_eq {ctx : Ctx} (h : ctx.P.length = 18) (x : W32 × W32) :
    decryptWords ctx x = Spec.Blowfish.crypt (F ctx.S) ctx.P.reverse x := by
  have hr : ctx.P.reverse.length = 18 := by rw [List.length_reverse, h]
  rw [← encryptWords_eq (ctx := ⟨ctx.P.reverse, ctx.S⟩) hr]
  obtain ⟨P, S⟩ := ctx
  obtain ⟨p0, p1, p2, p3, p4, p5, p6, p7, p8, p9, p10, p11, p12, p13, p14, p15, p16, p17, rfl⟩ := list18 h
  rfl

theorem rounds_append (f : W32 → W32) (ps qs : List W32) (x : W32 × W32) :
    Spec.Blowfish.rounds f (ps ++ qs) x = Spec.Blowfish.rounds f qs (Spec.Blowfish.rounds f ps x) := by
  induction ps generalizing x with
  | nil => rfl
  | cons p ps ih => obtain ⟨l, r⟩ := x; simp only [List.cons_append, Spec.Blowfish.rounds, ih]

/-- Running the rounds backwards. -/
theorem rounds_back (f : W32 → W32) : ∀ (ps : List W32) (q : W32) (x : W32 × W32),
    Spec.Blowfish.rounds f (ps ++ [q]).tail.reverse
      ((Spec.Blowfish.rounds f ps x).1 ^^^ q ^^^ f (Spec.Blowfish.rounds f ps x).2,
        (Spec.Blowfish.rounds f ps x).2)
    = (x.1 ^^^ (ps ++ [q]).head (by simp) ^^^ f x.2, x.2) := by
  intro ps
  induction ps with
  | nil => intro q x; rfl
  | cons p ps ih =>
    intro q x
    obtain ⟨l, r⟩ := x
    have := ih q (f (l ^^^ p) ^^^ r, l ^^^ p)
    have e : ps ++ [q] = (ps ++ [q]).head (by simp) :: (ps ++ [q]).tail := by simp
    simp only [List.cons_append, List.tail_cons, List.head_cons]
    conv => lhs; arg 2; rw [e, List.reverse_cons]
    rw [rounds_append]
    simp only [Spec.Blowfish.rounds] at this ⊢
    rw [this]
    simp only [Prod.mk.injEq]
    generalize (ps ++ [q]).head _ = h
    have e1 : f (l ^^^ p) ^^^ r ^^^ h ^^^ f (l ^^^ p) ^^^ h = r := by
      generalize f (l ^^^ p) = z
      rw [BitVec.xor_comm z r, BitVec.xor_assoc r, BitVec.xor_assoc r, BitVec.xor_assoc r,
        BitVec.xor_comm z h, BitVec.xor_assoc h z z]
      simp
    rw [e1]
    exact ⟨BitVec.xor_comm _ _, rfl⟩

theorem crypt_crypt (f : W32 → W32) {P : List W32} (h : P.length = 18) (x : W32 × W32) :
    Spec.Blowfish.crypt f P.reverse (Spec.Blowfish.crypt f P x) = x := by
  obtain ⟨p0, p1, p2, p3, p4, p5, p6, p7, p8, p9, p10, p11, p12, p13, p14, p15, p16, p17, rfl⟩ := list18 h
  have hb := rounds_back f [p0, p1, p2, p3, p4, p5, p6, p7, p8, p9, p10, p11, p12, p13, p14, p15] p16 x
  simp only [List.cons_append, List.nil_append, List.tail_cons, List.reverse_cons, List.reverse_nil,
    List.head_cons] at hb
  simp only [Spec.Blowfish.crypt, List.reverse_cons, List.reverse_nil, List.cons_append, List.nil_append,
    List.take, List.getD_cons_zero, List.getD_cons_succ]
  generalize Spec.Blowfish.rounds f [p0, p1, p2, p3, p4, p5, p6, p7, p8, p9, p10, p11, p12, p13, p14, p15] x = y at hb ⊢
  obtain ⟨l, r⟩ := y
  rw [Spec.Blowfish.rounds]
  simp only at hb ⊢
  rw [show r ^^^ p17 ^^^ p17 = r by rw [BitVec.xor_assoc]; simp,
    BitVec.xor_comm (f r)]
  rw [show [p16, p15, p14, p13, p12, p11, p10, p9, p8, p7, p6, p5, p4, p3, p2, p1]
    = [p16, p15, p14, p13, p12, p11, p10, p9, p8, p7, p6, p5, p4, p3, p2] ++ [p1] by rfl, rounds_append] at hb
  generalize Spec.Blowfish.rounds f [p16, p15, p14, p13, p12, p11, p10, p9, p8, p7, p6, p5, p4, p3, p2]
    (l ^^^ p16 ^^^ f r, r) = z at hb ⊢
  obtain ⟨a, b⟩ := z
  obtain ⟨u, v⟩ := x
  simp only [Spec.Blowfish.rounds, Prod.mk.injEq] at hb ⊢
  obtain ⟨h1, h2⟩ := hb
  rw [h2] at h1
  refine ⟨?_, h2⟩
  have : f v ^^^ (f v ^^^ b) = f v ^^^ (u ^^^ p0 ^^^ f v) := by rw [h1]
  rw [← BitVec.xor_assoc, BitVec.xor_self, BitVec.zero_xor, BitVec.xor_comm (u ^^^ p0), ← BitVec.xor_assoc,
    BitVec.xor_self, BitVec.zero_xor] at this
  rw [this, BitVec.xor_assoc]
  simp

/-- The structure of the code holds the subkeys of the specification. -/
structure Holds (ctx : Ctx) (sub : List W32) (s0 s1 s2 s3 : List W32) : Prop where
  hP : ctx.P.length = 18
  hS : ctx.S = [s0, s1, s2, s3]
  h0 : s0.length = 256
  h1 : s1.length = 256
  h2 : s2.length = 256
  h3 : s3.length = 256
  hsub : sub = ctx.P ++ (s0 ++ (s1 ++ (s2 ++ s3)))

theorem getD_append_right' {a b : List W32} {n i : Nat} (h : a.length = n) :
    (a ++ b).getD (n + i) 0 = b.getD i 0 := by
  rw [List.getD_eq_getElem?_getD, List.getD_eq_getElem?_getD,
    List.getElem?_append_right (by omega), h, Nat.add_sub_cancel_left]

theorem getD_append_left' {a b : List W32} {i : Nat} (h : i < a.length) :
    (a ++ b).getD i 0 = a.getD i 0 := by
  rw [List.getD_eq_getElem?_getD, List.getD_eq_getElem?_getD, List.getElem?_append_left h]

variable {ctx : Ctx} {sub s0 s1 s2 s3 : List W32}

theorem Holds.sbox (h : Holds ctx sub s0 s1 s2 s3) {i j : Nat} (hi : i < 4) (hj : j < 256) :
    Spec.Blowfish.sbox sub i j = (ctx.S.getD i []).getD j 0 := by
  obtain ⟨hP, hS, h0, h1, h2, h3, hsub⟩ := h
  unfold Spec.Blowfish.sbox
  rw [hS, hsub, Nat.add_assoc, getD_append_right' hP]
  have : i = 0 ∨ i = 1 ∨ i = 2 ∨ i = 3 := by omega
  rcases this with rfl | rfl | rfl | rfl
  · rw [Nat.mul_zero, Nat.zero_add, getD_append_left' (by omega)]; rfl
  · rw [show 256 * 1 + j = 256 + j by omega, getD_append_right' h0, getD_append_left' (by omega)]; rfl
  · rw [show 256 * 2 + j = 256 + (256 + j) by omega, getD_append_right' h0, getD_append_right' h1,
      getD_append_left' (by omega)]; rfl
  · rw [show 256 * 3 + j = 256 + (256 + (256 + j)) by omega, getD_append_right' h0, getD_append_right' h1,
      getD_append_right' h2]; rfl

theorem Holds.F (h : Holds ctx sub s0 s1 s2 s3) : Blowfish.F ctx.S = Spec.Blowfish.F sub := by
  funext x
  have hx := x.isLt
  have m : ∀ y : W32, (y &&& 0xFF#32).toNat = y.toNat % 256 := by
    intro y
    rw [BitVec.toNat_and]
    exact Nat.and_two_pow_sub_one_eq_mod y.toNat 8
  have e : ∀ k, (x >>> k).toNat = x.toNat / 2 ^ k := by
    intro k; rw [BitVec.toNat_ushiftRight, Nat.shiftRight_eq_div_pow]
  simp only [Blowfish.F, Spec.Blowfish.F, m, e]
  rw [h.sbox (by omega) (by omega), h.sbox (by omega) (by omega), h.sbox (by omega) (by omega),
    h.sbox (by omega) (by omega)]

theorem Holds.parray (h : Holds ctx sub s0 s1 s2 s3) : Spec.Blowfish.parray sub = ctx.P := by
  unfold Spec.Blowfish.parray
  rw [h.hsub, List.take_left' h.hP]

theorem Holds.encrypt (h : Holds ctx sub s0 s1 s2 s3) (x : W32 × W32) :
    encryptWords ctx x = Spec.Blowfish.crypt (Spec.Blowfish.F sub) (Spec.Blowfish.parray sub) x := by
  rw [encryptWords_eq h.hP, h.F, h.parray]

theorem Holds.decrypt (h : Holds ctx sub s0 s1 s2 s3) (x : W32 × W32) :
    decryptWords ctx x
      = Spec.Blowfish.crypt (Spec.Blowfish.F sub) (Spec.Blowfish.parray sub).reverse x := by
  rw [decryptWords_eq h.hP, h.F, h.parray]

theorem set_append_right' {a b : List W32} {n i : Nat} (h : a.length = n) (x : W32) :
    (a ++ b).set (n + i) x = a ++ b.set i x := by
  rw [List.set_append_right _ _ (by omega), h, Nat.add_sub_cancel_left]

theorem Holds.initP (h : Holds ctx sub s0 s1 s2 s3) (d : W32 × W32) {n : Nat} (hn : n < 9) :
    Holds (Blowfish.initP (ctx, d) (2 * n)).1 (Spec.Blowfish.step (sub, d) n).1 s0 s1 s2 s3
    ∧ (Blowfish.initP (ctx, d) (2 * n)).2 = (Spec.Blowfish.step (sub, d) n).2 := by
  have he := h.encrypt d
  have hP := h.hP
  simp only [Blowfish.initP, Spec.Blowfish.step, ← he]
  refine ⟨⟨?_, h.hS, h.h0, h.h1, h.h2, h.h3, ?_⟩, trivial⟩
  · simp [h.hP]
  · rw [h.hsub, List.set_append_left _ _ (by omega), List.set_append_left _ _ (by simp; omega)]

theorem Holds.initS (h : Holds ctx sub s0 s1 s2 s3) (d : W32 × W32) {i m : Nat} (hi : i < 4) (hm : m < 128) :
    ∃ s0 s1 s2 s3,
      Holds (Blowfish.initS i (ctx, d) (2 * m)).1 (Spec.Blowfish.step (sub, d) (9 + 128 * i + m)).1 s0 s1 s2 s3
      ∧ (Blowfish.initS i (ctx, d) (2 * m)).2 = (Spec.Blowfish.step (sub, d) (9 + 128 * i + m)).2 := by
  have he := h.encrypt d
  obtain ⟨hP, hS, h0, h1, h2, h3, hsub⟩ := h
  simp only [Blowfish.initS, Spec.Blowfish.step, ← he]
  generalize encryptWords ctx d = y
  have : i = 0 ∨ i = 1 ∨ i = 2 ∨ i = 3 := by omega
  rcases this with rfl | rfl | rfl | rfl
  · refine ⟨(s0.set (2 * m) y.1).set (2 * m + 1) y.2, s1, s2, s3,
      ⟨hP, by rw [hS]; rfl, by simpa using h0, h1, h2, h3, ?_⟩, trivial⟩
    rw [hsub, show 2 * (9 + 128 * 0 + m) + 1 = 18 + (2 * m + 1) by omega,
      show 2 * (9 + 128 * 0 + m) = 18 + 2 * m by omega, set_append_right' hP, set_append_right' hP,
      List.set_append_left _ _ (by omega), List.set_append_left _ _ (by simp; omega)]
  · refine ⟨s0, (s1.set (2 * m) y.1).set (2 * m + 1) y.2, s2, s3,
      ⟨hP, by rw [hS]; rfl, h0, by simpa using h1, h2, h3, ?_⟩, trivial⟩
    rw [hsub, show 2 * (9 + 128 * 1 + m) + 1 = 18 + (256 + (2 * m + 1)) by omega,
      show 2 * (9 + 128 * 1 + m) = 18 + (256 + 2 * m) by omega, set_append_right' hP, set_append_right' hP,
      set_append_right' h0, set_append_right' h0,
      List.set_append_left _ _ (by omega), List.set_append_left _ _ (by simp; omega)]
  · refine ⟨s0, s1, (s2.set (2 * m) y.1).set (2 * m + 1) y.2, s3,
      ⟨hP, by rw [hS]; rfl, h0, h1, by simpa using h2, h3, ?_⟩, trivial⟩
    rw [hsub, show 2 * (9 + 128 * 2 + m) + 1 = 18 + (256 + (256 + (2 * m + 1))) by omega,
      show 2 * (9 + 128 * 2 + m) = 18 + (256 + (256 + 2 * m)) by omega, set_append_right' hP,
      set_append_right' hP, set_append_right' h0, set_append_right' h0, set_append_right' h1,
      set_append_right' h1,
      List.set_append_left _ _ (by omega), List.set_append_left _ _ (by simp; omega)]
  · refine ⟨s0, s1, s2, (s3.set (2 * m) y.1).set (2 * m + 1) y.2,
      ⟨hP, by rw [hS]; rfl, h0, h1, h2, by simpa using h3, ?_⟩, trivial⟩
    rw [hsub, show 2 * (9 + 128 * 3 + m) + 1 = 18 + (256 + (256 + (256 + (2 * m + 1)))) by omega,
      show 2 * (9 + 128 * 3 + m) = 18 + (256 + (256 + (256 + 2 * m))) by omega, set_append_right' hP,
      set_append_right' hP, set_append_right' h0, set_append_right' h0, set_append_right' h1,
      set_append_right' h1, set_append_right' h2, set_append_right' h2]

/-- The states of the two schedules. -/
def Sim (s : Ctx × (W32 × W32)) (t : List W32 × (W32 × W32)) : Prop :=
  (∃ s0 s1 s2 s3, Holds s.1 t.1 s0 s1 s2 s3) ∧ s.2 = t.2

theorem foldl_sim {α β ι κ : Type} (R : α → β → Prop) (f : α → ι → α) (g : β → κ → β) (u : Nat → ι) (v : Nat → κ) :
    ∀ (l : List Nat), (∀ i ∈ l, ∀ a b, R a b → R (f a (u i)) (g b (v i))) →
      ∀ a b, R a b → R ((l.map u).foldl f a) ((l.map v).foldl g b) := by
  intro l
  induction l with
  | nil => intro _ a b h; exact h
  | cons i l ih =>
    intro H a b h
    simp only [List.map_cons, List.foldl_cons]
    exact ih (fun j hj => H j (by simp [hj])) _ _ (H i (by simp) a b h)

theorem evens18 : evens 18 = (List.range 9).map fun n => 2 * n := by decide +kernel
theorem evens256 : evens 256 = (List.range 128).map fun n => 2 * n := by decide +kernel
theorem range521 : List.range 521 = (List.range 9).map (fun n => n)
    ++ ((List.range 128).map (fun m => 9 + 128 * 0 + m) ++ ((List.range 128).map (fun m => 9 + 128 * 1 + m)
    ++ ((List.range 128).map (fun m => 9 + 128 * 2 + m) ++ (List.range 128).map (fun m => 9 + 128 * 3 + m)))) := by
  decide +kernel

theorem sim_P {s t} (h : Sim s t) :
    Sim ((evens 18).foldl Blowfish.initP s) (((List.range 9).map fun n => n).foldl Spec.Blowfish.step t) := by
  rw [evens18]
  refine foldl_sim Sim Blowfish.initP Spec.Blowfish.step (fun n => 2 * n) (fun n => n) _ ?_ _ _ h
  rintro i hi ⟨c, d⟩ ⟨b, d'⟩ ⟨⟨s0, s1, s2, s3, h⟩, h'⟩
  simp only at h'
  subst h'
  have := h.initP d (n := i) (by simpa using hi)
  exact ⟨⟨s0, s1, s2, s3, this.1⟩, this.2⟩

theorem sim_S {s t} (h : Sim s t) {k : Nat} (hk : k < 4) :
    Sim ((evens 256).foldl (Blowfish.initS k) s)
      (((List.range 128).map fun m => 9 + 128 * k + m).foldl Spec.Blowfish.step t) := by
  rw [evens256]
  refine foldl_sim Sim (Blowfish.initS k) Spec.Blowfish.step (fun n => 2 * n) (fun m => 9 + 128 * k + m) _ ?_ _ _ h
  rintro i hi ⟨c, d⟩ ⟨b, d'⟩ ⟨⟨s0, s1, s2, s3, h⟩, h'⟩
  simp only at h'
  subst h'
  obtain ⟨s0, s1, s2, s3, this⟩ := h.initS d (i := k) (m := i) hk (by simpa using hi)
  exact ⟨⟨s0, s1, s2, s3, this.1⟩, this.2⟩

/-- The four bytes of the key that one word uses. -/
theorem keyData_eq {key : Bytes} (hk : 0 < key.length) (i : Nat) :
    keyData key 4 (0, (4 * i) % key.length)
      = (Spec.Blowfish.keyWord key i, (4 * (i + 1)) % key.length) := by
  have hj : ∀ a, (if a % key.length + 1 ≥ key.length then 0 else a % key.length + 1) = (a + 1) % key.length := by
    intro a
    have := Nat.mod_lt a hk
    by_cases h : a % key.length + 1 ≥ key.length
    · rw [if_pos h, Nat.add_mod, show a % key.length = key.length - 1 by omega]
      by_cases h1 : key.length = 1
      · rw [h1]
      · rw [Nat.mod_eq_of_lt (show 1 < key.length by omega), show key.length - 1 + 1 = key.length by omega,
          Nat.mod_self]
    · have h1 := Nat.add_mod a 1 key.length
      rw [Nat.mod_eq_of_lt (show 1 < key.length by omega),
        Nat.mod_eq_of_lt (show a % key.length + 1 < key.length by omega)] at h1
      rw [if_neg h, h1]
  simp only [keyData, hj]
  refine Prod.ext ?_ rfl
  simp only [Spec.Blowfish.keyWord, List.range, List.range.loop, List.map_cons, List.map_nil, byteAt,
    Nat.add_zero]
  have hshift : ∀ (x : W32) (c : Byte), x.toNat < 2 ^ 24 →
      ((x <<< 8) ||| c.setWidth 32).toNat = x.toNat * 256 + c.toNat := by
    intro x c hx
    have hc := c.isLt
    rw [BitVec.toNat_or, BitVec.toNat_shiftLeft, BitVec.toNat_setWidth, Nat.mod_eq_of_lt (by omega),
      Nat.shiftLeft_eq, Nat.mod_eq_of_lt (by omega), ← Nat.shiftLeft_eq,
      Nat.shiftLeft_add_eq_or_of_lt (by omega), Nat.shiftLeft_eq]
  generalize key.getD (4 * i % key.length) 0 = c0
  generalize key.getD ((4 * i + 1) % key.length) 0 = c1
  rw [show 4 * i + 1 + 1 = 4 * i + 2 by omega, show 4 * i + 2 + 1 = 4 * i + 3 by omega]
  generalize key.getD ((4 * i + 2) % key.length) 0 = c2
  generalize key.getD ((4 * i + 3) % key.length) 0 = c3
  have b0 := c0.isLt
  have b1 := c1.isLt
  have b2 := c2.isLt
  have b3 := c3.isLt
  have e0 := hshift 0 c0 (by simp)
  have e1 := hshift _ c1 (by rw [e0]; simp; omega)
  have e2 := hshift _ c2 (by rw [e1, e0]; simp; omega)
  have e3 := hshift _ c3 (by rw [e2, e1, e0]; simp; omega)
  apply BitVec.eq_of_toNat_eq
  rw [e3, e2, e1, e0, BitVec.toNat_ofNat]
  simp only [beNat, List.length_cons, List.length_nil]
  simp
  omega

theorem xorKey_eq {key : Bytes} (hk : 0 < key.length) : ∀ (ps : List W32) (i : Nat),
    xorKey key ps ((4 * i) % key.length) = ps.mapIdx fun k p => p ^^^ Spec.Blowfish.keyWord key (i + k) := by
  intro ps
  induction ps with
  | nil => intro i; rfl
  | cons p ps ih =>
    intro i
    simp only [xorKey, keyData_eq hk, List.mapIdx_cons, ih, Nat.add_zero]
    refine congrArg (List.cons _) ?_
    apply List.ext_getElem?
    intro k
    simp only [List.getElem?_mapIdx]
    rw [show i + 1 + k = i + (k + 1) by omega]

theorem orig_holds : Holds ⟨ORIG_P, ORIG_S⟩ tables ORIG_S0 ORIG_S1 ORIG_S2 ORIG_S3 where
  hP := by decide +kernel
  hS := rfl
  h0 := by decide +kernel
  h1 := by decide +kernel
  h2 := by decide +kernel
  h3 := by decide +kernel
  hsub := by decide +kernel

set_option maxRecDepth 10000 in
theorem initial_eq {key : Bytes} (hk : 0 < key.length) :
    Spec.Blowfish.initial key = xorKey key ORIG_P 0 ++ (ORIG_S0 ++ (ORIG_S1 ++ (ORIG_S2 ++ ORIG_S3))) := by
  have h0 := xorKey_eq hk ORIG_P 0
  rw [Nat.mul_zero, Nat.zero_mod] at h0
  have hP := orig_holds.hP
  have hT := orig_holds.hsub
  simp only at hP hT
  rw [h0]
  generalize ORIG_S0 ++ (ORIG_S1 ++ (ORIG_S2 ++ ORIG_S3)) = Q at hT ⊢
  apply List.ext_getElem?
  intro i
  have hlen := tables_length
  have hQ : Q.length = 1024 := by rw [hT, List.length_append, hP] at hlen; omega
  unfold Spec.Blowfish.initial
  rw [List.getElem?_map]
  by_cases hi : i < 1042
  · rw [List.getElem?_range hi, Option.map_some, piWord_eq hi, hT]
    by_cases h18 : i < 18
    · rw [if_pos h18, getD_append_left' (by omega),
        List.getElem?_append_left (by rw [List.length_mapIdx, hP]; exact h18),
        List.getElem?_mapIdx, List.getD_eq_getElem?_getD, List.getElem?_eq_getElem (by omega)]
      simp only [Option.getD_some, Option.map_some, Nat.zero_add]
    · rw [if_neg h18, List.getElem?_append_right (by rw [List.length_mapIdx, hP]; omega),
        List.getD_eq_getElem?_getD, List.getElem?_append_right (by omega), List.length_mapIdx,
        List.getElem?_eq_getElem (by omega)]
      simp only [Option.getD_some]
  · rw [List.getElem?_eq_none (by rw [List.length_range]; omega),
      List.getElem?_eq_none (by rw [List.length_append, List.length_mapIdx, hP, hQ]; omega)]
    rfl

theorem expand_sim {s : Ctx × (W32 × W32)} {t : List W32 × (W32 × W32)} (h : Sim s t) :
    Sim ((List.range 4).foldl (fun s i => (evens 256).foldl (Blowfish.initS i) s) ((evens 18).foldl Blowfish.initP s))
      ((List.range 521).foldl Spec.Blowfish.step t) := by
  have := sim_S (sim_S (sim_S (sim_S (sim_P h) (k := 0) (by omega)) (k := 1) (by omega)) (k := 2) (by omega))
    (k := 3) (by omega)
  rw [range521, show List.range 4 = [0, 1, 2, 3] by rfl]
  simp only [List.foldl_append, List.foldl_cons, List.foldl_nil]
  exact this

set_option maxRecDepth 10000 in
theorem initial_sim {key : Bytes} (hk : 0 < key.length) :
    Sim (⟨xorKey key ORIG_P 0, ORIG_S⟩, (0, 0)) (Spec.Blowfish.initial key, (0, 0)) := by
  refine ⟨⟨ORIG_S0, ORIG_S1, ORIG_S2, ORIG_S3, ?_⟩, rfl⟩
  refine ⟨?_, rfl, orig_holds.h0, orig_holds.h1, orig_holds.h2, orig_holds.h3, initial_eq hk⟩
  have h0 := xorKey_eq hk ORIG_P 0
  rw [Nat.mul_zero, Nat.zero_mod] at h0
  have h1 := orig_holds.hP
  simp only at h1 ⊢
  rw [h0, List.length_mapIdx, h1]

theorem init_holds {key : Bytes} (hk : 0 < key.length) :
    ∃ s0 s1 s2 s3, Holds (init key) (Spec.Blowfish.schedule key) s0 s1 s2 s3 := by
  have h := initial_sim hk
  unfold init Spec.Blowfish.schedule Spec.Blowfish.expand
  generalize (⟨xorKey key ORIG_P 0, ORIG_S⟩ : Ctx) = ctx at h ⊢
  generalize Spec.Blowfish.initial key = sub at h ⊢
  exact (expand_sim h).1

theorem load_eq {b : Bytes} (h : 4 ≤ b.length) : load b = BitVec.ofNat 32 (beNat (b.take 4)) := by
  match b, h with
  | a0 :: a1 :: a2 :: a3 :: t, _ =>
    have e : load (a0 :: a1 :: a2 :: a3 :: t) = le32or [a3, a2, a1, a0] := by
      simp only [load, le32or, byteAt, List.getD_cons_zero, List.getD_cons_succ]
      generalize a0.setWidth 32 <<< 24 = x0
      generalize a1.setWidth 32 <<< 16 = x1
      generalize a2.setWidth 32 <<< 8 = x2
      rw [BitVec.or_comm (x0 ||| x1 ||| x2), BitVec.or_comm (x0 ||| x1), BitVec.or_comm x0]
      simp only [BitVec.or_assoc]
    rw [e, le32or_eq (by simp)]
    congr 1
    simp [leNat, beNat]
    omega

theorem store_eq (x : W32) : store x = natToBE 4 x.toNat := by
  have h := x.isLt
  simp only [store, natToBE]
  congr 1
  · apply BitVec.eq_of_toNat_eq
    simp [Nat.shiftRight_eq_div_pow]
  congr 1
  · apply BitVec.eq_of_toNat_eq
    simp [Nat.shiftRight_eq_div_pow]
  congr 1
  · apply BitVec.eq_of_toNat_eq
    simp [Nat.shiftRight_eq_div_pow]
  congr 1
  · apply BitVec.eq_of_toNat_eq
    simp

theorem stub_eq {b : Bytes} (hb : b.length = 8) :
    (load b, load (b.drop 4)) = Spec.Blowfish.split b := by
  unfold Spec.Blowfish.split
  rw [load_eq (by omega), load_eq (by rw [List.length_drop]; omega),
    List.take_of_length_le (l := b.drop 4) (by rw [List.length_drop]; omega)]

theorem enc_stub {key b : Bytes} (hk : 0 < key.length) (hb : b.length = 8) :
    encryptStub (init key) b = some (Spec.Blowfish.encrypt key b) := by
  obtain ⟨s0, s1, s2, s3, h⟩ := init_holds hk
  simp only [encryptStub, stub_eq hb, h.encrypt, store_eq]
  rfl

theorem dec_stub {key b : Bytes} (hk : 0 < key.length) (hb : b.length = 8) :
    decryptStub (init key) b = some (Spec.Blowfish.decrypt key b) := by
  obtain ⟨s0, s1, s2, s3, h⟩ := init_holds hk
  simp only [decryptStub, stub_eq hb, h.decrypt, store_eq]
  rfl

theorem join_length (x : W32 × W32) : (Spec.Blowfish.join x).length = 8 := by
  simp [Spec.Blowfish.join, natToBE_length]

theorem join_split {b : Bytes} (hb : b.length = 8) :
    Spec.Blowfish.join (Spec.Blowfish.split b) = b := by
  have h1 := natToBE_beNat (b.take 4)
  have h2 := natToBE_beNat (b.drop 4)
  have l1 := beNat_lt (b.take 4)
  have l2 := beNat_lt (b.drop 4)
  rw [List.length_take, Nat.min_eq_left (by omega)] at h1 l1
  rw [List.length_drop, hb] at h2 l2
  simp only [Spec.Blowfish.join, Spec.Blowfish.split, BitVec.toNat_ofNat]
  rw [Nat.mod_eq_of_lt (by simpa using l1), Nat.mod_eq_of_lt (by simpa using l2), h1, h2,
    List.take_append_drop]

theorem split_join (x : W32 × W32) : Spec.Blowfish.split (Spec.Blowfish.join x) = x := by
  have h1 := beNat_natToBE 4 x.1.toNat
  have h2 := beNat_natToBE 4 x.2.toNat
  have l1 := x.1.isLt
  have l2 := x.2.isLt
  unfold Spec.Blowfish.split Spec.Blowfish.join
  rw [List.take_left' (natToBE_length _ _), List.drop_left' (natToBE_length _ _), h1, h2,
    Nat.mod_eq_of_lt (by omega), Nat.mod_eq_of_lt (by omega)]
  simp

theorem schedule_parray_length {key : Bytes} (hk : 0 < key.length) :
    (Spec.Blowfish.parray (Spec.Blowfish.schedule key)).length = 18 := by
  obtain ⟨s0, s1, s2, s3, h⟩ := init_holds hk
  rw [h.parray, h.hP]

end Verif.Blowfish

namespace Verif.Spec.Blowfish

theorem encrypt_length (key b : Bytes) : (encrypt key b).length = 8 := Verif.Blowfish.join_length _
theorem decrypt_length (key b : Bytes) : (decrypt key b).length = 8 := Verif.Blowfish.join_length _

theorem decrypt_encrypt {key : Bytes} (hk : 0 < key.length) {b : Bytes} (hb : b.length = 8) :
    decrypt key (encrypt key b) = b := by
  unfold decrypt encrypt
  rw [Verif.Blowfish.split_join, Verif.Blowfish.crypt_crypt _ (Verif.Blowfish.schedule_parray_length hk),
    Verif.Blowfish.join_split hb]

theorem encrypt_decrypt {key : Bytes} (hk : 0 < key.length) {b : Bytes} (hb : b.length = 8) :
    encrypt key (decrypt key b) = b := by
  have h := Verif.Blowfish.schedule_parray_length hk
  have := Verif.Blowfish.crypt_crypt (F (schedule key)) (P := (parray (schedule key)).reverse) (by simpa using h)
    (split b)
  rw [List.reverse_reverse] at this
  unfold decrypt encrypt
  rw [Verif.Blowfish.split_join, this, Verif.Blowfish.join_split hb]

end Verif.Spec.Blowfish
