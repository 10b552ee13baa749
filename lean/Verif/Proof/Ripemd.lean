import Verif.Model.Ripemd
import Verif.Spec.Ripemd
import Verif.Proof.SHA
namespace Verif

/-- The sixteen words of a block, little-endian. -/
theorem block_wordsLE {b : Bytes} (hb : b.length = 64) :
    ∀ t < 16, (wordsOfMem 4 32 b).getD t 0 = Spec.Ripemd.wordLE b t := by
  intro t ht
  rw [wordsOfMem, List.getD_eq_getElem?_getD, List.getElem?_map,
    chunks_getElem? (by decide) b t (by omega), Nat.mul_comm t 4]
  rfl

/-- After `j` steps the variables hold the specification's values, rotated by `j` places. -/
def RmdRel (j : Nat) (r : RmdVars) (v : Spec.H5) : Prop :=
  let p : Fin 5 := ⟨(4 * j) % 5, Nat.mod_lt _ (by decide)⟩
  r p = v.a ∧ r (p + 1) = v.b ∧ r (p + 2) = v.c ∧ r (p + 3) = v.d ∧ r (p + 4) = v.e

/-- The call number `j` is the one the specification prescribes. -/
structure RmdCall.Is (k : RmdCall) (j : Nat)
    (fn : BitVec 32 → BitVec 32 → BitVec 32 → BitVec 32) (const : BitVec 32) (w sh : Nat) : Prop where
  a : k.a = ⟨(4 * j) % 5, Nat.mod_lt _ (by decide)⟩
  b : k.b = k.a + 1
  c : k.c = k.a + 2
  d : k.d = k.a + 3
  e : k.e = k.a + 4
  term : ∀ x y z m, k.m.term x y z m = fn x y z + m + const
  x : k.x = w
  s : k.s = sh

theorem fin5 : ∀ p : Fin 5, p + 1 ≠ p ∧ p + 2 ≠ p ∧ p + 3 ≠ p ∧ p + 4 ≠ p ∧ p + 1 ≠ p + 2 ∧
    p + 3 ≠ p + 2 ∧ p + 4 ≠ p + 2 ∧ p + 4 + 1 = p ∧ p + 4 + 2 = p + 1 ∧ p + 4 + 3 = p + 2 ∧
    p + 4 + 4 = p + 3 := by decide

theorem fin5_next (j : Nat) : (⟨(4 * (j + 1)) % 5, Nat.mod_lt _ (by decide)⟩ : Fin 5)
    = ⟨(4 * j) % 5, Nat.mod_lt _ (by decide)⟩ + 4 := by
  apply Fin.ext
  rw [Fin.val_add]
  show 4 * (j + 1) % 5 = (4 * j % 5 + 4 % 5) % 5
  omega

theorem rmdExec_rel {data : List W32} {X : Nat → W32} {r : RmdVars} {v : Spec.H5} {j : Nat}
    {k : RmdCall} {fn c w s} (hr : RmdRel j r v) (hk : k.Is j fn c w s)
    (hx : data.getD w 0 = X w) (hs : s < 32) :
    RmdRel (j + 1) (rmdExec data r k) (Spec.Ripemd.step X fn c w s v) := by
  obtain ⟨h1, h2, h3, h4, h5⟩ := hr
  rw [← hk.a] at h1 h2 h3 h4 h5
  obtain ⟨n1, n2, n3, n4, n5, n6, n7, e1, e2, e3, e4⟩ := fin5 k.a
  simp only [RmdRel]
  rw [fin5_next, ← hk.a]
  simp only [rmdExec, hk.b, hk.c, hk.d, hk.e, hk.x, hk.s, hx, hk.term, RmdVars.set, e1, e2, e3, e4,
    if_true, if_neg n1, if_neg n2, if_neg n3, if_neg n4, if_neg n5, if_neg n6, if_neg n7,
    if_neg (Ne.symm n2), h1, h2, h3, h4, h5, Spec.Ripemd.step, rol32_eq _ hs,
    rol32_eq _ (show 10 < 32 by decide)]
  refine ⟨trivial, ?_, trivial, trivial, trivial⟩
  congr 2
  ac_rfl

theorem rmdFold_rel {data : List W32} {X : Nat → W32} {calls : List RmdCall} {r : RmdVars}
    {v : Spec.H5} {fn : Nat → BitVec 32 → BitVec 32 → BitVec 32 → BitVec 32} {c : Nat → BitVec 32}
    {w s : Nat → Nat} (hr : RmdRel 0 r v) (n : Nat) (hn : n = calls.length)
    (hk : ∀ j (h : j < calls.length), calls[j].Is j (fn j) (c j) (w j) (s j))
    (hx : ∀ j < calls.length, data.getD (w j) 0 = X (w j)) (hs : ∀ j < calls.length, s j < 32) :
    RmdRel n (calls.foldl (rmdExec data) r)
      ((List.range n).foldl (fun v j => Spec.Ripemd.step X (fn j) (c j) (w j) (s j) v) v) := by
  have key : ∀ i ≤ calls.length, RmdRel i ((calls.take i).foldl (rmdExec data) r)
      ((List.range i).foldl (fun v j => Spec.Ripemd.step X (fn j) (c j) (w j) (s j) v) v) := by
    intro i
    induction i with
    | zero => intro _; simpa using hr
    | succ i ih =>
      intro hi
      rw [List.take_succ_eq_append_getElem (by omega), List.foldl_append, List.range_succ,
        List.foldl_append]
      exact rmdExec_rel (ih (by omega)) (hk i (by omega)) (hx i (by omega)) (hs i (by omega))
  have := key n (by omega)
  rw [hn, List.take_length] at this
  rw [hn]
  exact this

/-- The decidable part of `RmdCall.Is`. -/
def rmdCheck (calls : List RmdCall) (w s : Nat → Nat) (ms : List RmdMacro) : Bool :=
  (List.range 80).all fun j =>
    match calls[j]? with
    | none => false
    | some k => k.a.val = (4 * j) % 5 ∧ k.b = k.a + 1 ∧ k.c = k.a + 2 ∧ k.d = k.a + 3 ∧ k.e = k.a + 4
        ∧ k.x = w j ∧ k.s = s j ∧ s j < 32 ∧ w j < 16 ∧ some k.m = ms[j / 16]?

theorem rmdCheck_left : rmdCheck rmdLeft Spec.Ripemd.r
    (fun j => Spec.Ripemd.shift (j / 16) (Spec.Ripemd.r j)) [.FF, .GG, .HH, .II, .JJ] = true := by
  decide +kernel
theorem rmdCheck_right : rmdCheck rmdRight Spec.Ripemd.r'
    (fun j => Spec.Ripemd.shift (j / 16) (Spec.Ripemd.r' j)) [.JJJ, .III, .HHH, .GGG, .FFF] = true := by
  decide +kernel

theorem rmdCheck_is {calls : List RmdCall} {w s : Nat → Nat} {ms : List RmdMacro}
    (h : rmdCheck calls w s ms = true) {j : Nat} (hj : j < 80) :
    ∃ k, calls[j]? = some k ∧ k.a = ⟨(4 * j) % 5, Nat.mod_lt _ (by decide)⟩ ∧ k.b = k.a + 1 ∧
      k.c = k.a + 2 ∧ k.d = k.a + 3 ∧ k.e = k.a + 4 ∧ k.x = w j ∧ k.s = s j ∧ s j < 32 ∧ w j < 16 ∧
      some k.m = ms[j / 16]? := by
  rw [rmdCheck, List.all_eq_true] at h
  have := h j (List.mem_range.2 hj)
  cases hk : calls[j]? with
  | none => simp [hk] at this
  | some k =>
    simp only [hk, decide_eq_true_eq] at this
    exact ⟨k, rfl, Fin.ext this.1, this.2⟩

theorem div16_cases {j : Nat} (h : j < 80) : j / 16 = 0 ∨ j / 16 = 1 ∨ j / 16 = 2 ∨ j / 16 = 3 ∨
    j / 16 = 4 := by omega

theorem rmdK : Spec.Ripemd.K 0 = 0 ∧ Spec.Ripemd.K 1 = 0x5a827999 ∧ Spec.Ripemd.K 2 = 0x6ed9eba1 ∧
    Spec.Ripemd.K 3 = 0x8f1bbcdc ∧ Spec.Ripemd.K 4 = 0xa953fd4e := by decide +kernel
theorem rmdK' : Spec.Ripemd.K' 0 = 0x50a28be6 ∧ Spec.Ripemd.K' 1 = 0x5c4dd124 ∧
    Spec.Ripemd.K' 2 = 0x6d703ef3 ∧ Spec.Ripemd.K' 3 = 0x7a6d76e9 ∧ Spec.Ripemd.K' 4 = 0 := by
  decide +kernel

theorem rmdLeft_is (j : Nat) (h : j < rmdLeft.length) :
    rmdLeft[j].Is j (Spec.Ripemd.f (j / 16)) (Spec.Ripemd.K (j / 16)) (Spec.Ripemd.r j)
      (Spec.Ripemd.shift (j / 16) (Spec.Ripemd.r j)) := by
  obtain ⟨k, hk, h1, h2, h3, h4, h5, h6, h7, _, _, hm⟩ := rmdCheck_is rmdCheck_left (j := j) h
  have : rmdLeft[j] = k := by rw [List.getElem?_eq_getElem h] at hk; exact Option.some.inj hk
  rw [this]
  obtain ⟨k0, k1, k2, k3, k4⟩ := rmdK
  refine ⟨h1, h2, h3, h4, h5, ?_, h6, h7⟩
  intro x y z m
  rcases div16_cases (j := j) h with e | e | e | e | e <;> rw [e] at hm ⊢ <;>
    simp only [List.getElem?_cons_zero, List.getElem?_cons_succ, Option.some.injEq] at hm <;>
    rw [hm] <;>
    simp only [RmdMacro.term, Spec.Ripemd.f, k0, k1, k2, k3, k4, BitVec.add_zero, rmdF, rmdG, rmdH,
      rmdI, rmdJ]
  exact (BitVec.add_zero _).symm

theorem rmdRight_is (j : Nat) (h : j < rmdRight.length) :
    rmdRight[j].Is j (Spec.Ripemd.f (4 - j / 16)) (Spec.Ripemd.K' (j / 16)) (Spec.Ripemd.r' j)
      (Spec.Ripemd.shift (j / 16) (Spec.Ripemd.r' j)) := by
  obtain ⟨k, hk, h1, h2, h3, h4, h5, h6, h7, _, _, hm⟩ := rmdCheck_is rmdCheck_right (j := j) h
  have : rmdRight[j] = k := by rw [List.getElem?_eq_getElem h] at hk; exact Option.some.inj hk
  rw [this]
  obtain ⟨k0, k1, k2, k3, k4⟩ := rmdK'
  refine ⟨h1, h2, h3, h4, h5, ?_, h6, h7⟩
  intro x y z m
  rcases div16_cases (j := j) h with e | e | e | e | e <;> rw [e] at hm ⊢ <;>
    simp only [List.getElem?_cons_zero, List.getElem?_cons_succ, Option.some.injEq] at hm <;>
    rw [hm] <;>
    simp only [RmdMacro.term, Spec.Ripemd.f, k0, k1, k2, k3, k4, BitVec.add_zero, rmdF, rmdG, rmdH,
      rmdI, rmdJ, Nat.sub_zero, Nat.reduceSub]
  exact (BitVec.add_zero _).symm

theorem rmdCompress_eq {b : Bytes} (hb : b.length = 64) (s : Sha1State) :
    (rmdCompress s b).spec = Spec.Ripemd.compress s.spec b := by
  have hd := block_wordsLE hb
  have h0 : RmdRel 0 (rmdVars s) s.spec := ⟨rfl, rfl, rfl, rfl, rfl⟩
  have hl := rmdFold_rel (data := wordsOfMem 4 32 b) (X := Spec.Ripemd.wordLE b) (calls := rmdLeft)
    h0 80 rfl (fn := fun j => Spec.Ripemd.f (j / 16)) (c := fun j => Spec.Ripemd.K (j / 16)) rmdLeft_is
    (fun j hj => hd _ (by obtain ⟨_, _, _, _, _, _, _, _, _, _, h, _⟩ := rmdCheck_is rmdCheck_left hj; exact h))
    (fun j hj => by obtain ⟨_, _, _, _, _, _, _, _, _, h, _⟩ := rmdCheck_is rmdCheck_left hj; exact h)
  have hr := rmdFold_rel (data := wordsOfMem 4 32 b) (X := Spec.Ripemd.wordLE b) (calls := rmdRight)
    h0 80 rfl (fn := fun j => Spec.Ripemd.f (4 - j / 16)) (c := fun j => Spec.Ripemd.K' (j / 16)) rmdRight_is
    (fun j hj => hd _ (by obtain ⟨_, _, _, _, _, _, _, _, _, _, h, _⟩ := rmdCheck_is rmdCheck_right hj; exact h))
    (fun j hj => by obtain ⟨_, _, _, _, _, _, _, _, _, h, _⟩ := rmdCheck_is rmdCheck_right hj; exact h)
  have hl' : (fun v j => Spec.Ripemd.step (Spec.Ripemd.wordLE b) (Spec.Ripemd.f (j / 16))
      (Spec.Ripemd.K (j / 16)) (Spec.Ripemd.r j) (Spec.Ripemd.shift (j / 16) (Spec.Ripemd.r j)) v)
      = Spec.Ripemd.left (Spec.Ripemd.wordLE b) := rfl
  have hr' : (fun v j => Spec.Ripemd.step (Spec.Ripemd.wordLE b) (Spec.Ripemd.f (4 - j / 16))
      (Spec.Ripemd.K' (j / 16)) (Spec.Ripemd.r' j) (Spec.Ripemd.shift (j / 16) (Spec.Ripemd.r' j)) v)
      = Spec.Ripemd.right (Spec.Ripemd.wordLE b) := rfl
  rw [hl'] at hl
  rw [hr'] at hr
  simp only [rmdCompress, Spec.Ripemd.compress]
  generalize rmdLeft.foldl (rmdExec (wordsOfMem 4 32 b)) (rmdVars s) = l at hl
  generalize rmdRight.foldl (rmdExec (wordsOfMem 4 32 b)) (rmdVars s) = r at hr
  obtain ⟨l0, l1, l2, l3, l4⟩ := hl
  obtain ⟨r0, r1, r2, r3, r4⟩ := hr
  simp only [Sha1State.spec] at *
  rw [← l0, ← l1, ← l2, ← l3, ← l4, ← r0, ← r1, ← r2, ← r3, ← r4]
  congr 1
  show r 3 + (l 2 + s.b) = s.b + l 2 + r 3
  ac_rfl

structure RmdRep (m : Bytes) (c : Sha1Ctx) : Prop where
  buf : MDRep 64 rmdCompress (rmdInit []).buf.h m c.buf
  len : lenVal 32 c.hi c.lo = 8 * m.length % 2 ^ 64

theorem memOfWords_len (hi lo : W32) (x : Nat) (h : lenVal 32 hi lo = x % 2 ^ 64) :
    memOfWords 4 [lo, hi] = natToLE 8 x := by
  have e : natToLE 8 x = natToLE 8 (x % 2 ^ 64) := by
    have := natToBE_mod 8 x
    rw [← natToLE_reverse, ← natToLE_reverse] at this
    exact (List.reverse_inj.1 this).symm
  rw [e, ← h, show (8 : Nat) = 4 + 4 by rfl, natToLE_append, lenVal]
  have hl := lo.isLt
  have e1 : (hi.toNat * 2 ^ 32 + lo.toNat) / 256 ^ 4 = hi.toNat := by omega
  have e2 : natToLE 4 (hi.toNat * 2 ^ 32 + lo.toNat) = natToLE 4 lo.toNat := by
    have h1 := natToBE_mod 4 (hi.toNat * 2 ^ 32 + lo.toNat)
    rw [← natToLE_reverse, ← natToLE_reverse] at h1
    rw [← List.reverse_inj.1 h1]
    congr 1
    omega
  rw [e1, e2]
  simp [memOfWords]

theorem rmd_spec : StubSpec RmdRep rmdAdd rmdFinish Spec.RIPEMD160 where
  update m c d hr hd := by
    obtain ⟨b, hb, rb⟩ := mdAdd_rep (by decide) (via := true) hr.buf d
    refine ⟨_, by simp only [rmdAdd, hb]; rfl, rb, ?_⟩
    have := lenAdd_val (w := 32) (.inl rfl) c.hi c.lo d.length (by unfold maxString at hd; omega)
    simp only [this, hr.len, List.length_append]
    omega
  final m c hr := by
    have hlen := memOfWords_len c.hi c.lo _ hr.len
    obtain ⟨b, hb, rb⟩ := mdFinish_rep (l := 8) (by decide) hr.buf (len := natToLE 8 (8 * m.length))
      (by simp)
    have e : b.h.spec = Spec.merkleDamgard 64 Spec.Ripemd.compress Spec.sha1IV
        (Spec.mdPad 64 m (natToLE 8 (8 * m.length))) := by
      rw [rb, merkleDamgard_map (by decide) (fun s b h => rmdCompress_eq h s) _ _
        (mdPad_dvd (by decide) _ _)]
      rfl
    have e' : Spec.RIPEMD160 m = memOfWords 4 b.h.words := by
      simp only [Spec.RIPEMD160, ← e]
      rfl
    exact ⟨{ c with buf := b }, by rw [e']; simp only [rmdFinish, hlen, hb]; rfl⟩

theorem rmdRep_init {buf : Bytes} (h : buf.length = 64) : RmdRep [] (rmdInit buf) :=
  ⟨mdRep_init (by decide) _ _ h, by simp [rmdInit, lenVal]⟩

end Verif
