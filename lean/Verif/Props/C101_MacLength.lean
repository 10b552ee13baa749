import Verif.Spec.MacLength
import Verif.Props.C14_Entries
/-
C101: CBC-MACs and the length of messages.
-/
namespace Verif

open Spec (macValue cbcMac blockAt cbcInput ChainCollision extended MakesMac ivOf IVOk PadOk padMessage Splits
  cmacLast)

variable {E : Bytes → Bytes} {n : Nat}

/-! ### The chain -/

theorem cbcMac_fold {iv m : Bytes} : cbcMac E n iv m = cbcFold E iv (chunks n m) := by
  rw [Spec.cbcMac, cbcEnc_getLastD]

theorem cbcMac_append (hn : 0 < n) {iv a l : Bytes} (ha : n ∣ a.length) :
    cbcMac E n iv (a ++ l) = cbcMac E n (cbcMac E n iv a) l := by
  simp only [cbcMac_fold]
  rw [chunks_append_dvd hn _ _ ha, cbcFold, List.foldl_append]
  rfl

theorem cbcMac_block (hn : 0 < n) {iv b : Bytes} (hb : b.length = n) :
    cbcMac E n iv b = E (xorb b iv) := by
  rw [cbcMac_fold, ← List.append_nil b, chunks_append hn hb, chunks_nil, List.append_nil]
  rfl

theorem cbcMac_nil {iv : Bytes} : cbcMac E n iv [] = iv := by rw [cbcMac_fold, chunks_nil]; rfl

theorem xorb_inj_right {a b c : Bytes} (ha : a.length = c.length) (hb : b.length = c.length)
    (h : xorb a c = xorb b c) : a = b := by
  rw [← xorb_xorb_cancel (Nat.le_of_eq ha), h, xorb_xorb_cancel (Nat.le_of_eq hb)]

theorem xorb_inj_left {a b c : Bytes} (ha : a.length = c.length) (hb : b.length = c.length)
    (h : xorb c a = xorb c b) : a = b := by
  rw [xorb_comm c, xorb_comm c] at h
  exact xorb_inj_right ha hb h

/-! ### Padding -/

theorem padMessage_append (hn : 0 < n) {pad : Bytes → Bytes} {a x : Bytes} (ha : n ∣ a.length) :
    padMessage n pad (a ++ x) = a ++ padMessage n pad x := by
  obtain ⟨k, hk⟩ := ha
  have e : (a ++ x).length / n * n = a.length + x.length / n * n := by
    rw [List.length_append, hk, Nat.mul_add_div hn, Nat.add_mul, Nat.mul_comm k]
  unfold Spec.padMessage
  rw [e, List.take_length_add_append, List.drop_length_add_append, List.append_assoc]

theorem padOk_append (hn : 0 < n) {pad : Option PadScheme} {padf : Bytes → Bytes} (hp : PadOk n pad padf)
    {a x : Bytes} (ha : n ∣ a.length) : padf (a ++ x) = a ++ padf x := by
  cases hp with
  | none => rfl
  | length _ => exact padMessage_append hn ha
  | _8000 => exact padMessage_append hn ha

theorem padMessage_inj (hn : 0 < n) {p : PadScheme} {pad : Bytes → Bytes} (h : p.Computes n pad) {m m' : Bytes}
    (he : padMessage n pad m = padMessage n pad m') : m = m' := by
  have hlen : m.length / n * n = m'.length / n * n := by
    have := congrArg List.length he
    rw [padMessage_length hn fun x hx => h.pad_len hx, padMessage_length hn fun x hx => h.pad_len hx] at this
    have h1 := Nat.eq_of_mul_eq_mul_right hn this
    have : m.length / n = m'.length / n := by omega
    rw [this]
  have hl : ∀ m : Bytes, (m.take (m.length / n * n)).length = m.length / n * n := fun m => by
    rw [List.length_take]; exact Nat.min_eq_left (Nat.div_mul_le_self _ _)
  have hs : ∀ m : Bytes, (m.drop (m.length / n * n)).length < n := fun m => by
    have h1 := Nat.div_add_mod m.length n
    have h2 := Nat.mod_lt m.length hn
    rw [Nat.mul_comm] at h1
    rw [List.length_drop]; omega
  obtain ⟨e1, e2⟩ := List.append_inj he (by rw [hl, hl, hlen])
  have e3 := congrArg p.strip e2
  rw [h.strip_pad (hs m), h.strip_pad (hs m')] at e3
  have e4 : m.drop (m.length / n * n) = m'.drop (m'.length / n * n) := by
    rw [← h.pad_take (x := m.drop (m.length / n * n)), e2, Except.ok.inj e3, h.pad_take]
  rw [← List.take_append_drop (m.length / n * n) m, e1, e4, List.take_append_drop]

theorem padOk_inj (hn : 0 < n) {pad : Option PadScheme} {padf : Bytes → Bytes} (hp : PadOk n pad padf)
    {m m' : Bytes} (he : padf m = padf m') : m = m' := by
  cases hp with
  | none => exact he
  | length h => exact padMessage_inj hn (LibraryPadding.computes hn (.inl ⟨rfl, h, rfl⟩)) he
  | _8000 => exact padMessage_inj hn (LibraryPadding.computes hn (.inr ⟨rfl, rfl⟩)) he

/-! ### Messages of different lengths: a tag can be forged -/

theorem macValue_ok {padf : Bytes → Bytes} {iv : Option Bytes} {m T : Bytes}
    (h : macValue E n padf iv m = .ok T) : n ∣ (padf m).length ∧ T = cbcMac E n (ivOf n iv) (padf m) := by
  unfold Spec.macValue at h
  split at h
  · next hd => exact ⟨hd, (Except.ok.inj h).symm⟩
  · cases h

theorem macValue_extended (hn : 0 < n) (hE : ∀ b : Bytes, b.length = n → (E b).length = n)
    {pad : Option PadScheme} {padf : Bytes → Bytes} (hp : PadOk n pad padf) {iv : Option Bytes} (hi : IVOk n iv)
    {m T b r : Bytes} (hT : macValue E n padf iv m = .ok T) (hb : b.length = n) :
    macValue E n padf iv (extended (ivOf n iv) T (padf m) b r) = macValue E n padf iv (b ++ r) := by
  obtain ⟨hd, hT⟩ := macValue_ok hT
  have hil := ivOf_length hi
  have hTl : T.length = n := by rw [hT]; exact cbcMac_length hn hE hil hd
  have hxl : (xorb (xorb b (ivOf n iv)) T).length = n := by simp [hb, hil, hTl]
  have e1 : padf (extended (ivOf n iv) T (padf m) b r)
      = padf m ++ (xorb (xorb b (ivOf n iv)) T ++ padf r) := by
    unfold extended
    rw [List.append_assoc, padOk_append hn hp hd, padOk_append hn hp (by rw [hxl])]
  have e2 : padf (b ++ r) = b ++ padf r := padOk_append hn hp (by rw [hb])
  unfold Spec.macValue
  rw [e1, e2]
  have hiff : n ∣ (padf m ++ (xorb (xorb b (ivOf n iv)) T ++ padf r)).length ↔ n ∣ (b ++ padf r).length := by
    simp only [List.length_append, hxl, hb]
    exact (Nat.dvd_add_right hd)
  have hx : xorb (xorb (xorb b (ivOf n iv)) T) T = xorb b (ivOf n iv) :=
    xorb_xorb_cancel (by simp [hb, hil, hTl])
  by_cases h : n ∣ (b ++ padf r).length
  · rw [if_pos h, if_pos (hiff.2 h), cbcMac_append hn hd, ← hT,
      cbcMac_append hn (by rw [hxl]), cbcMac_append hn (by rw [hb]),
      cbcMac_block hn hxl, cbcMac_block hn hb, hx]
  · rw [if_neg h, if_neg (fun h' => h (hiff.1 h'))]

/-- What can be forged with a MAC: if the message of `ops` has the tag `T`, then the message
`extended iv T P b r`, where `P` is the padded message of `ops`, has the tag of `b ++ r`. -/
def Spec.Forgeable (r : Option (Except Exn AnyHash)) (n : Nat) (padf : Bytes → Bytes) (iv : Option Bytes) :
    Prop :=
  ∀ h, r = some (.ok h) → ∀ (ops ops2 ops3 : List HOp) (T b rest : Bytes),
    (∀ op ∈ ops, op.Legal) → (∀ op ∈ ops2, op.Legal) → (∀ op ∈ ops3, op.Legal) → b.length = n →
    h.show ops = some (.ok T) → hinputOf ops2 = b ++ rest →
    hinputOf ops3 = extended (ivOf n iv) T (padf (hinputOf ops)) b rest →
    h.show ops3 = h.show ops2

theorem makesMac_inv {r : Option (Except Exn AnyHash)} {keyOk : Prop} {iv : Option Bytes}
    {f : Bytes → Except Exn Bytes} (hm : MakesMac r keyOk n iv f) {h : AnyHash} (hr : r = some (.ok h)) :
    keyOk ∧ IVOk n iv ∧ ∀ ops : List HOp, (∀ op ∈ ops, op.Legal) → h.show ops = some (f (hinputOf ops)) := by
  by_cases hk : keyOk
  · by_cases hi : IVOk n iv
    · obtain ⟨h', h1, _, h2⟩ := hm.success hk hi
      rw [hr] at h1
      cases h1
      exact ⟨hk, hi, h2⟩
    · rw [hm.wrong_iv hk hi] at hr; simp at hr
  · rw [hm.wrong_key hk] at hr; simp at hr

theorem forgeable {r : Option (Except Exn AnyHash)} {keyOk : Prop} {iv : Option Bytes}
    {pad : Option PadScheme} {padf : Bytes → Bytes} (hn : 0 < n)
    (hE : keyOk → ∀ b : Bytes, b.length = n → (E b).length = n) (hp : PadOk n pad padf)
    (hm : MakesMac r keyOk n iv (macValue E n padf iv)) : Spec.Forgeable r n padf iv := by
  intro h hr ops ops2 ops3 T b rest l1 l2 l3 hb hT e2 e3
  obtain ⟨hk, hi, hs⟩ := makesMac_inv hm hr
  rw [hs _ l1] at hT
  rw [hs _ l2, hs _ l3, e2, e3, macValue_extended hn (hE hk) hp hi (Option.some.inj hT) hb]

section
variable {env : Env} {iv : Option Bytes} {pad : Option PadScheme} {padf : Bytes → Bytes} {key : Bytes}

/-- C101, `MAC.aes`, `MAC.des`, `MAC.triple_des`, messages of variable length: from the tag of one message the
tags of other messages can be made without the key, whatever the padding and the IV. -/
theorem C101_forgery :
    (∀ host, PadOk 16 pad padf → Spec.Forgeable (MAC.aes env host iv pad key) 16 padf iv) ∧
    (PadOk 8 pad padf → Spec.Forgeable (MAC.des env iv pad key) 8 padf iv) ∧
    (PadOk 8 pad padf → Spec.Forgeable (MAC.tripleDes env iv pad key) 8 padf iv) :=
  ⟨fun host hp => forgeable (by decide) (fun hk _ _ => Spec.Aes.encrypt_length hk _) hp (C15_mac_aes host hp),
   fun hp => forgeable (by decide) (fun _ _ _ => Spec.Des.encrypt_length _ _) hp (C15_mac_des hp),
   fun hp => forgeable (by decide) (fun _ _ _ => Spec.Des.encrypt_length _ _) hp (C15_mac_triple_des hp)⟩

end

/-! ### Messages of the same length -/

/-- `f` keeps the length of blocks and is one-to-one on them. -/
structure BlockInj (n : Nat) (f : Bytes → Bytes) : Prop where
  len : ∀ b : Bytes, b.length = n → (f b).length = n
  inj : ∀ {b b' : Bytes}, b.length = n → b'.length = n → f b = f b' → b = b'

theorem BlockInj.of_inv {f g : Bytes → Bytes} (hl : ∀ b : Bytes, b.length = n → (f b).length = n)
    (h : ∀ b : Bytes, b.length = n → g (f b) = b) : BlockInj n f :=
  ⟨hl, fun hb hb' e => by rw [← h _ hb, e, h _ hb']⟩

theorem BlockInj.comp {f g : Bytes → Bytes} (hf : BlockInj n f) (hg : BlockInj n g) :
    BlockInj n fun b => f (g b) :=
  ⟨fun b hb => hf.len _ (hg.len b hb), fun hb hb' e => hg.inj hb hb' (hf.inj (hg.len _ hb) (hg.len _ hb') e)⟩

theorem BlockInj.id : BlockInj n id := ⟨fun _ h => h, fun _ _ h => h⟩

theorem aes_blockInj {key : Bytes} (hk : key.length = 16 ∨ key.length = 24 ∨ key.length = 32) :
    BlockInj 16 (Spec.Aes.encrypt key) :=
  .of_inv (g := Spec.Aes.decrypt key) (fun _ _ => Spec.Aes.encrypt_length hk _)
    fun _ hb => Spec.Aes.decrypt_encrypt hk hb

theorem des_blockInj (key : Bytes) : BlockInj 8 (Spec.Des.encrypt key) :=
  .of_inv (g := Spec.Des.decrypt key) (fun _ _ => Spec.Des.encrypt_length _ _)
    fun _ hb => Spec.Des.decrypt_encrypt key hb

theorem des_dec_blockInj (key : Bytes) : BlockInj 8 (Spec.Des.decrypt key) :=
  .of_inv (g := Spec.Des.encrypt key) (fun _ _ => Spec.Des.decrypt_length _ _)
    fun _ hb => Spec.Des.encrypt_decrypt key hb

theorem des3_blockInj (key : Bytes) : BlockInj 8 (Spec.Des.encrypt3 key) :=
  .of_inv (g := Spec.Des.decrypt3 key) (fun _ _ => Spec.Des.encrypt_length _ _)
    fun _ hb => Spec.Des.decrypt3_encrypt3 key hb

theorem xorb_len_eq {a b : Bytes} (ha : a.length = n) (hb : b.length = n) : (xorb a b).length = n := by
  simp [ha, hb]

theorem cbcFold_iv_inj (hE : BlockInj n E) : ∀ (bs : List Bytes) (v v' : Bytes), (∀ b ∈ bs, b.length = n) →
    v.length = n → v'.length = n → cbcFold E v bs = cbcFold E v' bs → v = v' := by
  intro bs
  induction bs with
  | nil => intro v v' _ _ _ h; exact h
  | cons b bs ih =>
    intro v v' hb hv hv' h
    have hbl := hb b (by simp)
    have := ih _ _ (fun b hb' => hb b (by simp [hb'])) (hE.len _ (xorb_len_eq hbl hv))
      (hE.len _ (xorb_len_eq hbl hv')) h
    exact xorb_inj_left (by rw [hv, hbl]) (by rw [hv', hbl])
      (hE.inj (xorb_len_eq hbl hv) (xorb_len_eq hbl hv') this)

theorem cbcMac_iv_inj (hn : 0 < n) (hE : BlockInj n E) {c v v' : Bytes} (hc : n ∣ c.length) (hv : v.length = n)
    (hv' : v'.length = n) (h : cbcMac E n v c = cbcMac E n v' c) : v = v' := by
  simp only [cbcMac_fold] at h
  exact cbcFold_iv_inj hE _ _ _ (chunks_length_of_dvd hn c hc) hv hv' h

/-- Messages that differ in one block have different CBC-MACs. -/
theorem cbcMac_one_block (hn : 0 < n) (hE : BlockInj n E) {iv a x x' c : Bytes} (hi : iv.length = n)
    (ha : n ∣ a.length) (hx : x.length = n) (hx' : x'.length = n) (hc : n ∣ c.length)
    (h : cbcMac E n iv (a ++ (x ++ c)) = cbcMac E n iv (a ++ (x' ++ c))) : x = x' := by
  have hv := cbcMac_length hn hE.len (iv := iv) hi ha
  rw [cbcMac_append hn ha, cbcMac_append hn ha, cbcMac_append hn (by rw [hx]),
    cbcMac_append hn (by rw [hx']), cbcMac_block hn hx, cbcMac_block hn hx'] at h
  have h1 := xorb_len_eq hx hv
  have h2 := xorb_len_eq hx' hv
  exact xorb_inj_right (by rw [hx, hv]) (by rw [hx', hv])
    (hE.inj h1 h2 (cbcMac_iv_inj hn hE hc (hE.len _ h1) (hE.len _ h2) h))

/-- Messages of the same length with the same CBC-MAC. -/
theorem cbcMac_collision (hn : 0 < n) (hE : BlockInj n E) {iv m m' : Bytes} (hi : iv.length = n)
    (hd : n ∣ m.length) (hl : m.length = m'.length) (hne : m ≠ m')
    (h : cbcMac E n iv m = cbcMac E n iv m') : ChainCollision E n iv m m' := by
  obtain ⟨k, hk⟩ := hd
  cases k with
  | zero =>
    have h0 : m.length = 0 := by rw [hk, Nat.mul_zero]
    have h1 : m = [] := List.length_eq_zero_iff.1 h0
    have h2 : m' = [] := List.length_eq_zero_iff.1 (by rw [← hl, h0])
    exact absurd (h1.trans h2.symm) hne
  | succ i =>
    have hm : ∀ m : Bytes, m.length = n * (i + 1) → n ∣ (m.take (n * i)).length ∧ (blockAt n i m).length = n ∧
        m = m.take (n * i) ++ blockAt n i m := by
      intro m hm
      rw [Nat.mul_succ] at hm
      refine ⟨?_, ?_, ?_⟩
      · rw [List.length_take, Nat.min_eq_left (by omega)]; exact Nat.dvd_mul_right _ _
      · simp only [blockAt, List.length_take, List.length_drop]; omega
      · rw [blockAt, List.take_of_length_le (l := m.drop (n * i)) (by rw [List.length_drop]; omega), List.take_append_drop]
    have hk' := hl ▸ hk
    obtain ⟨a1, a2, a3⟩ := hm m hk
    obtain ⟨b1, b2, b3⟩ := hm m' hk'
    have e : ∀ m : Bytes, m.length = n * (i + 1) → cbcMac E n iv m = E (cbcInput E n iv m i) := by
      intro m hm'
      obtain ⟨a1, a2, a3⟩ := hm m hm'
      conv => lhs; rw [a3]
      rw [cbcMac_append hn a1, cbcMac_block hn a2]
      rfl
    have l1 := cbcMac_length hn hE.len (iv := iv) hi a1
    have l2 := cbcMac_length hn hE.len (iv := iv) hi b1
    rw [e m hk, e m' hk'] at h
    have h' := hE.inj (xorb_len_eq a2 l1) (xorb_len_eq b2 l2) h
    refine ⟨i, Nat.le_of_eq hk.symm, Nat.le_of_eq hk'.symm, fun ht => hne ?_, h'⟩
    rw [← ht] at h'
    have hb := xorb_inj_right (by rw [a2, l1]) (by rw [b2, l1]) h'
    rw [a3, b3, ht, hb]

/-- Two histories of calls whose messages have the same length, are different, and have tags. -/
structure Spec.SameLength (h : AnyHash) (ops ops' : List HOp) (T T' : Bytes) : Prop where
  legal : ∀ op ∈ ops, op.Legal
  legal' : ∀ op ∈ ops', op.Legal
  tag : h.show ops = some (.ok T)
  tag' : h.show ops' = some (.ok T')
  length : (hinputOf ops).length = (hinputOf ops').length
  ne : hinputOf ops ≠ hinputOf ops'

/-- Equal tags of different messages of the same length come from a collision in the chain. -/
def Spec.OnlyChainCollisions (r : Option (Except Exn AnyHash)) (E : Bytes → Bytes) (n : Nat)
    (padf : Bytes → Bytes) (iv : Option Bytes) : Prop :=
  ∀ h, r = some (.ok h) → ∀ (ops ops' : List HOp) (T : Bytes), Spec.SameLength h ops ops' T T →
    ChainCollision E n (ivOf n iv) (padf (hinputOf ops)) (padf (hinputOf ops'))

/-- A change of any number of bits inside one block of the message changes the tag. -/
def Spec.DetectsBlock (r : Option (Except Exn AnyHash)) (n : Nat) : Prop :=
  ∀ h, r = some (.ok h) → ∀ (ops ops' : List HOp) (T T' : Bytes) (i : Nat), Spec.SameLength h ops ops' T T' →
    (hinputOf ops).take (n * i) = (hinputOf ops').take (n * i) →
    (hinputOf ops).drop (n * (i + 1)) = (hinputOf ops').drop (n * (i + 1)) → T ≠ T'

theorem padOk_length (hn : 0 < n) {pad : Option PadScheme} {padf : Bytes → Bytes} (hp : PadOk n pad padf)
    {m m' : Bytes} (hl : m.length = m'.length) : (padf m).length = (padf m').length := by
  cases hp with
  | none => exact hl
  | length h =>
    have hc := LibraryPadding.computes hn (.inl ⟨rfl, h, rfl⟩ : LibraryPadding.fn _ _ n)
    rw [padMessage_length hn fun x hx => hc.pad_len hx, padMessage_length hn fun x hx => hc.pad_len hx, hl]
  | _8000 =>
    have hc := LibraryPadding.computes hn (.inr ⟨rfl, rfl⟩ : LibraryPadding.fn _ _ n)
    rw [padMessage_length hn fun x hx => hc.pad_len hx, padMessage_length hn fun x hx => hc.pad_len hx, hl]

/-- The last block, of less than `n` bytes, is padded to `n` bytes. -/
theorem padOk_short (hn : 0 < n) {pad : Option PadScheme} {padf : Bytes → Bytes} (hp : PadOk n pad padf)
    {x : Bytes} (hx : x.length < n) (hd : n ∣ (padf x).length) : x = [] ∨ (padf x).length = n := by
  have key : ∀ {p : PadScheme} {f : Bytes → Bytes}, p.Computes n f → (padMessage n f x).length = n := by
    intro p f hc
    rw [padMessage_length hn fun x hx => hc.pad_len hx, Nat.div_eq_of_lt hx, Nat.zero_add, Nat.one_mul]
  cases hp with
  | none =>
    left
    exact List.length_eq_zero_iff.1 (Nat.eq_zero_of_dvd_of_lt hd hx)
  | length h => exact .inr (key (LibraryPadding.computes hn (.inl ⟨rfl, h, rfl⟩)))
  | _8000 => exact .inr (key (LibraryPadding.computes hn (.inr ⟨rfl, rfl⟩)))

/-- Messages that differ in one block are padded to messages that differ in one block. -/
theorem padOk_one_block (hn : 0 < n) {pad : Option PadScheme} {padf : Bytes → Bytes} (hp : PadOk n pad padf)
    {m m' : Bytes} {i : Nat} (hl : m.length = m'.length) (hne : m ≠ m') (ht : m.take (n * i) = m'.take (n * i))
    (hr : m.drop (n * (i + 1)) = m'.drop (n * (i + 1))) (hd : n ∣ (padf m).length) :
    ∃ a x x' c : Bytes, n ∣ a.length ∧ x.length = n ∧ x'.length = n ∧ n ∣ c.length ∧ x ≠ x' ∧
      padf m = a ++ (x ++ c) ∧ padf m' = a ++ (x' ++ c) := by
  have hin : n * i ≤ m.length := by
    apply Nat.le_of_not_lt
    intro hlt
    rw [List.take_of_length_le (by omega), List.take_of_length_le (by omega)] at ht
    exact hne ht
  have hal : (m.take (n * i)).length = n * i := by rw [List.length_take]; omega
  have had : n ∣ (m.take (n * i)).length := by rw [hal]; exact Nat.dvd_mul_right _ _
  have e : padf m = m.take (n * i) ++ padf (m.drop (n * i)) := by
    rw [← padOk_append hn hp had, List.take_append_drop]
  have e' : padf m' = m.take (n * i) ++ padf (m'.drop (n * i)) := by
    rw [← padOk_append hn hp had, ht, List.take_append_drop]
  have hdrop : m.drop (n * i) ≠ m'.drop (n * i) := fun h => hne (by
    rw [← List.take_append_drop (n * i) m, ht, h, List.take_append_drop])
  have hdd : n ∣ (padf (m.drop (n * i))).length := by
    rw [e, List.length_append] at hd
    exact (Nat.dvd_add_right had).1 hd
  by_cases hb : n * (i + 1) ≤ m.length
  · rw [Nat.mul_succ] at hb hr
    have hs : ∀ m : Bytes, m.drop (n * i) = (m.drop (n * i)).take n ++ m.drop (n * i + n) := fun m => by
      rw [← List.drop_drop, List.take_append_drop]
    have l1 : ((m.drop (n * i)).take n).length = n := by rw [List.length_take, List.length_drop]; omega
    have l2 : ((m'.drop (n * i)).take n).length = n := by rw [List.length_take, List.length_drop]; omega
    have f : padf (m.drop (n * i)) = (m.drop (n * i)).take n ++ padf (m.drop (n * i + n)) := by
      rw [← padOk_append hn hp (by rw [l1]), ← hs]
    have f' : padf (m'.drop (n * i)) = (m'.drop (n * i)).take n ++ padf (m.drop (n * i + n)) := by
      rw [← padOk_append hn hp (by rw [l2]), hr, ← hs]
    refine ⟨_, _, _, _, had, l1, l2, ?_, ?_, by rw [e, f], by rw [e', f']⟩
    · rw [f, List.length_append, l1] at hdd
      exact (Nat.dvd_add_right (Nat.dvd_refl n)).1 hdd
    · intro h
      exact hdrop (by rw [hs m, hs m', h, hr])
  · rw [Nat.mul_succ] at hb
    have s1 : (m.drop (n * i)).length < n := by rw [List.length_drop]; omega
    have hpl : (padf (m'.drop (n * i))).length = (padf (m.drop (n * i))).length :=
      padOk_length hn hp (by simp only [List.length_drop, hl])
    rcases padOk_short hn hp s1 hdd with h | h
    · have : (m'.drop (n * i)).length = 0 := by
        rw [List.length_drop, ← hl, ← List.length_drop, h]; rfl
      exact absurd (h.trans (List.length_eq_zero_iff.1 this).symm) hdrop
    · refine ⟨_, _, _, [], had, h, hpl.trans h, Nat.dvd_zero n, fun h' => hdrop (padOk_inj hn hp h'), ?_, ?_⟩
      · rw [e, List.append_nil]
      · rw [e', List.append_nil]

section
variable {r : Option (Except Exn AnyHash)} {keyOk : Prop} {iv : Option Bytes} {pad : Option PadScheme}
  {padf : Bytes → Bytes} {g : Bytes → Bytes}

theorem map_ok {x : Except Exn Bytes} {T : Bytes} (h : x.map g = .ok T) : ∃ T0, x = .ok T0 ∧ T = g T0 := by
  cases x with
  | ok T0 => exact ⟨T0, rfl, (Except.ok.inj h).symm⟩
  | error e => cases h

theorem onlyChainCollisions (hn : 0 < n) (hE : keyOk → BlockInj n E) (hg : BlockInj n g) (hp : PadOk n pad padf)
    (hm : MakesMac r keyOk n iv fun m => (macValue E n padf iv m).map g) :
    Spec.OnlyChainCollisions r E n padf iv := by
  intro h hr ops ops' T hs
  obtain ⟨hk, hi, hsh⟩ := makesMac_inv hm hr
  have t := hs.tag
  have t' := hs.tag'
  rw [hsh _ hs.legal] at t
  rw [hsh _ hs.legal'] at t'
  obtain ⟨T0, a1, a2⟩ := map_ok (Option.some.inj t)
  obtain ⟨T0', b1, b2⟩ := map_ok (Option.some.inj t')
  obtain ⟨d, a3⟩ := macValue_ok a1
  obtain ⟨d', b3⟩ := macValue_ok b1
  have hil := ivOf_length hi
  have l := cbcMac_length hn (hE hk).len (iv := ivOf n iv) hil d
  have l' := cbcMac_length hn (hE hk).len (iv := ivOf n iv) hil d'
  rw [← a3] at l
  rw [← b3] at l'
  have e := hg.inj l l' (a2.symm.trans b2)
  exact cbcMac_collision hn (hE hk) hil d (padOk_length hn hp hs.length) (fun h' => hs.ne (padOk_inj hn hp h'))
    (by rw [← a3, ← b3, e])

theorem detectsBlock (hn : 0 < n) (hE : keyOk → BlockInj n E) (hg : BlockInj n g) (hp : PadOk n pad padf)
    (hm : MakesMac r keyOk n iv fun m => (macValue E n padf iv m).map g) : Spec.DetectsBlock r n := by
  intro h hr ops ops' T T' i hs ht hd hT
  subst hT
  obtain ⟨hk, hi, hsh⟩ := makesMac_inv hm hr
  have t := hs.tag
  have t' := hs.tag'
  rw [hsh _ hs.legal] at t
  rw [hsh _ hs.legal'] at t'
  obtain ⟨T0, a1, a2⟩ := map_ok (Option.some.inj t)
  obtain ⟨T0', b1, b2⟩ := map_ok (Option.some.inj t')
  obtain ⟨d, a3⟩ := macValue_ok a1
  obtain ⟨d', b3⟩ := macValue_ok b1
  have hil := ivOf_length hi
  have l := cbcMac_length hn (hE hk).len (iv := ivOf n iv) hil d
  have l' := cbcMac_length hn (hE hk).len (iv := ivOf n iv) hil d'
  rw [← a3] at l
  rw [← b3] at l'
  have e := hg.inj l l' (a2.symm.trans b2)
  obtain ⟨a, x, x', c, h1, h2, h3, h4, h5, h6, h7⟩ := padOk_one_block hn hp hs.length hs.ne ht hd d
  refine h5 (cbcMac_one_block hn (hE hk) hil h1 h2 h3 h4 ?_)
  rw [← h6, ← h7, ← a3, ← b3, e]

theorem makesMac_map_id {f : Bytes → Except Exn Bytes} (hm : MakesMac r keyOk n iv f) :
    MakesMac r keyOk n iv fun m => (f m).map id := by
  have : (fun m => (f m).map id) = f := by
    funext m; cases f m <;> rfl
  rw [this]; exact hm

end

section
variable {env : Env} {iv : Option Bytes} {pad : Option PadScheme} {padf : Bytes → Bytes} {key : Bytes}

/-- C101, messages of the same length: if two of them have the same tag, then the cipher has been applied
to the same block after two different beginnings. (For `MAC.des_final_triple_des` the cipher is DES with the
first key.) -/
theorem C101_fixed_length :
    (∀ host, PadOk 16 pad padf →
      Spec.OnlyChainCollisions (MAC.aes env host iv pad key) (Spec.Aes.encrypt key) 16 padf iv) ∧
    (PadOk 8 pad padf →
      Spec.OnlyChainCollisions (MAC.des env iv pad key) (Spec.Des.encrypt key) 8 padf iv) ∧
    (PadOk 8 pad padf →
      Spec.OnlyChainCollisions (MAC.tripleDes env iv pad key) (Spec.Des.encrypt3 key) 8 padf iv) ∧
    (PadOk 8 pad padf →
      Spec.OnlyChainCollisions (MAC.desFinalTripleDes env iv pad key) (Spec.Des.encrypt (Spec.desKey1 key)) 8
        padf iv) :=
  ⟨fun host hp => onlyChainCollisions (by decide) aes_blockInj .id hp (makesMac_map_id (C15_mac_aes host hp)),
   fun hp => onlyChainCollisions (by decide) (fun _ => des_blockInj _) .id hp
    (makesMac_map_id (C15_mac_des hp)),
   fun hp => onlyChainCollisions (by decide) (fun _ => des3_blockInj _) .id hp
    (makesMac_map_id (C15_mac_triple_des hp)),
   fun hp => onlyChainCollisions (by decide) (fun _ => des_blockInj _)
    (.comp (des_blockInj _) (des_dec_blockInj _)) hp (C16_des_final_triple_des hp)⟩

/-- C101, messages of the same length that differ in a single block have different tags. -/
theorem C101_one_block :
    (∀ host, PadOk 16 pad padf → Spec.DetectsBlock (MAC.aes env host iv pad key) 16) ∧
    (PadOk 8 pad padf → Spec.DetectsBlock (MAC.des env iv pad key) 8) ∧
    (PadOk 8 pad padf → Spec.DetectsBlock (MAC.tripleDes env iv pad key) 8) ∧
    (PadOk 8 pad padf → Spec.DetectsBlock (MAC.desFinalTripleDes env iv pad key) 8) :=
  ⟨fun host hp => detectsBlock (by decide) aes_blockInj .id hp (makesMac_map_id (C15_mac_aes host hp)),
   fun hp => detectsBlock (by decide) (fun _ => des_blockInj _) .id hp (makesMac_map_id (C15_mac_des hp)),
   fun hp => detectsBlock (by decide) (fun _ => des3_blockInj _) .id hp
    (makesMac_map_id (C15_mac_triple_des hp)),
   fun hp => detectsBlock (by decide) (fun _ => des_blockInj _)
    (.comp (des_blockInj _) (des_dec_blockInj _)) hp (C16_des_final_triple_des hp)⟩

end

end Verif
