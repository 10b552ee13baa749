import Verif.Proof.NumHeap
/-
C77: erasing the temporary numbers of the public-key functions, and erasing private keys, never
changes a result, whatever the sharing between numbers.
-/
namespace Verif

open Spec

/-- C77, `RSA.encrypt` and `RSA.unwrap_signature`. -/
theorem C77_rsa_encrypt (e : BnEnv) (key : RsaPublic) (msg : Bytes) (h : NumHeap) :
    Agrees h (NewString h) (rsaEncryptH e key msg h) (rsaEncrypt e key msg) := by
  unfold rsaEncryptH rsaEncrypt numOfBytes
  simp only
  refine .new (.start h) fun h1 m _ _ o1 => .new o1 fun h2 n _ _ o2 => .new o2 fun h3 x _ _ o3 => ?_
  refine .get o3 (v := bnOfBytes msg) (by simp) (.get o3 (v := bnOfBytes key.n) (by simp) ?_)
  split
  · exact ⟨rfl, o3.same⟩
  · refine .modPower o3 (va := bnOfBytes msg) (vb := bnOfBytes key.e) (vm := bnOfBytes key.n)
      (by simp) (by simp) (by simp) fun v h4 r _ _ o4 => ?_
    rw [← bind_pure (bnToBytes e _ v)]
    refine .toBytes o4 (va := v) (by simp) fun s h5 y _ hy _ o5 => ?_
    refine .wipe o5.owns (by simp) fun h6 o6 => .wipe o6 (by simp) fun h7 o7 => .wipe o7 (by simp)
      fun h8 o8 => .wipe o8 (by simp) fun h9 o9 => ?_
    exact ⟨o9.same, hy, (o9.str (y, s) (by simp)).2⟩

/-- C77, `RSA.decrypt` and `RSA.sign`. -/
theorem C77_rsa_decrypt (e : BnEnv) (key : RsaPrivate) (msg : Bytes) (h : NumHeap) :
    Agrees h (NewString h) (rsaDecryptH e key msg h) (rsaDecrypt e key msg) := by
  unfold rsaDecryptH rsaDecrypt numOfBytes
  simp only
  refine .new (.start h) fun h1 m _ _ o1 => .new o1 fun h2 n _ _ o2 => .new o2 fun h3 x _ _ o3 => ?_
  refine .get o3 (v := bnOfBytes msg) (by simp) (.get o3 (v := bnOfBytes key.n) (by simp) ?_)
  split
  · exact ⟨rfl, o3.same⟩
  · refine .modPower o3 (va := bnOfBytes msg) (vb := bnOfBytes key.d) (vm := bnOfBytes key.n)
      (by simp) (by simp) (by simp) fun v h4 r _ _ o4 => ?_
    rw [← bind_pure (bnToBytes e _ v)]
    refine .toBytes o4 (va := v) (by simp) fun s h5 y _ hy _ o5 => ?_
    refine .wipe o5.owns (by simp) fun h6 o6 => .wipe o6 (by simp) fun h7 o7 => .wipe o7 (by simp)
      fun h8 o8 => .wipe o8 (by simp) fun h9 o9 => ?_
    exact ⟨o9.same, hy, (o9.str (y, s) (by simp)).2⟩

/-- C77, `RSA.decrypt_CRT` and `RSA.sign_CRT`. -/
theorem C77_rsa_decrypt_CRT (e : BnEnv) (share : Sharing) (key : RsaPrivate) (msg : Bytes)
    (h : NumHeap) :
    Agrees h (NewString h) (rsaDecryptCRTH e share key msg h) (rsaDecryptCRT e key msg) := by
  unfold rsaDecryptCRTH rsaDecryptCRT numOfBytes
  simp only
  refine .new (.start h) fun h1 m e1 l1 o1 => .new o1 fun h2 n e2 l2 o2 => .new o2
    fun h3 p e3 l3 o3 => .new o3 fun h4 q e4 l4 o4 => .new o4 fun h5 dp e5 l5 o5 => .new o5
    fun h6 dq e6 l6 o6 => .new o6 fun h7 qinv e7 l7 o7 => ?_
  refine .get o7 (v := bnOfBytes msg) (by simp) (.get o7 (v := bnOfBytes key.n) (by simp) ?_)
  split
  · exact ⟨rfl, o7.same⟩
  · refine .modPowerCRT o7 (va := bnOfBytes msg) (vp := bnOfBytes key.p) (vq := bnOfBytes key.q)
      (vdp := bnOfBytes key.dp) (vdq := bnOfBytes key.dq) (vqinv := bnOfBytes key.qinv)
      (by simp) (by simp) (by simp) (by simp) (by simp) (by simp) (by omega) (by omega) (by omega)
      fun v h8 r o8 r8 => ?_
    rw [← bind_pure (bnToBytes e _ v)]
    unfold numToBytes
    simp only [M.bind_assoc]
    refine .get o8 (v := v) (by simp) (.exc o8 fun s hs => ?_)
    have e9 : strNew s h8 = .ok h8.strs.length { h8 with strs := h8.strs ++ [s] } := rfl
    rw [M.bind_ok e9]
    have o9 : Owns h { h8 with strs := h8.strs ++ [s] } (r :: [(qinv, bnOfBytes key.qinv),
        (dq, bnOfBytes key.dq), (dp, bnOfBytes key.dp), (q, bnOfBytes key.q), (p, bnOfBytes key.p),
        (n, bnOfBytes key.n), (m, bnOfBytes msg)].map Prod.fst) [(h8.strs.length, s)] := by
      refine ⟨⟨r8.same.1, r8.same.2.trans (List.prefix_append _ _)⟩, r8.num, ?_⟩
      intro p hp
      rw [List.mem_singleton] at hp
      subst hp
      exact ⟨r8.same.2.length_le, by simp⟩
    refine .wipe o9 (by simp) fun h10 o10 => .wipe o10 (by simp) fun h11 o11 => .wipe o11 (by simp)
      fun h12 o12 => .wipe o12 (by simp) fun h13 o13 => .wipe o13 (by simp) fun h14 o14 =>
      .wipe o14 (by simp) fun h15 o15 => .wipe o15 (by simp) fun h16 o16 => .wipe o16 (by simp)
      fun h17 o17 => ?_
    exact ⟨o17.same, r8.same.2.length_le, (o17.str (h8.strs.length, s) (by simp)).2⟩

set_option maxHeartbeats 1000000 in
/-- C77, `RSA.new_key`: the two keys have the right contents, in distinct strings. -/
theorem C77_rsa_new_key (e : BnEnv) (share : Sharing) (numbits p q x : Int) (h : NumHeap) :
    Agrees h (fun k v h' => RsaPrivateIs h' k.1 v.1 ∧ RsaPublicIs h' k.2 v.2
        ∧ (∀ r ∈ rsaPrivateRefs k.1, h.strs.length ≤ r ∧ r ≠ k.2.n ∧ r ≠ k.2.e))
      (rsaBuildH e share numbits p q x h) (rsaBuild e numbits p q x) := by
  unfold rsaBuildH rsaBuild
  simp only
  refine .new (.start h) fun h1 rp _ _ o1 => .new o1 fun h2 rq _ _ o2 => .new o2
    fun h3 one _ _ o3 => ?_
  refine .sub o3 (va := p) (vb := 1) (by simp) (by simp) fun h4 p1 _ _ o4 => ?_
  refine .sub o4 (va := q) (vb := 1) (by simp) (by simp) fun h5 q1 _ _ o5 => ?_
  refine .new o5 fun h6 rx _ _ o6 => ?_
  refine .mul o6 (va := p) (vb := q) (by simp) (by simp) fun h7 n _ _ o7 => ?_
  refine .mul o7 (va := p - 1) (vb := q - 1) (by simp) (by simp) fun h8 phi _ _ o8 => ?_
  refine .invert o8 (va := x) (vb := (p - 1) * (q - 1)) (by simp) (by simp) fun d h9 rd o9 => ?_
  refine .rem o9 (va := d) (vb := p - 1) (by simp) (by simp) fun dp h10 rdp _ _ _ o10 => ?_
  refine .rem o10 (va := d) (vb := q - 1) (by simp) (by simp) fun dq h11 rdq _ _ _ o11 => ?_
  refine .invert o11 (va := q) (vb := p) (by simp) (by simp) fun qinv h12 rqinv o12 => ?_
  refine .toBytes o12 (va := p * q) (by simp) fun sn h13 yn en b1 _ o13 => ?_
  refine .toBytes o13 (va := d) (by simp) fun sd h14 yd _ b2 _ o14 => ?_
  refine .toBytes o14 (va := p) (by simp) fun sp h15 yp _ b3 _ o15 => ?_
  refine .toBytes o15 (va := q) (by simp) fun sq h16 yq _ b4 _ o16 => ?_
  refine .toBytes o16 (va := dp) (by simp) fun sdp h17 ydp _ b5 _ o17 => ?_
  refine .toBytes o17 (va := dq) (by simp) fun sdq h18 ydq _ b6 _ o18 => ?_
  refine .toBytes o18 (va := qinv) (by simp) fun sqinv h19 yqinv _ b7 _ o19 => ?_
  refine .toBytes_again o19 (va := p * q) (by simp) en fun h20 zn _ c1 o20 => ?_
  refine .toBytes o20 (va := x) (by simp) fun sx h21 zx _ _ c2 o21 => ?_
  refine .wipe o21.owns (by simp) fun h22 o22 => .wipe o22 (by simp) fun h23 o23 =>
    .wipe o23 (by simp) fun h24 o24 => .wipe o24 (by simp) fun h25 o25 => .wipe o25 (by simp)
    fun h26 o26 => .wipe o26 (by simp) fun h27 o27 => .wipe o27 (by simp) fun h28 o28 =>
    .wipe o28 (by simp) fun h29 o29 => .wipe o29 (by simp) fun h30 o30 => .wipe o30 (by simp)
    fun h31 o31 => ?_
  have hv := fun y s hs => (o31.str (y, s) hs).2
  simp only [List.mem_cons, forall_eq_or_imp] at c1 c2
  refine ⟨o31.same, ⟨rfl, ?_⟩, ⟨rfl, ?_⟩, ?_⟩
  · simp only [rsaPrivateRefs, List.map_cons, List.map_nil]
    rw [hv yn sn (by simp), hv yd sd (by simp), hv yp sp (by simp), hv yq sq (by simp),
      hv ydp sdp (by simp), hv ydq sdq (by simp), hv yqinv sqinv (by simp)]
  · simp only [List.map_cons, List.map_nil]
    rw [hv zn sn (by simp), hv zx sx (by simp)]
  · intro r hr
    simp only [rsaPrivateRefs, List.mem_cons, List.not_mem_nil, or_false] at hr
    change h.strs.length ≤ r ∧ r ≠ zn ∧ r ≠ zx
    rcases hr with rfl | rfl | rfl | rfl | rfl | rfl | rfl <;>
      exact ⟨by assumption, by omega, by omega⟩

/-- C77, `Paillier.decrypt`. -/
theorem C77_paillier_decrypt (e : BnEnv) (share : Sharing) (key : PaillierPrivate) (ct : Bytes)
    (h : NumHeap) :
    Agrees h (NewString h) (paillierDecryptH e share key ct h) (paillierDecrypt e key ct) := by
  unfold paillierDecryptH paillierDecrypt numOfBytes
  simp only
  refine .new (.start h) fun h1 m _ _ o1 => .new o1 fun h2 n _ _ o2 => .new o2
    fun h3 n2 _ _ o3 => .new o3 fun h4 la _ _ o4 => .new o4 fun h5 mu _ _ o5 => ?_
  refine .modPower o5 (va := bnOfBytes ct) (vb := bnOfBytes key.lambda) (vm := bnOfBytes key.n2)
    (by simp) (by simp) (by simp) fun cn h6 rcn _ _ o6 => ?_
  refine .new o6 fun h7 one _ _ o7 => ?_
  refine .sub o7 (va := cn) (vb := 1) (by simp) (by simp) fun h8 cn1 _ _ o8 => ?_
  refine .div o8 (va := cn - 1) (vb := bnOfBytes key.n) (by simp) (by simp) fun lx h9 rlx o9 => ?_
  refine .mul o9 (va := lx) (vb := bnOfBytes key.mu) (by simp) (by simp) fun h10 rlm _ _ o10 => ?_
  refine .rem o10 (va := lx * bnOfBytes key.mu) (vb := bnOfBytes key.n) (by simp) (by simp)
    fun v h11 rm _ _ _ o11 => ?_
  rw [← bind_pure (bnToBytes e _ v)]
  refine .toBytes o11 (va := v) (by simp) fun s h12 y _ hy _ o12 => ?_
  refine .wipe o12.owns (by simp) fun h22 o22 => .wipe o22 (by simp) fun h23 o23 =>
    .wipe o23 (by simp) fun h24 o24 => .wipe o24 (by simp) fun h25 o25 => .wipe o25 (by simp)
    fun h26 o26 => .wipe o26 (by simp) fun h27 o27 => .wipe o27 (by simp) fun h28 o28 =>
    .wipe o28 (by simp) fun h29 o29 => ?_
  exact ⟨o29.same, hy, (o29.str (y, s) (by simp)).2⟩

set_option maxHeartbeats 1000000 in
/-- C77, `Paillier.new_key`. -/
theorem C77_paillier_new_key (e : BnEnv) (share : Sharing) (numbits p q : Int) (h : NumHeap) :
    Agrees h (fun k v h' => PaillierPrivateIs h' k.1 v.1 ∧ PaillierPublicIs h' k.2 v.2
        ∧ (∀ r ∈ paillierPrivateRefs k.1, h.strs.length ≤ r ∧ r ≠ k.2.n ∧ r ≠ k.2.n2 ∧ r ≠ k.2.g))
      (paillierBuildH e share numbits p q h) (paillierBuild e numbits p q) := by
  unfold paillierBuildH paillierBuild
  simp only
  refine .new (.start h) fun h1 rp _ _ o1 => .new o1 fun h2 rq _ _ o2 => .new o2
    fun h3 one _ _ o3 => ?_
  refine .sub o3 (va := p) (vb := 1) (by simp) (by simp) fun h4 p1 _ _ o4 => ?_
  refine .sub o4 (va := q) (vb := 1) (by simp) (by simp) fun h5 q1 _ _ o5 => ?_
  refine .mul o5 (va := p) (vb := q) (by simp) (by simp) fun h7 n _ _ o7 => ?_
  refine .mul o7 (va := p * q) (vb := p * q) (by simp) (by simp) fun h8 n2 _ _ o8 => ?_
  refine .add o8 (va := p * q) (vb := 1) (by simp) (by simp) fun h9 g _ _ o9 => ?_
  refine .lcm o9 (va := p - 1) (vb := q - 1) (by simp) (by simp) fun h10 la o10 => ?_
  refine .invert o10 (va := (Int.lcm (p - 1) (q - 1) : Int)) (vb := p * q) (by simp) (by simp)
    fun mu h12 rmu o12 => ?_
  refine .toBytes o12 (va := p * q) (by simp) fun sn h13 yn en b1 _ o13 => ?_
  refine .toBytes o13 (va := p * q * (p * q)) (by simp) fun sn2 h14 yn2 en2 b2 _ o14 => ?_
  refine .toBytes o14 (va := p) (by simp) fun sp h15 yp _ b3 _ o15 => ?_
  refine .toBytes o15 (va := q) (by simp) fun sq h16 yq _ b4 _ o16 => ?_
  refine .toBytes o16 (va := (Int.lcm (p - 1) (q - 1) : Int)) (by simp) fun sl h17 yl _ b5 _ o17 => ?_
  refine .toBytes o17 (va := mu) (by simp) fun smu h18 ymu _ b6 _ o18 => ?_
  refine .toBytes_again o18 (va := p * q) (by simp) en fun h19 zn _ c1 o19 => ?_
  refine .toBytes_again o19 (va := p * q * (p * q)) (by simp) en2 fun h20 zn2 _ c2 o20 => ?_
  refine .toBytes o20 (va := p * q + 1) (by simp) fun sg h21 zg _ _ c3 o21 => ?_
  refine .wipe o21.owns (by simp) fun h22 o22 => .wipe o22 (by simp) fun h23 o23 =>
    .wipe o23 (by simp) fun h24 o24 => .wipe o24 (by simp) fun h25 o25 => .wipe o25 (by simp)
    fun h26 o26 => .wipe o26 (by simp) fun h27 o27 => .wipe o27 (by simp) fun h28 o28 =>
    .wipe o28 (by simp) fun h29 o29 => .wipe o29 (by simp) fun h30 o30 => ?_
  have hv := fun y s hs => (o30.str (y, s) hs).2
  simp only [List.mem_cons, forall_eq_or_imp] at c1 c2 c3
  refine ⟨o30.same, ⟨rfl, ?_⟩, ⟨rfl, ?_⟩, ?_⟩
  · simp only [paillierPrivateRefs, List.map_cons, List.map_nil]
    rw [hv yn sn (by simp), hv yn2 sn2 (by simp), hv yp sp (by simp), hv yq sq (by simp),
      hv yl sl (by simp), hv ymu smu (by simp)]
  · simp only [List.map_cons, List.map_nil]
    rw [hv zn sn (by simp), hv zn2 sn2 (by simp), hv zg sg (by simp)]
  · intro r hr
    simp only [paillierPrivateRefs, List.mem_cons, List.not_mem_nil, or_false] at hr
    change h.strs.length ≤ r ∧ r ≠ zn ∧ r ≠ zn2 ∧ r ≠ zg
    rcases hr with rfl | rfl | rfl | rfl | rfl | rfl <;>
      exact ⟨by assumption, by omega, by omega, by omega⟩

/-! ### Erasing private keys -/

/-- Erasing strings one after the other. -/
def strWipes : List Nat → M NumHeap Unit
  | [] => pure ()
  | r :: rs => do
    strWipe r
    strWipes rs

theorem M.bind_pure' (m : M σ α) : (do let x ← m; pure x) = m := by
  funext h
  rw [M.bind_def]
  cases m h <;> rfl

theorem strWipe_pure (r : Nat) : (do strWipe r; pure ()) = strWipe r := M.bind_pure' _

theorem strWipes_run (rs : List Nat) (h : NumHeap) (hr : ∀ r ∈ rs, r < h.strs.length) :
    ∃ h', strWipes rs h = .ok () h' ∧ h'.nums = h.nums ∧ h'.strs.length = h.strs.length
      ∧ (∀ i, i ∉ rs → h'.strs[i]? = h.strs[i]?)
      ∧ ∀ i (hi : i < h.strs.length), i ∈ rs ∨ (∃ n, h.strs[i] = List.replicate n 0) →
        ∃ n, h'.strs[i]? = some (List.replicate n 0) := by
  induction rs generalizing h with
  | nil =>
    refine ⟨h, rfl, rfl, rfl, fun _ _ => rfl, fun i hi hor => ?_⟩
    rcases hor with hm | ⟨n, hn⟩
    · cases hm
    · exact ⟨n, by rw [List.getElem?_eq_getElem hi, hn]⟩
  | cons r rs ih =>
    have hlt := hr r (by simp)
    have e1 : strWipe r h = .ok () { h with strs := h.strs.set r (wipeBytes h.strs[r]) } := by
      simp only [strWipe, List.getElem?_eq_getElem hlt]
    obtain ⟨h', e2, e3, e4, e5, e6⟩ := ih { h with strs := h.strs.set r (wipeBytes h.strs[r]) }
      (fun x hx => by simpa using hr x (by simp [hx]))
    simp only [List.length_set] at e4 e6
    refine ⟨h', by rw [strWipes, M.bind_ok e1, e2], e3, e4, ?_, ?_⟩
    · intro i hi
      simp only [List.mem_cons, not_or] at hi
      rw [e5 i hi.2]
      exact List.getElem?_set_ne (Ne.symm hi.1)
    · intro i hi hor
      refine e6 i hi ?_
      by_cases hir : i = r
      · subst hir
        exact .inr ⟨_, by rw [List.getElem_set_self]; rfl⟩
      · rw [List.getElem_set_ne (Ne.symm hir)]
        rcases hor with hm | hz
        · exact .inl ((List.mem_cons.1 hm).resolve_left hir)
        · exact .inr hz

theorem wipe_private {h h1 : NumHeap} {rs : List Nat} {vs : List Bytes}
    (hu : Untouched h h1) (hvs : rs.map (h1.strs[·]?) = vs.map some)
    (hb : ∀ r ∈ rs, h.strs.length ≤ r) :
    ∃ h', strWipes rs h1 = .ok () h' ∧ Untouched h h' ∧ StringsErased h' rs
      ∧ ∀ i, i ∉ rs → h'.strs[i]? = h1.strs[i]? := by
  have hlt : ∀ r ∈ rs, r < h1.strs.length := by
    intro r hr
    have : h1.strs[r]? ∈ vs.map some := hvs ▸ List.mem_map_of_mem hr
    obtain ⟨v, _, hv⟩ := List.mem_map.1 this
    exact (List.getElem?_eq_some_iff.1 hv.symm).1
  obtain ⟨h', e1, e2, e3, e4, e5⟩ := strWipes_run rs h1 hlt
  refine ⟨h', e1, ⟨e2 ▸ hu.1, ?_⟩, fun r hr => e5 r (hlt r hr) (.inl hr), e4⟩
  rw [List.prefix_iff_getElem?]
  intro i hi
  rw [e4 i (fun hm => absurd (hb i hm) (by omega))]
  exact (List.prefix_iff_getElem?.1 hu.2) i hi

/-- C77, `RSA.wipe_key`: all the strings of the private key are erased; the public key made at
the same time is intact. -/
theorem C77_rsa_wipe_key (e : BnEnv) (share : Sharing) (numbits p q x : Int) (h : NumHeap) :
    Agrees h (fun k v h' => StringsErased h' (rsaPrivateRefs k.1) ∧ RsaPublicIs h' k.2 v.2)
      ((do let k ← rsaBuildH e share numbits p q x; rsaWipeKeyH k.1; pure k) h)
      (rsaBuild e numbits p q x) := by
  have hk := C77_rsa_new_key e share numbits p q x h
  cases hr : rsaBuildH e share numbits p q x h <;> cases hp : rsaBuild e numbits p q x <;>
    rw [hr, hp] at hk <;> simp only [Agrees] at hk
  · rename_i k h1 v
    obtain ⟨hu, hpriv, hpub, hd⟩ := hk
    obtain ⟨h', e1, e2, e3, e4⟩ := wipe_private hu hpriv.2 (fun r hr => (hd r hr).1)
    have e1' : rsaWipeKeyH k.1 h1 = .ok () h' := by
      rw [← e1]
      simp only [rsaPrivateRefs, strWipes, strWipe_pure]
      rfl
    rw [M.bind_ok hr, M.bind_ok e1']
    refine ⟨e2, e3, hpub.1, ?_⟩
    rw [← hpub.2]
    simp only [List.map_cons, List.map_nil]
    rw [e4 _ (fun hm => (hd _ hm).2.1 rfl), e4 _ (fun hm => (hd _ hm).2.2 rfl)]
  · rw [M.bind_exn hr]
    exact hk

/-- C77, `Paillier.wipe_key`. -/
theorem C77_paillier_wipe_key (e : BnEnv) (share : Sharing) (numbits p q : Int) (h : NumHeap) :
    Agrees h (fun k v h' => StringsErased h' (paillierPrivateRefs k.1) ∧ PaillierPublicIs h' k.2 v.2)
      ((do let k ← paillierBuildH e share numbits p q; paillierWipeKeyH k.1; pure k) h)
      (paillierBuild e numbits p q) := by
  have hk := C77_paillier_new_key e share numbits p q h
  cases hr : paillierBuildH e share numbits p q h <;> cases hp : paillierBuild e numbits p q <;>
    rw [hr, hp] at hk <;> simp only [Agrees] at hk
  · rename_i k h1 v
    obtain ⟨hu, hpriv, hpub, hd⟩ := hk
    obtain ⟨h', e1, e2, e3, e4⟩ := wipe_private hu hpriv.2 (fun r hr => (hd r hr).1)
    have e1' : paillierWipeKeyH k.1 h1 = .ok () h' := by
      rw [← e1]
      simp only [paillierPrivateRefs, strWipes, strWipe_pure]
      rfl
    rw [M.bind_ok hr, M.bind_ok e1']
    refine ⟨e2, e3, hpub.1, ?_⟩
    rw [← hpub.2]
    simp only [List.map_cons, List.map_nil]
    rw [e4 _ (fun hm => (hd _ hm).2.1 rfl), e4 _ (fun hm => (hd _ hm).2.2.1 rfl),
      e4 _ (fun hm => (hd _ hm).2.2.2 rfl)]
  · rw [M.bind_exn hr]
    exact hk

/-! ### Diffie-Hellman -/

/-- C77, `DH.message`: the private secret and everything else is intact. -/
theorem C77_dh_message (e : BnEnv) (params : DhParams) (privsec : Nat) (v : Int) (h : NumHeap)
    (hv : h.nums[privsec]? = some v) :
    Agrees h (NewString h) (dhMessageH e params privsec h) (dhMessage e params v) := by
  unfold dhMessageH dhMessage numOfBytes numModPower
  simp only [M.bind_assoc]
  refine .new (.start h) fun h1 g _ _ o1 => .new o1 fun h2 p _ _ o2 => ?_
  refine .get o2 (v := bnOfBytes params.g) (by simp) ?_
  have e1 : numGet privsec h2 = .ok v h2 := by
    obtain ⟨hlt, rfl⟩ := List.getElem?_eq_some_iff.1 hv
    simp only [numGet, (List.prefix_iff_getElem?.1 o2.same.1) privsec hlt]
  rw [M.bind_ok e1]
  refine .get o2 (v := bnOfBytes params.p) (by simp) (.exc o2 fun r hr => .new o2 fun h3 y _ _ o3 => ?_)
  rw [← bind_pure (bnToBytes e _ r), ← M.bind_pure' (numToBytes e _ y)]
  exact .toBytes o3 (va := r) (by simp) fun s h5 z _ hz _ o5 => ⟨o5.same, hz, (o5.str (z, s) (by simp)).2⟩

/-- C77, `DH.shared_secret`: of what existed before, the private secret only is erased, and only if
no exception is raised. -/
theorem C77_dh_shared_secret (e : BnEnv) (params : DhParams) (privsec : Nat) (v : Int)
    (othermsg : Bytes) (h : NumHeap) (hv : h.nums[privsec]? = some v) :
    match dhSharedSecretH e params privsec othermsg h, dhSharedSecret e params v othermsg with
    | .ok y h', .ok (s, v') => NewString h y s h' ∧ h.nums.set privsec v' <+: h'.nums
        ∧ h.strs <+: h'.strs
    | .exn x h', .error x' => x = x' ∧ Untouched h h'
    | _, _ => False := by
  have hm := C77_dh_message e { params with g := othermsg } privsec v h hv
  have e1 : dhSharedSecretH e params privsec othermsg
      = (do let s ← dhMessageH e { params with g := othermsg } privsec; numWipe privsec; pure s) := by
    unfold dhSharedSecretH dhMessageH
    simp only [M.bind_assoc]
  have e2 : dhSharedSecret e params v othermsg
      = (dhMessage e { params with g := othermsg } v).map fun s => (s, zWipe v) := by
    unfold dhSharedSecret dhMessage
    simp only
    cases bnModPower (bnOfBytes othermsg) v (bnOfBytes params.p) with
    | error x => rfl
    | ok r =>
      show (bnToBytes e (some (params.p.length * 8)) r >>= _) = Except.map _ (bnToBytes e (some (params.p.length * 8)) r)
      cases bnToBytes e (some (params.p.length * 8)) r <;> rfl
  rw [e1, e2]
  cases hr : dhMessageH e { params with g := othermsg } privsec h <;>
    cases hp : dhMessage e { params with g := othermsg } v <;>
    rw [hr, hp] at hm <;> simp only [Agrees] at hm
  · rename_i y h1 s
    obtain ⟨hu, hs⟩ := hm
    obtain ⟨hlt, rfl⟩ := List.getElem?_eq_some_iff.1 hv
    have hlt1 : privsec < h1.nums.length := Nat.lt_of_lt_of_le hlt hu.1.length_le
    have e3 : numWipe privsec h1
        = .ok () { h1 with nums := h1.nums.set privsec (zWipe h.nums[privsec]) } := by
      simp only [numWipe, (List.prefix_iff_getElem?.1 hu.1) privsec hlt]
    rw [M.bind_ok hr, M.bind_ok e3]
    refine ⟨hs, ?_, hu.2⟩
    obtain ⟨t, ht⟩ := hu.1
    simp only
    rw [← ht, List.set_append_left _ _ hlt]
    exact List.prefix_append _ _
  · rw [M.bind_exn hr]
    exact hm

/-! ### Non-vacuity -/

namespace Example

def bnEnv64 : BnEnv := ⟨8, id⟩

/-- A key whose factors do not fit in an OCaml integer: 2^127 - 1 and 2^89 - 1 are prime. The
exponent is 1 to keep the numbers small. -/
def crtKey : RsaPrivate :=
  ⟨216, natToBE 27 ((2 ^ 127 - 1) * (2 ^ 89 - 1)), [1], natToBE 16 (2 ^ 127 - 1),
    natToBE 12 (2 ^ 89 - 1), [1], [1], natToBE 16 (2 ^ 38 * 2 ^ 51)⟩

/-- Zarith shares the first argument whenever it can. -/
def shareFirst : Sharing := fun _ => 0

/-- Zarith shares the second argument whenever it can. -/
def shareSecond : Sharing := fun _ => 1

/-- `Z.rem a p` is the object `a`: `mod_power_CRT` erases its argument and still returns the right
number. The number is shorter than 2^89 and longer than an OCaml integer. -/
example : (match numModPowerCRT shareFirst 0 1 2 3 3 4
      ⟨[2 ^ 80 + 5, 2 ^ 127 - 1, 2 ^ 89 - 1, 1, 2 ^ 38], [], 0⟩ with
    | .ok r h => (h.nums[0]?, h.nums[r]?)
    | _ => (none, none)) = (some 0, some (2 ^ 80 + 5)) := by decide +kernel

/-- `mod_power_CRT` if it erased `mq` as well, which the comment at
src/cryptokitBignum.ml:62-64 warns against. -/
def crtWipingMq (share : Sharing) (a p q dp dq qinv : Nat) : M NumHeap Nat := do
  let amodp ← numRem share a p
  let amodq ← numRem share a q
  let mp ← numModPower amodp dp p
  let mq ← numModPower amodq dq q
  let diff ← numSubMod share mp mq p
  let diffQinv ← numMul share diff qinv
  let diffQinvModP ← numRem share diffQinv p
  let prod ← numMul share q diffQinvModP
  let res ← numAdd share prod mq
  numWipe amodp
  numWipe amodq
  numWipe mq
  pure res

/-- It would return 0: the statements above are not true of every choice of erasures. -/
example : (match crtWipingMq shareSecond 0 1 2 3 3 4
      ⟨[2 ^ 80 + 5, 2 ^ 127 - 1, 2 ^ 89 - 1, 1, 2 ^ 38], [], 0⟩ with
    | .ok r h => h.nums[r]?
    | _ => none) = some 0 := by decide +kernel

/-- A whole decryption, in a memory that holds one number and one string of the caller. -/
example : (match rsaDecryptCRTH bnEnv64 shareFirst crtKey (natToBE 11 (2 ^ 80 + 5))
      ⟨[2 ^ 100], [[1, 2, 3]], 0⟩ with
    | .ok y h => (y, h.nums, h.strs.getD 1 [] == natToBE 27 (2 ^ 80 + 5), h.strs.take 1)
    | _ => (0, [], false, [])).2.2 = (true, [[1, 2, 3]]) := by decide +kernel

/-- A key generation on these factors with exponent 65537, and the erasure of the private key. -/
example : (match (do
      let k ← rsaBuildH bnEnv64 shareFirst 256 (2 ^ 127 - 1) (2 ^ 107 - 1) 65537
      rsaWipeKeyH k.1
      pure k) ⟨[2 ^ 100], [[1, 2, 3]], 0⟩ with
    | .ok k h => ((h.strs.getD k.1.d []).all (· == 0), h.strs.getD k.2.e [])
    | _ => (false, [])) = (true, natToBE 32 65537) := by decide +kernel

end Example

end Verif
