import Verif.Model.Endian
import Verif.Proof.Words
import Verif.Props.C18_C21_Stream
import Verif.Props.C22_C24_SHA
import Verif.Props.C26_Ripemd
import Verif.Props.C44_Blowfish
/-
C73: results do not depend on the byte order of the machine.
-/
namespace Verif

theorem chunks_copyAndSwap {k : Nat} (hk : 0 < k) (b : Bytes) :
    chunks k (copyAndSwap k b) = (chunks k b).map List.reverse := by
  induction h : b.length using Nat.strongRecOn generalizing b with
  | _ m ih =>
    by_cases hb : b = []
    · subst hb; simp [copyAndSwap, chunks_nil]
    · have hpos : 0 < b.length := List.length_pos_iff.2 hb
      have e : copyAndSwap k b = (b.take k).reverse ++ copyAndSwap k (b.drop k) := by
        simp [copyAndSwap, chunks_cons hk hb]
      rw [chunks_cons hk hb, List.map_cons, e]
      by_cases hl : k ≤ b.length
      · rw [chunks_append hk (by simp; omega), ih _ (by simp; omega) _ rfl]
      · have hd : b.drop k = [] := List.drop_eq_nil_of_le (by omega)
        have ht : b.take k = b := List.take_of_length_le (by omega)
        rw [hd, ht]
        have : b.reverse ≠ [] := by simpa using hb
        simp only [copyAndSwap, chunks_nil, List.map_nil, List.flatten_nil, List.append_nil]
        rw [chunks_cons hk this, List.take_of_length_le (by simp; omega),
          List.drop_eq_nil_of_le (by simp; omega), chunks_nil]

theorem copyAndSwap_flatten {k : Nat} (hk : 0 < k) (bs : List Bytes) (h : ∀ b ∈ bs, b.length = k) :
    copyAndSwap k bs.flatten = (bs.map List.reverse).flatten := by
  rw [copyAndSwap, chunks_of_flatten hk bs h]

theorem natToLE_len (k x : Nat) : (natToLE k x).length = k := by
  induction k generalizing x with
  | zero => rfl
  | succ k ih => simp [natToLE, ih]

theorem Endian.sha_load (e : Endian) {k : Nat} (hk : 0 < k) (w : Nat) (b : Bytes) :
    e.wordsOfMem k w (e.shaCopyAndSwap k b) = Verif.wordsOfMem k w (copyAndSwap k b) := by
  cases e with
  | little => rfl
  | big =>
    simp [Endian.wordsOfMem, Verif.wordsOfMem, Endian.shaCopyAndSwap, chunks_copyAndSwap hk,
      Endian.order, Function.comp_def]

theorem Endian.sha_store (e : Endian) {k : Nat} (hk : 0 < k) (ws : List (BitVec w)) :
    e.shaCopyAndSwap k (e.memOfWords k ws) = copyAndSwap k (Verif.memOfWords k ws) := by
  cases e with
  | little => rfl
  | big =>
    rw [Verif.memOfWords, copyAndSwap_flatten hk _ (by
      intro b hb
      obtain ⟨x, _, rfl⟩ := List.mem_map.1 hb
      exact natToLE_len _ _)]
    simp [Endian.memOfWords, Endian.shaCopyAndSwap, Endian.order, Function.comp_def]

theorem Endian.rmd_load (e : Endian) {k : Nat} (hk : 0 < k) (w : Nat) (b : Bytes) :
    e.wordsOfMem k w (e.rmdCopyAndSwap k b) = Verif.wordsOfMem k w b := by
  cases e with
  | little => rfl
  | big =>
    simp [Endian.wordsOfMem, Verif.wordsOfMem, Endian.rmdCopyAndSwap, chunks_copyAndSwap hk,
      Endian.order, Function.comp_def]

theorem Endian.rmd_store (e : Endian) {k : Nat} (hk : 0 < k) (ws : List (BitVec w)) :
    e.rmdCopyAndSwap k (e.memOfWords k ws) = Verif.memOfWords k ws := by
  cases e with
  | little => rfl
  | big =>
    show copyAndSwap k (Endian.memOfWords .big k ws) = _
    rw [Endian.memOfWords, copyAndSwap_flatten hk _ (by
      intro b hb
      obtain ⟨x, _, rfl⟩ := List.mem_map.1 hb
      simp [Endian.order, natToLE_len])]
    simp [Verif.memOfWords, Endian.order, Function.comp_def]

theorem sha1On_eq (e : Endian) : sha1On e = sha1 := by
  have ht : sha1TransformOn e = sha1Transform := by
    funext st b
    simp only [sha1TransformOn, sha1Transform, e.sha_load (by decide : 0 < 4)]
  have ha : sha1AddOn e = sha1Add := by
    funext c d
    simp only [sha1AddOn, sha1Add, ht]
  have hf : sha1FinishOn e = sha1Finish := by
    funext c
    simp only [sha1FinishOn, sha1Finish, ht, e.sha_store (by decide : 0 < 4)]
  rw [sha1On, ha, hf, sha1]

theorem sha2_on (e : Endian) (p : Sha2Code w) (hp : 0 < p.wordBytes) :
    sha2AddOn e p = sha2Add p ∧ ∀ k, sha2FinishOn e p k = sha2Finish p k := by
  have ht : sha2TransformOn e p = sha2Transform p := by
    funext st b
    simp only [sha2TransformOn, sha2Transform, e.sha_load hp]
  refine ⟨?_, fun k => ?_⟩
  · funext c d
    simp only [sha2AddOn, sha2Add, ht]
  · funext c
    simp only [sha2FinishOn, sha2Finish, ht, e.sha_store hp]

theorem ripemd160On_eq (e : Endian) : ripemd160On e = ripemd160 := by
  have ht : rmdCompressOn e = rmdCompress := by
    funext st b
    simp only [rmdCompressOn, rmdCompress, e.rmd_load (by decide : 0 < 4)]
  have ha : rmdAddOn e = rmdAdd := by
    funext c d
    simp only [rmdAddOn, rmdAdd, ht]
  have hf : rmdFinishOn e = rmdFinish := by
    funext c
    simp only [rmdFinishOn, rmdFinish, ht, e.rmd_store (by decide : 0 < 4)]
  rw [ripemd160On, ha, hf, ripemd160]

theorem Endian.u32to8Little_eq (e : Endian) (x : W32) : e.u32to8Little x = toLE32 x := by
  cases e with
  | little => simp [Endian.u32to8Little, Endian.memOfWords, Endian.order, toLE32_eq]
  | big => rfl

theorem chacha20On_eq (e : Endian) : chacha20On e = chacha20 := by
  have hb : chachaBlockOn e = chachaBlock := by
    funext c
    simp only [chachaBlockOn, chachaBlock, e.u32to8Little_eq]
  have hn : chachaNextOn e = chachaNext := by
    funext c
    simp only [chachaNextOn, chachaNext, hb]
    rfl
  rw [chacha20On, hn, chacha20]

theorem Blowfish.loadOn_eq (e : Endian) (b : Bytes) : loadOn e b = load b := by
  have h : load b = BitVec.ofNat 32 (leNat [byteAt b 3, byteAt b 2, byteAt b 1, byteAt b 0]) := by
    rw [show [byteAt b 3, byteAt b 2, byteAt b 1, byteAt b 0]
      = [byteAt b 3, byteAt b 2, byteAt b 1, byteAt b 0].take 4 from rfl, ← le32or_eq (by simp)]
    simp only [load, le32or, byteAt, List.getD_cons_zero, List.getD_cons_succ]
    generalize (b.getD 0 0).setWidth 32 <<< 24 = x0
    generalize (b.getD 1 0).setWidth 32 <<< 16 = x1
    generalize (b.getD 2 0).setWidth 32 <<< 8 = x2
    rw [BitVec.or_comm (x0 ||| x1 ||| x2), BitVec.or_comm (x0 ||| x1), BitVec.or_comm x0]
    simp only [BitVec.or_assoc]
  rw [h]
  cases e <;> rfl

theorem Blowfish.storeOn_eq (e : Endian) (x : W32) : storeOn e x = store x := by
  have h : e.memOfWords 4 [x] = e.order (toLE32 x) := by
    simp [Endian.memOfWords, toLE32_eq]
  unfold storeOn
  rw [h]
  cases e <;> rfl

theorem Blowfish.encOn_eq (e : Endian) : cipherEncOn e = cipherEnc := by
  have : encryptStubOn e = encryptStub := by
    funext c b; simp only [encryptStubOn, encryptStub, loadOn_eq, storeOn_eq]
  rw [cipherEncOn, this, cipherEnc]

theorem Blowfish.decOn_eq (e : Endian) : cipherDecOn e = cipherDec := by
  have : decryptStubOn e = decryptStub := by
    funext c b; simp only [decryptStubOn, decryptStub, loadOn_eq, storeOn_eq]
  rw [cipherDecOn, this, cipherDec]

/-! ### C73: on machines of both kinds, the results are those of the standards. -/

theorem C73_sha1 (e : Endian) (buf0 : Bytes) (h : buf0.length = 64) :
    (sha1On e).Computes (sha1Init buf0) Spec.SHA1 := by
  rw [sha1On_eq]; exact C22_sha1 buf0 h

theorem C73_sha224 (e : Endian) (buf0 : Bytes) (h : buf0.length = 64) :
    (sha224On e).Computes (sha224Init buf0) Spec.SHA224 := by
  obtain ⟨ha, hf⟩ := sha2_on e sha256Code (by decide)
  rw [sha224On, ha, hf]; exact C23_sha224 buf0 h

theorem C73_sha256 (e : Endian) (buf0 : Bytes) (h : buf0.length = 64) :
    (sha256On e).Computes (sha256Init buf0) Spec.SHA256 := by
  obtain ⟨ha, hf⟩ := sha2_on e sha256Code (by decide)
  rw [sha256On, ha, hf]; exact C23_sha256 buf0 h

theorem C73_sha384 (e : Endian) (buf0 : Bytes) (h : buf0.length = 128) :
    (sha384On e).Computes (sha384Init buf0) Spec.SHA384 := by
  obtain ⟨ha, hf⟩ := sha2_on e sha512Code (by decide)
  rw [sha384On, ha, hf]; exact C24_sha384 buf0 h

theorem C73_sha512 (e : Endian) (buf0 : Bytes) (h : buf0.length = 128) :
    (sha512On e).Computes (sha512Init buf0) Spec.SHA512 := by
  obtain ⟨ha, hf⟩ := sha2_on e sha512Code (by decide)
  rw [sha512On, ha, hf]; exact C24_sha512 buf0 h

theorem C73_ripemd160 (e : Endian) (buf0 : Bytes) (h : buf0.length = 64) :
    (ripemd160On e).Computes (rmdInit buf0) Spec.RIPEMD160 := by
  rw [ripemd160On_eq]; exact C26_ripemd160 buf0 h

theorem C73_chacha20 (e : Endian) {env : Env} {key : Bytes} {iv : Option Bytes} {ctr : Option W64}
    (ha : Spec.ChaChaArgs key iv (ctr.getD 0)) (calls : List StreamCall)
    (hl : ∀ x ∈ calls, Spec.StreamCall.Legal x) :
    ∃ s, chacha20Init env key iv ctr = .ok s ∧ ((chacha20On e).runCalls calls s).observe
      = some (.ok (Spec.streamCalls
          (Spec.ChaCha20.keystream key (Spec.chachaIV iv) (ctr.getD 0).toNat) 0 calls)) := by
  rw [chacha20On_eq]; exact C20_chacha20_calls ha calls hl

theorem C73_blowfish (e : Endian) {key : Bytes} (hk : 4 ≤ key.length ∧ key.length ≤ 56) :
    ∃ k, Blowfish.new key = .ok k
      ∧ PureCipher (Blowfish.cipherEncOn e) k (Spec.Blowfish.encrypt key)
      ∧ PureCipher (Blowfish.cipherDecOn e) k (Spec.Blowfish.decrypt key) := by
  obtain ⟨k, h1, _, _, h2, h3⟩ := C44_blowfish hk
  rw [Blowfish.encOn_eq, Blowfish.decOn_eq]
  exact ⟨k, h1, h2, h3⟩

namespace Example

/-- On a big-endian machine, "abc" hashed by the model in two calls. -/
example : ((sha1On .big).digest [.addString [0x61, 0x62], .addChar 0x63]
    (sha1Init (List.replicate 64 0x55))).observe
    = some (.ok [0xa9, 0x99, 0x3e, 0x36, 0x47, 0x06, 0x81, 0x6a, 0xba, 0x3e, 0x25, 0x71, 0x78, 0x50,
        0xc2, 0x6c, 0x9c, 0xd0, 0xd8, 0x9d]) := by decide +kernel

/-- The two machines do not hold the same bytes in memory. -/
example : (Endian.big.memOfWords 4 [(0x01020304 : W32)], Endian.little.memOfWords 4 [(0x01020304 : W32)])
    = ([1, 2, 3, 4], [4, 3, 2, 1]) := by decide +kernel

end Example

end Verif
