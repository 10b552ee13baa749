import Verif.Proof.Poly1305
import Verif.Proof.Poly1305w32
/-
C32: Poly1305.
-/
namespace Verif

/-- C32: for every 32-byte key and every message, however it is cut into pieces, `poly1305_init`,
`poly1305_update` on each piece and `poly1305_finish` give the tag of RFC 8439. `buf0` is the
uninitialised part of the context. -/
theorem C32_poly1305 (key buf0 : Bytes) (hk : key.length = 32) (hb : buf0.length = 16)
    (pieces : List Bytes) :
    ∃ c c', pieces.foldlM poly64Update (poly64Init key buf0) = some c ∧
      poly64Final c = some (Spec.Poly1305 key pieces.flatten, c') := by
  have step : ∀ (pieces : List Bytes) (m : Bytes) (c : PolyCtx),
      MDRep 16 poly64Block (poly64Init key buf0).h m c →
      ∃ c1, pieces.foldlM poly64Update c = some c1 ∧
        MDRep 16 poly64Block (poly64Init key buf0).h (m ++ pieces.flatten) c1 := by
    intro pieces
    induction pieces with
    | nil => intro m c h; exact ⟨c, rfl, by simpa using h⟩
    | cons p ps ih =>
      intro m c h
      obtain ⟨c1, h1, h2⟩ := mdAdd_rep (via := false) (by decide) h p
      obtain ⟨c2, h3, h4⟩ := ih _ c1 h2
      refine ⟨c2, ?_, by simpa using h4⟩
      simp only [List.foldlM_cons, poly64Update, h1, Option.bind_eq_bind, Option.bind_some]
      exact h3
  obtain ⟨c, h1, h2⟩ := step pieces [] (poly64Init key buf0)
    (mdRep_init (by decide) _ _ hb)
  obtain ⟨c', h3⟩ := poly64Final_ok hk (by simpa using h2)
  exact ⟨c, c', h1, h3⟩

/-- C32 for the version of the code used on 32-bit platforms. -/
theorem C32_poly1305_32 (key buf0 : Bytes) (hk : key.length = 32) (hb : buf0.length = 16)
    (pieces : List Bytes) :
    ∃ c c', pieces.foldlM poly32Update (poly32Init key buf0) = some c ∧
      poly32Final c = some (Spec.Poly1305 key pieces.flatten, c') := by
  have step : ∀ (pieces : List Bytes) (m : Bytes) (c : MDBuf Poly32),
      MDRep 16 poly32Block (poly32Init key buf0).h m c →
      ∃ c1, pieces.foldlM poly32Update c = some c1 ∧
        MDRep 16 poly32Block (poly32Init key buf0).h (m ++ pieces.flatten) c1 := by
    intro pieces
    induction pieces with
    | nil => intro m c h; exact ⟨c, rfl, by simpa using h⟩
    | cons p ps ih =>
      intro m c h
      obtain ⟨c1, h1, h2⟩ := mdAdd_rep (via := false) (by decide) h p
      obtain ⟨c2, h3, h4⟩ := ih _ c1 h2
      refine ⟨c2, ?_, by simpa using h4⟩
      simp only [List.foldlM_cons, poly32Update, h1, Option.bind_eq_bind, Option.bind_some]
      exact h3
  obtain ⟨c, h1, h2⟩ := step pieces [] (poly32Init key buf0)
    (mdRep_init (by decide) _ _ hb)
  obtain ⟨c', h3⟩ := poly32Final_ok hk (by simpa using h2)
  exact ⟨c, c', h1, h3⟩

/-- C63: once the tag has been computed, by either version of the code, nothing made of the one-time key remains in the
context (the buffer still has the last bytes of the message). -/
theorem C63_poly1305_finish :
    (∀ c tag c', poly64Final c = some (tag, c') → c'.h.r0 = 0 ∧ c'.h.r1 = 0 ∧ c'.h.r2 = 0 ∧ c'.h.h0 = 0 ∧ c'.h.h1 = 0
      ∧ c'.h.h2 = 0 ∧ c'.h.pad0 = 0 ∧ c'.h.pad1 = 0) ∧
    (∀ c tag c', poly32Final c = some (tag, c') → c'.h.r0 = 0 ∧ c'.h.r1 = 0 ∧ c'.h.r2 = 0 ∧ c'.h.r3 = 0 ∧ c'.h.r4 = 0
      ∧ c'.h.h0 = 0 ∧ c'.h.h1 = 0 ∧ c'.h.h2 = 0 ∧ c'.h.h3 = 0 ∧ c'.h.h4 = 0
      ∧ c'.h.pad0 = 0 ∧ c'.h.pad1 = 0 ∧ c'.h.pad2 = 0 ∧ c'.h.pad3 = 0) := by
  constructor
  · intro c tag c' h
    unfold poly64Final at h
    split at h
    · simp only [Option.bind_eq_bind, Option.pure_def, Option.bind_eq_some_iff, Option.some.injEq, Prod.mk.injEq] at h
      obtain ⟨b1, _, b2, _, c1, _, _, rfl⟩ := h
      simp
    · cases h
      simp
  · intro c tag c' h
    unfold poly32Final at h
    split at h
    · simp only [Option.bind_eq_bind, Option.pure_def, Option.bind_eq_some_iff, Option.some.injEq, Prod.mk.injEq] at h
      obtain ⟨b1, _, b2, _, c1, _, _, rfl⟩ := h
      simp
    · cases h
      simp

end Verif

namespace Verif.Example

/-- RFC 8439 section 2.5.2: key and message ("Cryptographic Forum Research Group"), in two pieces. -/
def polyKey : Bytes := natToBE 32 0x85d6be7857556d337f4452fe42d506a80103808afb0db2fd4abff6af4149f51b
def polyMsg1 : Bytes := natToBE 34 0x43727970746f6772617068696320466f72756d2052657365617263682047726f7570

/-- The expected tag, obtained from the specification by running the model. -/
theorem poly_rfc8439 : Spec.Poly1305 polyKey polyMsg1
    = natToBE 16 0xa8061dc1305136c6c22b8baf0c0127a9 := by
  obtain ⟨c, c', h1, h2⟩ := C32_poly1305 polyKey (List.replicate 16 7) (by decide) (by decide)
    [polyMsg1.take 21, polyMsg1.drop 21]
  have hrun : ([polyMsg1.take 21, polyMsg1.drop 21].foldlM poly64Update
      (poly64Init polyKey (List.replicate 16 7))).bind
      (fun c => (poly64Final c).map Prod.fst) = some (natToBE 16 0xa8061dc1305136c6c22b8baf0c0127a9) := by
    decide +kernel
  rw [h1] at hrun
  simp only [Option.bind_some, h2, Option.map_some, Option.some.injEq] at hrun
  simpa using hrun

end Verif.Example
