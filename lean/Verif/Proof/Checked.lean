import Verif.Model.Checked
import Verif.Proof.Block
/-
Bounds-checked C block ciphers are stateless block ciphers.
-/
namespace Verif

variable {σ : Type} {n : Nat}

theorem stubCall_ok {stub : Bytes → Option Bytes} {src : Src} {so dofs : Nat} {k : σ} {dst out : Bytes}
    (hs : so + n ≤ (src.read dst).length) (hd : dofs + out.length ≤ dst.length)
    (ho : stub (slice (src.read dst) so n) = some out) :
    stubCall n stub src so dofs (k, dst) = .ok () (k, splice dst dofs out) := by
  simp only [stubCall, M.bind_def, M.get_def, cRead_ok hs, M.orUB_some, ho, cWrite_ok hd,
    M.modify_def]

/-- composition of the successive stub functions -/
def stubFun : List (Bytes → Bytes) → Bytes → Bytes
  | [], b => b
  | E :: Es, b => stubFun Es (E b)

theorem stubFun_length {Es : List (Bytes → Bytes)}
    (hE : ∀ E ∈ Es, ∀ b : Bytes, b.length = n → (E b).length = n) {b : Bytes} (hb : b.length = n) :
    (stubFun Es b).length = n := by
  induction Es generalizing b with
  | nil => exact hb
  | cons E Es ih =>
    exact ih (fun E' h => hE E' (by simp [h])) (hE E (by simp) b hb)

theorem stubCalls_ok {Es : List (Bytes → Bytes)} {stubs : List (Bytes → Option Bytes)} {dofs : Nat}
    {k : σ} {dst : Bytes} {b : Bytes} (hb : b.length = n) (hd : dofs + n ≤ dst.length)
    (hst : ∀ b : Bytes, b.length = n → stubs.map (· b) = Es.map (fun E => some (E b)))
    (hE : ∀ E ∈ Es, ∀ b : Bytes, b.length = n → (E b).length = n) :
    stubCalls n dofs stubs (k, splice dst dofs b)
      = .ok () (k, splice dst dofs (stubFun Es b)) := by
  induction Es generalizing stubs b with
  | nil =>
    have := hst b hb
    simp only [List.map_nil, List.map_eq_nil_iff] at this
    subst this
    rfl
  | cons E Es ih =>
    cases stubs with
    | nil => have := hst b hb; simp at this
    | cons stub stubs =>
      have h1 := hst b hb
      simp only [List.map_cons, List.cons.injEq] at h1
      have hl := hE E (by simp) b hb
      have hsl : (splice dst dofs b).length = dst.length := splice_length (by omega)
      have hslice : slice (splice dst dofs b) dofs n = b := by
        exact slice_splice_same' hb hd
      have hc := stubCall_ok (n := n) (stub := stub) (src := .self) (so := dofs) (dofs := dofs) (k := k)
        (dst := splice dst dofs b) (out := E b) (by simp only [Src.read_self]; omega) (by omega)
        (by simp only [Src.read_self, hslice]; exact h1.1)
      have hss : splice (splice dst dofs b) dofs (E b) = splice dst dofs (E b) :=
        splice_splice_same (by omega) (by omega)
      rw [hss] at hc
      rw [stubCalls, M.bind_ok hc]
      have := ih (stubs := stubs) (b := E b) hl (by
        intro b' hb'
        have := hst b' hb'
        simp only [List.map_cons, List.cons.injEq] at this
        exact this.2) (fun E' h => hE E' (by simp [h]))
      exact this

theorem checkedCipher_pure (hn : 0 < n) {stub : σ → Bytes → Option Bytes}
    {stubs : σ → List (Bytes → Option Bytes)} {wipe : σ → σ} {k : σ} {E : Bytes → Bytes}
    {Es : List (Bytes → Bytes)}
    (h1 : ∀ b : Bytes, b.length = n → stub k b = some (E b))
    (h2 : ∀ b : Bytes, b.length = n → (stubs k).map (· b) = Es.map (fun E => some (E b)))
    (hE1 : ∀ b : Bytes, b.length = n → (E b).length = n)
    (hE2 : ∀ E ∈ Es, ∀ b : Bytes, b.length = n → (E b).length = n) :
    PureCipher (checkedCipher n stub stubs wipe) k (fun b => stubFun Es (E b)) where
  pos := hn
  out_len := by
    intro s blk _ hb
    exact stubFun_length hE2 (hE1 blk hb)
  inv_step := fun h _ => h
  run := by
    rintro s src so dofs dst rfl hs hd
    change so + n ≤ _ at hs
    change dofs + n ≤ _ at hd
    have hb : (slice (src.read dst) so n).length = n := slice_length_of_le hs
    have hl := hE1 _ hb
    have hc := stubCall_ok (n := n) (stub := stub s) (k := s) (src := src) (so := so) (dofs := dofs)
      hs (by omega) (h1 _ hb)
    have hcs := stubCalls_ok (stubs := stubs s) (k := s) hl hd h2 hE2
    simp only [checkedCipher, M.bind_def, M.get_def]
    rw [if_neg (by omega)]
    rw [M.bind_ok hc, hcs]
    rfl

end Verif
