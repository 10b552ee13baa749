import Verif.Model.Interop
import Verif.Props.Example
/-
C99 Errors detected by the C code of the compression library, and the arguments that it receives.
-/
namespace Verif

/-- The value `v` represents the error `e` with the arguments `args`, and nothing else: whatever `match` is
applied to it in OCaml, this is the case that is selected. -/
def Represents (v : CVal) (e : Err) (args : List CVal) : Prop :=
  reprOf errorDecl e args = some v ∧
    ∀ e' args', reprOf errorDecl e' args' = some v → e' = e ∧ args' = args

theorem reprFrom_imm_ge [DecidableEq c] {decl : TypeDecl c} : ∀ {k t : Nat} {x : c} {args : List CVal} {n : Int},
    reprFrom k t decl x args = some (.imm n) → (k : Int) ≤ n ∧ args = [] := by
  induction decl with
  | nil => intro k t x args n h; simp [reprFrom] at h
  | cons d rest ih =>
    intro k t x args n h
    obtain ⟨d, m⟩ := d
    unfold reprFrom at h
    split at h
    · split at h
      · cases h
      · rename_i hl
        split at h
        · rename_i hm
          injection h with h; injection h with h
          refine ⟨by omega, List.length_eq_zero_iff.1 (by omega)⟩
        · injection h with h; cases h
    · split at h
      · have := ih h; exact ⟨by omega, this.2⟩
      · exact ih h

theorem reprFrom_block_ge [DecidableEq c] {decl : TypeDecl c} : ∀ {k t : Nat} {x : c} {args : List CVal} {n : Nat}
    {fs : List CVal}, reprFrom k t decl x args = some (.block n fs) → t ≤ n ∧ args = fs := by
  induction decl with
  | nil => intro k t x args n fs h; simp [reprFrom] at h
  | cons d rest ih =>
    intro k t x args n fs h
    obtain ⟨d, m⟩ := d
    unfold reprFrom at h
    split at h
    · split at h
      · cases h
      · split at h
        · injection h with h; cases h
        · injection h with h; injection h with h h'; exact ⟨by omega, h'⟩
    · split at h
      · exact ih h
      · have := ih h; exact ⟨by omega, this.2⟩

theorem reprFrom_inj [DecidableEq c] {decl : TypeDecl c} : ∀ {k t : Nat} {x y : c} {args args' : List CVal} {v : CVal},
    reprFrom k t decl x args = some v → reprFrom k t decl y args' = some v → x = y ∧ args = args' := by
  induction decl with
  | nil => intro k t x y args args' v h; simp [reprFrom] at h
  | cons d rest ih =>
    intro k t x y args args' v h h'
    obtain ⟨d, m⟩ := d
    unfold reprFrom at h h'
    by_cases hx : x = d <;> by_cases hy : y = d
    · subst hx; subst hy
      refine ⟨rfl, ?_⟩
      simp only [if_true] at h h'
      split at h
      · cases h
      · split at h'
        · cases h'
        · rename_i h1 h2
          by_cases hm : m = 0
          · rw [List.length_eq_zero_iff.1 (by omega : args.length = 0),
              List.length_eq_zero_iff.1 (by omega : args'.length = 0)]
          · rw [if_neg hm] at h h'
            rw [← h'] at h
            injection h with h; injection h
    · rw [if_pos hx] at h
      rw [if_neg hy] at h'
      split at h
      · cases h
      · by_cases hm : m = 0
        · rw [if_pos hm] at h h'
          injection h with h
          subst h
          have := (reprFrom_imm_ge h').1
          omega
        · rw [if_neg hm] at h h'
          injection h with h
          subst h
          have := (reprFrom_block_ge h').1
          omega
    · rw [if_neg hx] at h
      rw [if_pos hy] at h'
      split at h'
      · cases h'
      · by_cases hm : m = 0
        · rw [if_pos hm] at h h'
          injection h' with h'
          subst h'
          have := (reprFrom_imm_ge h).1
          omega
        · rw [if_neg hm] at h h'
          injection h' with h'
          subst h'
          have := (reprFrom_block_ge h).1
          omega
    · rw [if_neg hx] at h
      rw [if_neg hy] at h'
      split at h
      · rename_i hm; rw [if_pos hm] at h'; exact ih h h'
      · rename_i hm; rw [if_neg hm] at h'; exact ih h h'

theorem represents_of {v : CVal} {e : Err} {args : List CVal} (h : reprOf errorDecl e args = some v) :
    Represents v e args :=
  ⟨h, fun _ _ h' => reprFrom_inj h' h⟩

/-- C99: an error of zlib, in any of the six functions, arrives as `Error (Compression_error (fn, msg))`, where `fn` is the name
of the function and `msg` the message that zlib left in the stream, or the empty string if it left none. -/
theorem C99_compression_error (fn : String) (msg : Option String) :
    ∃ v, (zlibErrorStub namedInit fn (some msg) : CRes ζ) = .raised (exnError v) ∧
      Represents v .compressionError [.str fn, .str (msg.getD "")] := by
  refine ⟨.block 0 [.str fn, .str (msg.getD "")], ?_, represents_of (by rfl)⟩
  cases msg <;> rfl

/-- C99: in a library compiled without zlib, every stub raises `Error Compression_not_supported`. -/
theorem C99_not_supported :
    ∃ v, (zlibNotSupported namedInit : CRes ζ) = .raised (exnError v) ∧ Represents v .compressionNotSupported [] :=
  ⟨.imm 12, rfl, represents_of (by rfl)⟩

/-- C99: initialization succeeds, or raises `Compression_error`, if the version of zlib is the one that is
expected. -/
theorem C99_init_partial (fn : String) (r : ZInitRes ζ) (hv : r ≠ .versionError) :
    (∃ z, r = .success z ∧ zlibInitStub namedInit fn r = .ret z) ∨
    (∃ msg v, r = .failure msg ∧ zlibInitStub namedInit fn r = .raised (exnError v) ∧
      Represents v .compressionError [.str fn, .str (msg.getD "")]) := by
  cases r with
  | success z => exact .inl ⟨z, rfl, rfl⟩
  | failure msg =>
    obtain ⟨v, h1, h2⟩ := C99_compression_error (ζ := ζ) fn msg
    exact .inr ⟨msg, v, rfl, h1, h2⟩
  | versionError => exact absurd rfl hv

/-- C99 is false if the version of zlib is not the one that is expected: the error is reported with a message read
from a field that nobody has initialised. -/
theorem C99_version_mismatch (fn : String) :
    (zlibInitStub namedInit fn (.versionError : ZInitRes ζ)) = .ub := rfl

/-- The constant of zlib.h for each command. -/
def Spec.flushConst : ZFlush → Nat
  | .noFlush => 0
  | .syncFlush => 2
  | .fullFlush => 3
  | .finish => 4

/-- C99: zlib receives the flush command that the OCaml code names. -/
theorem C99_flush (f : ZFlush) : ∃ v, reprOf flushDecl f [] = some v ∧ flushArg v = some (Spec.flushConst f) := by
  cases f <;> exact ⟨_, rfl, rfl⟩

/-- C99: the directions of DES are the constants `EN0` and `DE1` of src/d3des.h:12-13. -/
theorem C99_des_direction (d : Dir) :
    reprOf dirDecl d [] = some (.imm (match d with | .encrypt => 0 | .decrypt => 1)) := by
  cases d <;> rfl

/-- C99: zlib receives the level given, if it fits in 32 bits. -/
theorem C99_level_partial (init : Int → Bool → ZInitRes ζ) (level : Int) (header : Bool)
    (h1 : -2 ^ 31 ≤ level) (h2 : level < 2 ^ 31) :
    deflateInitStub namedInit init level header = zlibInitStub namedInit "Zlib.deflateInit" (init level header) := by
  unfold deflateInitStub intVal
  rw [BitVec.toInt_ofInt, Int.bmod_eq_of_le (by omega) (by omega)]

/-- C99 is false of other levels: they are reduced modulo 2^32 and, although they are out of range, can be
accepted. -/
theorem C99_level_truncated (init : Int → Bool → ZInitRes ζ) (level : Int) (header : Bool) (hl : 0 ≤ level)
    (hu : level < 2 ^ 31) :
    deflateInitStub namedInit init (2 ^ 32 + level) header = deflateInitStub namedInit init level header := by
  unfold deflateInitStub intVal
  congr 2
  rw [BitVec.toInt_ofInt, BitVec.toInt_ofInt, Int.bmod_def, Int.bmod_def]
  omega

/-- A zlib that accepts the levels from -1 to 9. -/
def Example.initToy : Int → Bool → ZInitRes Nat := fun l _ => if -1 ≤ l ∧ l ≤ 9 then .success l.toNat else .failure none

example : deflateInitStub namedInit Example.initToy 10 true
    = .raised (exnError (.block 0 [.str "Zlib.deflateInit", .str ""])) := by rfl
example : deflateInitStub namedInit Example.initToy (2 ^ 32 + 6) true = .ret 6 := by
  rw [C99_level_truncated _ 6 true (by decide) (by decide), C99_level_partial _ 6 true (by decide) (by decide)]
  rfl
example : Represents (.imm 9) .badEncoding [] := represents_of (by rfl)
example : Represents (.imm 10) .noEntropySource [] := represents_of (by rfl)

end Verif
