import Verif.Model.Basic
/-
Lemmas about `slice`, `splice` and the byte primitives.
-/
namespace Verif

@[simp] theorem M.pure_def (a : α) (s : σ) : (Pure.pure a : M σ α) s = .ok a s := rfl
theorem M.bind_def (m : M σ α) (k : α → M σ β) (s : σ) :
    (m >>= k) s = match m s with
      | .ok a s' => k a s'
      | .exn e s' => .exn e s'
      | .ub => .ub
      | .loop => .loop := rfl
theorem M.bind_ok {m : M σ α} {k : α → M σ β} {s : σ} {a s'} (h : m s = .ok a s') :
    (m >>= k) s = k a s' := by rw [M.bind_def, h]
theorem M.bind_exn {m : M σ α} {k : α → M σ β} {s : σ} {e s'} (h : m s = .exn e s') :
    (m >>= k) s = .exn e s' := by rw [M.bind_def, h]
theorem M.bind_ub {m : M σ α} {k : α → M σ β} {s : σ} (h : m s = .ub) :
    (m >>= k) s = .ub := by rw [M.bind_def, h]
@[simp] theorem M.raise_def (e : Exn) (s : σ) : (M.raise e : M σ α) s = .exn e s := rfl
@[simp] theorem M.get_def (s : σ) : (M.get : M σ σ) s = .ok s s := rfl
@[simp] theorem M.modify_def (f : σ → σ) (s : σ) : (M.modify f) s = .ok () (f s) := rfl
@[simp] theorem M.orRaise_some (e : Exn) (a : α) (s : σ) :
    (M.orRaise e (some a) : M σ α) s = .ok a s := rfl
@[simp] theorem M.orRaise_none (e : Exn) (s : σ) :
    (M.orRaise e none : M σ α) s = .exn e s := rfl
@[simp] theorem M.orUB_some (a : α) (s : σ) : (M.orUB (some a) : M σ α) s = .ok a s := rfl
@[simp] theorem M.orUB_none (s : σ) : (M.orUB none : M σ α) s = .ub := rfl

@[simp] theorem Src.read_other (b d : Bytes) : (Src.other b).read d = b := rfl
@[simp] theorem Src.read_self (d : Bytes) : Src.self.read d = d := rfl

@[simp] theorem slice_length (b : Bytes) (o n : Nat) :
    (slice b o n).length = min n (b.length - o) := by simp [slice]

theorem slice_length_of_le {b : Bytes} {o n : Nat} (h : o + n ≤ b.length) :
    (slice b o n).length = n := by simp; omega

theorem splice_length {b : Bytes} {o : Nat} {x : Bytes} (h : o + x.length ≤ b.length) :
    (splice b o x).length = b.length := by
  simp [splice]; omega

theorem getElem?_slice (b : Bytes) (o n i : Nat) :
    (slice b o n)[i]? = if i < n then b[o + i]? else none := by
  simp [slice, List.getElem?_take]

theorem getElem?_splice {b : Bytes} {o : Nat} {x : Bytes} (h : o + x.length ≤ b.length) (i : Nat) :
    (splice b o x)[i]? = if i < o then b[i]? else if i < o + x.length then x[i - o]? else b[i]? := by
  unfold splice
  rw [List.append_assoc, List.getElem?_append]
  have : (List.take o b).length = o := by simp; omega
  rw [this]
  split
  · simp [*]
  · rw [List.getElem?_append]
    split
    · rw [if_pos (by omega)]
    · rw [if_neg (by omega), List.getElem?_drop]; congr 1; omega

@[simp] theorem slice_zero (b : Bytes) (n : Nat) : slice b 0 n = b.take n := by simp [slice]
@[simp] theorem slice_nil_len (b : Bytes) (o : Nat) : slice b o 0 = [] := by simp [slice]
theorem slice_full (b : Bytes) : slice b 0 b.length = b := by simp
theorem slice_full' {b : Bytes} {n : Nat} (h : b.length = n) : slice b 0 n = b := by simp [← h]

@[simp] theorem splice_nil (b : Bytes) (o : Nat) : splice b o [] = b := by simp [splice]
theorem splice_full {b x : Bytes} (h : b.length = x.length) : splice b 0 x = x := by
  simp [splice, h]

theorem slice_splice_same {b : Bytes} {o : Nat} {x : Bytes} (h : o + x.length ≤ b.length) :
    slice (splice b o x) o x.length = x := by
  apply List.ext_getElem?; intro i
  rw [getElem?_slice]
  split
  · rw [getElem?_splice h, if_neg (by omega), if_pos (by omega)]; congr 1; omega
  · rw [eq_comm, List.getElem?_eq_none]; omega

theorem slice_splice_same' {b : Bytes} {o n : Nat} {x : Bytes} (hn : x.length = n)
    (h : o + n ≤ b.length) : slice (splice b o x) o n = x := by
  subst hn; exact slice_splice_same h

/-- reading a region disjoint from a written one -/
theorem slice_splice_disj {b : Bytes} {o : Nat} {x : Bytes} {p n : Nat}
    (h : o + x.length ≤ b.length) (hd : p + n ≤ o ∨ o + x.length ≤ p) :
    slice (splice b o x) p n = slice b p n := by
  apply List.ext_getElem?; intro i
  rw [getElem?_slice, getElem?_slice]
  split
  · rw [getElem?_splice h]; split
    · rfl
    · rw [if_neg (by omega)]
  · rfl

theorem take_splice {b : Bytes} {o : Nat} {x : Bytes} (h : o + x.length ≤ b.length) :
    (splice b o x).take (o + x.length) = b.take o ++ x := by
  unfold splice
  rw [List.take_append_of_le_length (by simp; omega), List.take_of_length_le (by simp; omega)]

theorem slice_append_right (b : Bytes) (o m n : Nat) :
    slice b o (m + n) = slice b o m ++ slice b (o + m) n := by
  simp [slice, List.take_add, List.drop_drop]

theorem splice_splice_append {b : Bytes} {o : Nat} {x y : Bytes}
    (h : o + x.length + y.length ≤ b.length) :
    splice (splice b o x) (o + x.length) y = splice b o (x ++ y) := by
  have hx : o + x.length ≤ b.length := by omega
  have hl := splice_length hx
  apply List.ext_getElem?; intro i
  rw [getElem?_splice (by omega), getElem?_splice hx, getElem?_splice (by simp; omega)]
  simp only [List.length_append]
  by_cases h1 : i < o
  · simp [h1, show i < o + x.length by omega]
  · by_cases h2 : i < o + x.length
    · simp [h1, h2, show i < o + (x.length + y.length) by omega]
      rw [List.getElem?_append_left (by omega)]
    · by_cases h3 : i < o + x.length + y.length
      · simp [h1, h2, h3, show i < o + (x.length + y.length) by omega]
        rw [List.getElem?_append_right (by omega)]; congr 1; omega
      · simp [h1, h2, h3, show ¬ i < o + (x.length + y.length) by omega]

theorem splice_splice_same {b : Bytes} {o : Nat} {x y : Bytes} (hxy : x.length = y.length)
    (h : o + x.length ≤ b.length) : splice (splice b o x) o y = splice b o y := by
  have hl := splice_length h
  apply List.ext_getElem?; intro i
  rw [getElem?_splice (by omega), getElem?_splice h, getElem?_splice (by omega)]
  split
  · rfl
  · split
    · rfl
    · rw [if_neg (by omega)]

@[simp] theorem Env.create_length (env : Env) (n : Nat) : (env.create n).length = n := by
  simp [Env.create]

@[simp] theorem wipeBytes_length (b : Bytes) : (wipeBytes b).length = b.length := by
  simp [wipeBytes]

/-- `Bytes.blit` on legal natural offsets. -/
theorem bytesBlit_ok {src : Bytes} {so : Nat} {dst : Bytes} {dofs n : Nat}
    (h1 : so + n ≤ src.length) (h2 : dofs + n ≤ dst.length) :
    bytesBlit src so dst dofs n = some (splice dst dofs (slice src so n)) := by
  unfold bytesBlit InRange
  rw [if_pos (by omega)]
  simp

theorem bytesBlit_bad_src {src : Bytes} {so : Int} {dst : Bytes} {dofs : Int} {n : Int}
    (h : ¬ InRange src so n) : bytesBlit src so dst dofs n = none := by
  unfold bytesBlit; rw [if_neg]; exact fun h' => h h'.1

theorem bytesBlit_bad_dst {src : Bytes} {so : Int} {dst : Bytes} {dofs : Int} {n : Int}
    (h : ¬ InRange dst dofs n) : bytesBlit src so dst dofs n = none := by
  unfold bytesBlit; rw [if_neg]; exact fun h' => h h'.2

theorem bytesSub_ok {b : Bytes} {o n : Nat} (h : o + n ≤ b.length) :
    bytesSub b o n = some (slice b o n) := by
  unfold bytesSub InRange
  rw [if_pos (by omega)]; simp

theorem cRead_ok {b : Bytes} {o n : Nat} (h : o + n ≤ b.length) :
    cRead b o n = some (slice b o n) := by
  unfold cRead InRange
  rw [if_pos (by omega)]; simp

theorem cWrite_ok {b : Bytes} {o : Nat} {x : Bytes} (h : o + x.length ≤ b.length) :
    cWrite b o x = some (splice b o x) := by
  unfold cWrite InRange
  rw [if_pos (by omega)]; simp

theorem bytesSet_ok {b : Bytes} {i : Nat} {c : Byte} (h : i < b.length) :
    bytesSet b i c = some (b.set i c) := by
  unfold bytesSet; rw [if_pos (by omega)]; simp

theorem set_eq_splice {b : Bytes} {i : Nat} {c : Byte} (h : i < b.length) :
    b.set i c = splice b i [c] := by
  apply List.ext_getElem?; intro j
  rw [getElem?_splice (by simp; omega), List.getElem?_set]
  simp only [List.length_singleton]
  by_cases h1 : i = j
  · subst h1; simp [h]
  · by_cases h2 : j < i
    · simp [h1, h2]
    · simp [h1, h2, show ¬ j < i + 1 by omega]

theorem bytesGet_ok {b : Bytes} {i : Nat} (h : i < b.length) : bytesGet b i = some b[i] := by
  unfold bytesGet; rw [if_pos (by omega)]; simp [h]

end Verif
