import Verif.Model.Basic
/-
Memory allocated outside of the OCaml heap: the contexts of SHA-3 (src/stubs-sha3.c), BLAKE3
(src/stubs-blake3.c) and GHASH (src/stubs-ghash.c), and the streams of Zlib (src/stubs-zlib.c).
Only allocation, erasure and deallocation are modelled here, not the contents.
-/
namespace Verif.Lifetime

/-- A cell of the C heap: never allocated; allocated (`erased`: filled with zeroes and not written
since); freed (`erased`: the contents when it was freed). For `caml_stat_alloc` and
`caml_stat_free`, src/stubs-sha3.c:25, 43, 83. -/
inductive Cell where
  | unused
  | live (erased : Bool)
  | freed (erased : Bool)
  deriving DecidableEq

/-- A custom block: not created yet; existing, with the pointer it holds (`none` is NULL);
collected. src/stubs-sha3.c:21, src/stubs-blake3.c:25, src/stubs-ghash.c:22. -/
inductive Block where
  | absent
  | present (ptr : Option Nat)
  | collected
  deriving DecidableEq

/-- The C heap and the custom blocks. src/stubs-sha3.c:21-29. -/
structure State where
  heap : Nat → Cell
  blocks : Nat → Block

/-- Modelling device for the assignments of src/stubs-sha3.c:26, 48, 84. -/
def State.setCell (s : State) (a : Nat) (c : Cell) : State :=
  { s with heap := fun x => if x = a then c else s.heap x }

/-- Modelling device for the assignments of src/stubs-sha3.c:26, 48, 84. -/
def State.setBlock (s : State) (i : Nat) (b : Block) : State :=
  { s with blocks := fun x => if x = i then b else s.blocks x }

/-- The start of the program. src/stubs-sha3.c:41. -/
def State.init : State := { heap := fun _ => .unused, blocks := fun _ => .absent }

/-- What can happen to objects `i`. src/stubs-sha3.c:23-88, src/stubs-blake3.c:27-88,
src/stubs-ghash.c:24-66. -/
inductive Event where
  /-- `caml_sha3_init`, src/stubs-sha3.c:41-51; `caml_blake3_init`, src/stubs-blake3.c:45-60;
  `caml_ghash_init`, src/stubs-ghash.c:47-55. The allocator returns the address `a`. -/
  | create (i a : Nat)
  /-- `caml_sha3_absorb`, `caml_sha3_extract`, src/stubs-sha3.c:53-78; `caml_blake3_update`,
  `caml_blake3_extract`, src/stubs-blake3.c:62-80; `caml_ghash_mult`, src/stubs-ghash.c:63. -/
  | access (i : Nat)
  /-- `caml_sha3_wipe`, src/stubs-sha3.c:80-88; `caml_blake3_wipe`, src/stubs-blake3.c:82-88. -/
  | wipe (i : Nat)
  /-- The object has become unreachable and the GC calls the finalizer: `caml_sha3_finalize`,
  src/stubs-sha3.c:23-29; `caml_blake3_finalize`, src/stubs-blake3.c:27-33;
  `caml_ghash_finalize`, src/stubs-ghash.c:24-30. -/
  | collect (i : Nat)

/-- What the OCaml program, the allocator and the GC can do: objects are created once, methods are
called on objects that exist, only existing objects are collected, and the allocator returns the
address of a cell that is not in use (possibly one that has been freed).
For src/stubs-sha3.c:41-88. -/
def Possible (s : State) : Event → Prop
  | .create i a => s.blocks i = .absent ∧ ∀ e, s.heap a ≠ .live e
  | .access i => ∃ p, s.blocks i = .present p
  | .wipe i => ∃ p, s.blocks i = .present p
  | .collect i => ∃ p, s.blocks i = .present p

/-- `caml_stat_free`: undefined (`none`) unless the cell is allocated.
src/stubs-sha3.c:26, 84. -/
def free (s : State) (a : Nat) : Option State :=
  match s.heap a with
  | .live e => some (s.setCell a (.freed e))
  | _ => none

/-- A write through the pointer: undefined unless the cell is allocated. `erase` for
`memset(Context_val(ctx), 0, ...)`, src/stubs-sha3.c:83, src/stubs-blake3.c:85. -/
def touch (s : State) (a : Nat) (erase : Bool) : Option State :=
  match s.heap a with
  | .live _ => some (s.setCell a (.live erase))
  | _ => none

/-- The finalizers: src/stubs-sha3.c:23-29, src/stubs-blake3.c:27-33, src/stubs-ghash.c:24-30. -/
def finalize (s : State) (i : Nat) : Option State :=
  match s.blocks i with
  | .present (some a) => (free s a).map fun s => s.setBlock i (.present none)
  | _ => some s

/-- The effect of an event; `none` is undefined behaviour (use of memory that is not allocated, or
of a NULL pointer). src/stubs-sha3.c:23-88, src/stubs-blake3.c:27-88, src/stubs-ghash.c:24-66. -/
def step (s : State) : Event → Option State
  | .create i a => some ((s.setCell a (.live false)).setBlock i (.present (some a)))
  | .access i =>
    match s.blocks i with
    | .present (some a) => touch s a false
    | _ => none
  | .wipe i =>
    match s.blocks i with
    | .present (some a) => do
      let s ← touch s a true
      let s ← free s a
      some (s.setBlock i (.present none))
    | _ => some s
  | .collect i => (finalize s i).map fun s => s.setBlock i .collected

/-- The histories that are possible and do not (before their last event) lead to undefined
behaviour, with the final state. For src/stubs-sha3.c:23-88. -/
inductive Run : List Event → State → Prop
  | nil : Run [] State.init
  | snoc {evs s e s'} : Run evs s → Possible s e → step s e = some s' → Run (evs ++ [e]) s'

/-- The custom block of a Zlib stream: not created yet; existing, with the address of the `z_stream`
and that of the state allocated by zlib, which the `z_stream` points to (`none`: Z_NULL);
collected. src/stubs-zlib.c:31. -/
inductive ZBlock where
  | absent
  | present (stream : Nat) (inner : Option Nat)
  | collected
  deriving DecidableEq

/-- The C heap (whether each cell is allocated) and the streams. src/stubs-zlib.c:58-78. -/
structure ZState where
  heap : Nat → Bool
  blocks : Nat → ZBlock

/-- The start of the program. src/stubs-zlib.c:68. -/
def ZState.init : ZState := { heap := fun _ => false, blocks := fun _ => .absent }

/-- What can happen to stream `i`. src/stubs-zlib.c:58-177. -/
inductive ZEvent where
  /-- `caml_zlib_deflateInit`, `caml_zlib_inflateInit` that succeed, src/stubs-zlib.c:68-93,
  133-141: allocation of the `z_stream` at `a` and by zlib of its state at `b`. -/
  | create (i a b : Nat)
  /-- `caml_zlib_deflate`, `caml_zlib_inflate`, src/stubs-zlib.c:98-123,
  143-169. When the state is Z_NULL
  zlib returns `Z_STREAM_ERROR`. -/
  | use (i : Nat)
  /-- `caml_zlib_deflateEnd`, `caml_zlib_inflateEnd`, src/stubs-zlib.c:125-131,
  171-177: zlib frees its state
  and sets the pointer to Z_NULL; if it is already, it returns `Z_STREAM_ERROR`. Called at the end of
  `finish`, src/cryptokit.ml:2562, 2615. -/
  | finish (i : Nat)
  /-- The finalizer, `caml_zlib_free_stream`, src/stubs-zlib.c:58-62. -/
  | collect (i : Nat)

/-- As `Possible`; the two cells allocated are distinct. For src/stubs-zlib.c:58-177. -/
def ZPossible (s : ZState) : ZEvent → Prop
  | .create i a b => s.blocks i = .absent ∧ s.heap a = false ∧ s.heap b = false ∧ a ≠ b
  | .use i => ∃ a q, s.blocks i = .present a q
  | .finish i => ∃ a q, s.blocks i = .present a q
  | .collect i => ∃ a q, s.blocks i = .present a q

/-- The effect of an event on the memory; `none` is the use of memory that is not allocated.
src/stubs-zlib.c:58-177. -/
def zstep (s : ZState) : ZEvent → Option ZState
  | .create i a b =>
    some { heap := fun x => if x = a then true else if x = b then true else s.heap x
           blocks := fun j => if j = i then .present a (some b) else s.blocks j }
  | .use i =>
    match s.blocks i with
    | .present a q =>
      if s.heap a then
        match q with
        | none => some s
        | some b => if s.heap b then some s else none
      else none
    | _ => none
  | .finish i =>
    match s.blocks i with
    | .present a q =>
      if s.heap a then
        match q with
        | none => some s
        | some b =>
          if s.heap b then
            some { heap := fun x => if x = b then false else s.heap x
                   blocks := fun j => if j = i then .present a none else s.blocks j }
          else none
      else none
    | _ => none
  | .collect i =>
    match s.blocks i with
    | .present a _ =>
      if s.heap a then
        some { heap := fun x => if x = a then false else s.heap x
               blocks := fun j => if j = i then .collected else s.blocks j }
      else none
    | _ => none

/-- The possible histories. For src/stubs-zlib.c:58-177. -/
inductive ZRun : List ZEvent → ZState → Prop
  | nil : ZRun [] ZState.init
  | snoc {evs s e s'} : ZRun evs s → ZPossible s e → zstep s e = some s' → ZRun (evs ++ [e]) s'

end Verif.Lifetime
