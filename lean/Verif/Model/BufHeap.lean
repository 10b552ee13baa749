import Verif.Model.OBuf
/-
Class `buffered_output`, src/cryptokit.ml:319-370, with references to buffers: the buffer returned by
`get_substring` is the one of the object, and the buffers that `ensure_capacity` replaces stay in
memory. (In Model/OBuf.lean `get_substring` returns a copy and replaced buffers disappear.)
-/
namespace Verif

/-- The buffers allocated by the object, the oldest first; a reference to a buffer is its position.
`obuf` is the reference to the current buffer. src/cryptokit.ml:321-323, 337. -/
structure BufHeap where
  bufs : List Bytes
  obuf : Nat
  obeg : Nat
  oend : Nat
  deriving DecidableEq

namespace BufHeap

/-- `new buffered_output initial_buffer_size`, src/cryptokit.ml:319-323. -/
def init (env : Env) (initialBufferSize : Nat) : BufHeap :=
  { bufs := [env.create initialBufferSize], obuf := 0, obeg := 0, oend := 0 }

/-- The contents of the buffer `r`. As used in src/cryptokit.ml:326, 329, 357, 361. -/
def contents (s : BufHeap) (r : Nat) : Bytes := s.bufs.getD r []

/-- `ensure_capacity n`, src/cryptokit.ml:325-349. -/
def ensureCapacity (env : Env) (n : Int) : M BufHeap Unit := fun s =>
  let len := (s.contents s.obuf).length
  if (s.oend : Int) + n > len then
    if (s.oend : Int) - s.obeg + n < len then
      match bytesBlit (s.contents s.obuf) s.obeg (s.contents s.obuf) 0 (s.oend - s.obeg) with
      | none => .exn .invalidArg s
      | some b => .ok () { s with bufs := s.bufs.set s.obuf b, obeg := 0, oend := s.oend - s.obeg }
    else
      match OBuf.growLoop ((s.oend : Int) - s.obeg + n) (2 * len) with
      | none => .loop
      | some newlen =>
        if newlen > env.maxLen ∧ ¬ ((s.oend : Int) - s.obeg + n ≤ env.maxLen) then
          .exn (.error .outputBufferOverflow) s
        else
          let newlen := if newlen > env.maxLen then env.maxLen else newlen
          match bytesBlit (s.contents s.obuf) s.obeg (env.create newlen) 0 (s.oend - s.obeg) with
          | none => .exn .invalidArg s
          | some b =>
            .ok () { bufs := s.bufs ++ [b], obuf := s.bufs.length, obeg := 0,
                     oend := s.oend - s.obeg }
  else .ok () s

/-- `available_output`, src/cryptokit.ml:351. -/
def availableOutput : M BufHeap Int := fun s => .ok ((s.oend : Int) - s.obeg) s

/-- `get_substring`, src/cryptokit.ml:353-354: a reference, a position and a length. -/
def getSubstring : M BufHeap (Nat × Int × Int) := fun s =>
  .ok (s.obuf, s.obeg, (s.oend : Int) - s.obeg) { s with obeg := 0, oend := 0 }

/-- `get_string`, src/cryptokit.ml:356-357. -/
def getString : M BufHeap Bytes := fun s =>
  match bytesSub (s.contents s.obuf) s.obeg ((s.oend : Int) - s.obeg) with
  | none => .exn .invalidArg s
  | some r => .ok r { s with obeg := 0, oend := 0 }

/-- `get_char`, src/cryptokit.ml:359-363. -/
def getChar : M BufHeap Byte := fun s =>
  if s.obeg ≥ s.oend then .exn .endOfFile s
  else
    match bytesGet (s.contents s.obuf) s.obeg with
    | none => .exn .invalidArg s
    | some r => .ok r { s with obeg := s.obeg + 1 }

/-- `get_byte`, src/cryptokit.ml:365-366. -/
def getByte : M BufHeap Int := do
  let c ← getChar
  pure (c.toNat : Int)

/-- `wipe`, src/cryptokit.ml:368-369. -/
def wipe : M BufHeap Unit :=
  M.modify fun s => { s with bufs := s.bufs.set s.obuf (wipeBytes (s.contents s.obuf)) }

/-- The idiom by which transforms append data, e.g. src/cryptokit.ml:381-383. -/
def append (env : Env) (x : Bytes) : M BufHeap Unit := do
  ensureCapacity env x.length
  let s ← M.get
  let b ← M.orRaise .invalidArg (bytesBlit x 0 (s.contents s.obuf) s.oend x.length)
  M.modify fun s => { s with bufs := s.bufs.set s.obuf b, oend := s.oend + x.length }

/-- `Bytes.blit x 0 buf ofs (Bytes.length x)` by the caller, on a buffer `r` returned by
`get_substring`, src/cryptokit.ml:353-354. -/
def callerBlit (r : Nat) (ofs : Int) (x : Bytes) : M BufHeap Unit := fun s =>
  match bytesBlit x 0 (s.contents r) ofs x.length with
  | none => .exn .invalidArg s
  | some b => .ok () { s with bufs := s.bufs.set r b }

end BufHeap
end Verif
