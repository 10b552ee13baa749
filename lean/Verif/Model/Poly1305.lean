import Verif.Model.Hash
/-
Poly1305: src/poly1305-donna.c, src/poly1305-donna-64.h (the 64-bit platforms' version) and
src/stubs-poly1305.c.
-/
namespace Verif

/-- C `unsigned __int128`. src/poly1305-donna-64.h:13. -/
abbrev W128 := BitVec 128

/-- The fields of `poly1305_state_internal_t` other than `leftover` and `buffer`,
src/poly1305-donna-64.h:26-33. -/
structure Poly64 where
  r0 : W64
  r1 : W64
  r2 : W64
  h0 : W64
  h1 : W64
  h2 : W64
  pad0 : W64
  pad1 : W64
  final : Bool
  deriving DecidableEq

/-- The context; `MDBuf.numbytes` is the field `leftover`. src/poly1305-donna-64.h:26-33. -/
abbrev PolyCtx := MDBuf Poly64

/-- `poly1305_init`, src/poly1305-donna-64.h:62-86, on a 32-byte key; `buf0` is the initial contents
of the allocated buffer. -/
def poly64Init (key : Bytes) (buf0 : Bytes) : PolyCtx :=
  let t0 := le64or key
  let t1 := le64or (key.drop 8)
  let r0 := t0 &&& 0xffc0fffffff
  let r1 := ((t0 >>> 44) ||| (t1 <<< 20)) &&& 0xfffffc0ffff
  let r2 := (t1 >>> 24) &&& 0x00ffffffc0f
  { h := { r0 := r0, r1 := r1, r2 := r2, h0 := 0, h1 := 0, h2 := 0,
           pad0 := le64or (key.drop 16), pad1 := le64or (key.drop 24), final := false },
    numbytes := 0, buffer := buf0 }

/-- `MUL(out, x, y)`, src/poly1305-donna-64.h:14. -/
def mul128 (x y : W64) : W128 := x.setWidth 128 * y.setWidth 128

/-- One iteration of the loop of `poly1305_blocks`, src/poly1305-donna-64.h:90, 105-106, 108-133,
on the 16 bytes `m`. -/
def poly64Block (st : Poly64) (m : Bytes) : Poly64 :=
  let hibit : W64 := if st.final then 0 else (1 : W64) <<< 40
  let s1 := st.r1 * ((5 : W64) <<< 2)
  let s2 := st.r2 * ((5 : W64) <<< 2)
  let t0 := le64or m
  let t1 := le64or (m.drop 8)
  let h0 := st.h0 + (t0 &&& 0xfffffffffff)
  let h1 := st.h1 + (((t0 >>> 44) ||| (t1 <<< 20)) &&& 0xfffffffffff)
  let h2 := st.h2 + (((t1 >>> 24) &&& 0x3ffffffffff) ||| hibit)
  let d0 := mul128 h0 st.r0 + mul128 h1 s2 + mul128 h2 s1
  let d1 := mul128 h0 st.r1 + mul128 h1 st.r0 + mul128 h2 s2
  let d2 := mul128 h0 st.r2 + mul128 h1 st.r1 + mul128 h2 st.r0
  let c := (d0 >>> 44).setWidth 64
  let h0 := d0.setWidth 64 &&& 0xfffffffffff
  let d1 := d1 + c.setWidth 128
  let c := (d1 >>> 44).setWidth 64
  let h1 := d1.setWidth 64 &&& 0xfffffffffff
  let d2 := d2 + c.setWidth 128
  let c := (d2 >>> 42).setWidth 64
  let h2 := d2.setWidth 64 &&& 0x3ffffffffff
  let h0 := h0 + c * 5
  let c := h0 >>> 44
  let h0 := h0 &&& 0xfffffffffff
  let h1 := h1 + c
  { st with h0 := h0, h1 := h1, h2 := h2 }

/-- `poly1305_update`, src/poly1305-donna.c:16-49, on the bytes `m`. The code has the structure of
`mdAdd`: fill the buffer if it is in use, then process the full blocks in place (the loop of
`poly1305_blocks`, src/poly1305-donna-64.h:108-133), then save the rest. -/
def poly64Update (c : PolyCtx) (m : Bytes) : Option PolyCtx := mdAdd 16 false poly64Block c m

/-- `fully carry h`, src/poly1305-donna-64.h:158-169. -/
def poly64Carry (h0 h1 h2 : W64) : W64 × W64 × W64 :=
  let m44 : W64 := 0xfffffffffff
  let m42 : W64 := 0x3ffffffffff
  let c := h1 >>> 44; let h1 := h1 &&& m44
  let h2 := h2 + c; let c := h2 >>> 42; let h2 := h2 &&& m42
  let h0 := h0 + c * 5; let c := h0 >>> 44; let h0 := h0 &&& m44
  let h1 := h1 + c; let c := h1 >>> 44; let h1 := h1 &&& m44
  let h2 := h2 + c; let c := h2 >>> 42; let h2 := h2 &&& m42
  let h0 := h0 + c * 5; let c := h0 >>> 44; let h0 := h0 &&& m44
  let h1 := h1 + c
  (h0, h1, h2)

/-- `select h if h < p, or h + -p if h >= p`, src/poly1305-donna-64.h:171-184. -/
def poly64Select (h0 h1 h2 : W64) : W64 × W64 × W64 :=
  let m44 : W64 := 0xfffffffffff
  let g0 := h0 + 5; let c := g0 >>> 44; let g0 := g0 &&& m44
  let g1 := h1 + c; let c := g1 >>> 44; let g1 := g1 &&& m44
  let g2 := h2 + c - ((1 : W64) <<< 42)
  let c := (g2 >>> 63) - 1
  let g0 := g0 &&& c
  let g1 := g1 &&& c
  let g2 := g2 &&& c
  let c := ~~~ c
  ((h0 &&& c) ||| g0, (h1 &&& c) ||| g1, (h2 &&& c) ||| g2)

/-- `h = (h + pad)` and the output, src/poly1305-donna-64.h:186-199. -/
def poly64Pad (h0 h1 h2 t0 t1 : W64) : Bytes :=
  let m44 : W64 := 0xfffffffffff
  let m42 : W64 := 0x3ffffffffff
  let h0 := h0 + (t0 &&& m44); let c := h0 >>> 44; let h0 := h0 &&& m44
  let h1 := h1 + ((((t0 >>> 44) ||| (t1 <<< 20)) &&& m44) + c); let c := h1 >>> 44; let h1 := h1 &&& m44
  let h2 := h2 + (((t1 >>> 24) &&& m42) + c); let h2 := h2 &&& m42
  let h0' := h0 ||| (h1 <<< 44)
  let h1' := (h1 >>> 20) ||| (h2 <<< 24)
  toLE64 h0' ++ toLE64 h1'

/-- The end of `poly1305_finish`, src/poly1305-donna-64.h:158-199. -/
def poly64Tag (st : Poly64) : Bytes :=
  let (h0, h1, h2) := poly64Carry st.h0 st.h1 st.h2
  let (h0, h1, h2) := poly64Select h0 h1 h2
  poly64Pad h0 h1 h2 st.pad0 st.pad1

/-- `poly1305_finish`, src/poly1305-donna-64.h:141-210: the last block, then the tag; the state is
cleared. -/
def poly64Final (c : PolyCtx) : Option (Bytes × PolyCtx) := do
  let c ← if c.numbytes ≠ 0 then do
      let b ← cWrite c.buffer c.numbytes [1]
      let b ← cWrite b (c.numbytes + 1 : Nat) (List.replicate (16 - (c.numbytes + 1)) 0)
      pure { c with buffer := b, h := poly64Block { c.h with final := true } b }
    else pure c
  pure (poly64Tag c.h, { c with h := ⟨0, 0, 0, 0, 0, 0, 0, 0, c.h.final⟩ })

end Verif
