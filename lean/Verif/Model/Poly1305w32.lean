import Verif.Model.Hash
/-
Poly1305, the version for 32-bit platforms: src/poly1305-donna.c and src/poly1305-donna-32.h.
-/
namespace Verif

/-- Fields of `poly1305_state_internal_t` other than `leftover` and `buffer`,
src/poly1305-donna-32.h:15-22. -/
structure Poly32 where
  r0 : W32
  r1 : W32
  r2 : W32
  r3 : W32
  r4 : W32
  h0 : W32
  h1 : W32
  h2 : W32
  h3 : W32
  h4 : W32
  pad0 : W32
  pad1 : W32
  pad2 : W32
  pad3 : W32
  final : Bool
  deriving DecidableEq

/-- `poly1305_init`, src/poly1305-donna-32.h:43-69. -/
def poly32Init (key : Bytes) (buf0 : Bytes) : MDBuf Poly32 :=
  { h := { r0 := le32or key &&& 0x3ffffff
           r1 := (le32or (key.drop 3) >>> 2) &&& 0x3ffff03
           r2 := (le32or (key.drop 6) >>> 4) &&& 0x3ffc0ff
           r3 := (le32or (key.drop 9) >>> 6) &&& 0x3f03fff
           r4 := (le32or (key.drop 12) >>> 8) &&& 0x00fffff
           h0 := 0, h1 := 0, h2 := 0, h3 := 0, h4 := 0
           pad0 := le32or (key.drop 16), pad1 := le32or (key.drop 20)
           pad2 := le32or (key.drop 24), pad3 := le32or (key.drop 28), final := false },
    numbytes := 0, buffer := buf0 }

/-- `(uint64_t)x * y`. src/poly1305-donna-32.h:106-110. -/
def mul64 (x y : W32) : W64 := x.setWidth 64 * y.setWidth 64

/-- One iteration of the loop of `poly1305_blocks`, src/poly1305-donna-32.h:73, 86-89, 97-123. -/
def poly32Block (st : Poly32) (m : Bytes) : Poly32 :=
  let hibit : W32 := if st.final then (0 : W32) else (1 : W32) <<< 24
  let s1 := st.r1 * 5
  let s2 := st.r2 * 5
  let s3 := st.r3 * 5
  let s4 := st.r4 * 5
  let h0 := st.h0 + (le32or m &&& 0x3ffffff)
  let h1 := st.h1 + ((le32or (m.drop 3) >>> 2) &&& 0x3ffffff)
  let h2 := st.h2 + ((le32or (m.drop 6) >>> 4) &&& 0x3ffffff)
  let h3 := st.h3 + ((le32or (m.drop 9) >>> 6) &&& 0x3ffffff)
  let h4 := st.h4 + ((le32or (m.drop 12) >>> 8) ||| hibit)
  let d0 := mul64 h0 st.r0 + mul64 h1 s4 + mul64 h2 s3 + mul64 h3 s2 + mul64 h4 s1
  let d1 := mul64 h0 st.r1 + mul64 h1 st.r0 + mul64 h2 s4 + mul64 h3 s3 + mul64 h4 s2
  let d2 := mul64 h0 st.r2 + mul64 h1 st.r1 + mul64 h2 st.r0 + mul64 h3 s4 + mul64 h4 s3
  let d3 := mul64 h0 st.r3 + mul64 h1 st.r2 + mul64 h2 st.r1 + mul64 h3 st.r0 + mul64 h4 s4
  let d4 := mul64 h0 st.r4 + mul64 h1 st.r3 + mul64 h2 st.r2 + mul64 h3 st.r1 + mul64 h4 st.r0
  let c := (d0 >>> 26).setWidth 32
  let h0 := d0.setWidth 32 &&& 0x3ffffff
  let d1 := d1 + c.setWidth 64
  let c := (d1 >>> 26).setWidth 32
  let h1 := d1.setWidth 32 &&& 0x3ffffff
  let d2 := d2 + c.setWidth 64
  let c := (d2 >>> 26).setWidth 32
  let h2 := d2.setWidth 32 &&& 0x3ffffff
  let d3 := d3 + c.setWidth 64
  let c := (d3 >>> 26).setWidth 32
  let h3 := d3.setWidth 32 &&& 0x3ffffff
  let d4 := d4 + c.setWidth 64
  let c := (d4 >>> 26).setWidth 32
  let h4 := d4.setWidth 32 &&& 0x3ffffff
  let h0 := h0 + c * 5
  let c := h0 >>> 26
  let h0 := h0 &&& 0x3ffffff
  let h1 := h1 + c
  { st with h0 := h0, h1 := h1, h2 := h2, h3 := h3, h4 := h4 }

/-- `poly1305_update`, src/poly1305-donna.c:16-49; see `poly64Update`. -/
def poly32Update (c : MDBuf Poly32) (m : Bytes) : Option (MDBuf Poly32) :=
  mdAdd 16 false poly32Block c m

/-- `fully carry h`, src/poly1305-donna-32.h:150-162. -/
def poly32Carry (h0 h1 h2 h3 h4 : W32) : W32 × W32 × W32 × W32 × W32 :=
  let m26 : W32 := 0x3ffffff
  let c := h1 >>> 26; let h1 := h1 &&& m26
  let h2 := h2 + c; let c := h2 >>> 26; let h2 := h2 &&& m26
  let h3 := h3 + c; let c := h3 >>> 26; let h3 := h3 &&& m26
  let h4 := h4 + c; let c := h4 >>> 26; let h4 := h4 &&& m26
  let h0 := h0 + c * 5; let c := h0 >>> 26; let h0 := h0 &&& m26
  let h1 := h1 + c
  (h0, h1, h2, h3, h4)

/-- `select h if h < p, or h + -p if h >= p`, src/poly1305-donna-32.h:164-183. -/
def poly32Select (h0 h1 h2 h3 h4 : W32) : W32 × W32 × W32 × W32 × W32 :=
  let m26 : W32 := 0x3ffffff
  let g0 := h0 + 5; let c := g0 >>> 26; let g0 := g0 &&& m26
  let g1 := h1 + c; let c := g1 >>> 26; let g1 := g1 &&& m26
  let g2 := h2 + c; let c := g2 >>> 26; let g2 := g2 &&& m26
  let g3 := h3 + c; let c := g3 >>> 26; let g3 := g3 &&& m26
  let g4 := h4 + c - ((1 : W32) <<< 26)
  let mask := (g4 >>> 31) - 1
  let g0 := g0 &&& mask
  let g1 := g1 &&& mask
  let g2 := g2 &&& mask
  let g3 := g3 &&& mask
  let g4 := g4 &&& mask
  let mask := ~~~ mask
  ((h0 &&& mask) ||| g0, (h1 &&& mask) ||| g1, (h2 &&& mask) ||| g2, (h3 &&& mask) ||| g3,
   (h4 &&& mask) ||| g4)

/-- `h = h % (2^128)` and `mac = (h + pad) % (2^128)`, src/poly1305-donna-32.h:185-200. -/
def poly32Pad (h0 h1 h2 h3 h4 p0 p1 p2 p3 : W32) : Bytes :=
  let w0 := (h0 ||| (h1 <<< 26)) &&& 0xffffffff
  let w1 := ((h1 >>> 6) ||| (h2 <<< 20)) &&& 0xffffffff
  let w2 := ((h2 >>> 12) ||| (h3 <<< 14)) &&& 0xffffffff
  let w3 := ((h3 >>> 18) ||| (h4 <<< 8)) &&& 0xffffffff
  let f0 := w0.setWidth 64 + p0.setWidth 64
  let f1 := w1.setWidth 64 + p1.setWidth 64 + (f0 >>> 32)
  let f2 := w2.setWidth 64 + p2.setWidth 64 + (f1 >>> 32)
  let f3 := w3.setWidth 64 + p3.setWidth 64 + (f2 >>> 32)
  toLE32 (f0.setWidth 32) ++ toLE32 (f1.setWidth 32) ++ toLE32 (f2.setWidth 32)
    ++ toLE32 (f3.setWidth 32)

/-- The end of `poly1305_finish`, src/poly1305-donna-32.h:150-200. -/
def poly32Tag (st : Poly32) : Bytes :=
  let (h0, h1, h2, h3, h4) := poly32Carry st.h0 st.h1 st.h2 st.h3 st.h4
  let (h0, h1, h2, h3, h4) := poly32Select h0 h1 h2 h3 h4
  poly32Pad h0 h1 h2 h3 h4 st.pad0 st.pad1 st.pad2 st.pad3

/-- `poly1305_finish`, src/poly1305-donna-32.h:132-217. -/
def poly32Final (c : MDBuf Poly32) : Option (Bytes × MDBuf Poly32) := do
  let c ← if c.numbytes ≠ 0 then do
      let b ← cWrite c.buffer c.numbytes [1]
      let b ← cWrite b (c.numbytes + 1 : Nat) (List.replicate (16 - (c.numbytes + 1)) 0)
      pure { c with buffer := b, h := poly32Block { c.h with final := true } b }
    else pure c
  pure (poly32Tag c.h,
    { c with h := ⟨0, 0, 0, 0, 0, 0, 0, 0, 0, 0, 0, 0, 0, 0, c.h.final⟩ })

end Verif
