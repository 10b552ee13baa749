import Verif.Proof.InterruptZlib
import Verif.Proof.InterruptZlibQuiet
/-
C115: `Zlib` under asynchronous exceptions.
-/
namespace Verif

open Spec

theorem ZLib.atomic_deflate {L : ZLib ζ} (h : ZBounded L.deflate) : ZBounded L.atomic.deflate :=
  ⟨fun f i n z => h.usedIn f i n z.2, fun f i n z => h.out f i n z.2⟩

theorem ZLib.atomic_inflate {L : ZLib ζ} (h : ZBounded L.inflate) : ZBounded L.atomic.inflate :=
  ⟨fun f i n z => h.usedIn f i n z.2, fun f i n z => h.out f i n z.2⟩

/-- C115 for `Zlib`: with any library that stays within the input and the room that it is given, wherever the
calls are interrupted, no later call accesses memory out of bounds, provided that `put_substring` gets a
range of its argument (see C65). `sched` are the interruptions to come; the fuel bounds the number of calls
of zlib that a method makes, and is arbitrary. Nothing is said of termination, which depends on zlib. -/
theorem C115_zlib (env : Env) {L : ZLib ζ} (hd : ZBounded L.deflate) (hi : ZBounded L.inflate) (fuel : Nat)
    (sched : Sched) :
    (∀ level header t0, Zlib.compressNew env L level header = .ok t0 →
      NoUndefined (invoke (Zlib.compressI env L.atomic fuel)) inRangeT ⟨(sched, t0.zs), t0.ob⟩) ∧
    (∀ header t0, Zlib.uncompressNew env L header = .ok t0 →
      NoUndefined (invoke (Zlib.uncompressI env L.atomic fuel)) inRangeT ⟨(sched, t0.zs), t0.ob⟩) := by
  have hw : OBuf.Weak (OBuf.init env 512) := by
    have h := OBuf.safe_init env (n := 512) (by decide)
    exact ⟨h.pos, h.le⟩
  constructor
  · intro level header t0 h0
    have hs : t0.ob.Weak := by
      unfold Zlib.compressNew at h0
      split at h0
      · cases h0; exact hw
      · cases h0
    exact zInvokeI_safe (compressPutI_safe env (ZLib.atomic_deflate hd) fuel) (fun _ => rfl) (fun _ => rfl)
      (fun _ => rfl) (compressFlushI_safe env (ZLib.atomic_deflate hd) fuel)
      (compressFinishI_safe env (ZLib.atomic_deflate hd) fuel) rfl hs
  · intro header t0 h0
    have hs : t0.ob.Weak := by
      unfold Zlib.uncompressNew at h0
      split at h0
      · cases h0; exact hw
      · cases h0
    exact zInvokeI_safe (uncompressPutI_safe env (ZLib.atomic_inflate hi) fuel) (fun _ => rfl) (fun _ => rfl)
      (fun _ => rfl) (fun _ h => by exact h)
      (fun t h => PostL.bind (doFinishI_safe env (ZLib.atomic_inflate hi) fuel true t h)
        fun _ t1 h1 => zEndI_safe _ t1 h1) rfl hs

/-- The hypotheses hold of the toy library. -/
example (sched : Sched) : ∃ t0, Zlib.compressNew Example.env64 Example.toyZlib 6 false = .ok t0 ∧
    NoUndefined (invoke (Zlib.compressI Example.env64 Example.toyZlib.atomic 1000)) inRangeT
      ⟨(sched, t0.zs), t0.ob⟩ :=
  ⟨_, rfl, (C115_zlib Example.env64 Example.zToyD.bounded Example.zToyI.bounded 1000 sched).1 6 false _ rfl⟩

/-- The classes with interruption points at which nothing happens are those of C64. -/
theorem C115_quiet_zlib (env : Env) (L : ZLib ζ) (fuel : Nat) :
    @Zlib.compressI ζ (quiet ζ) env L fuel = Zlib.compress env L fuel ∧
      @Zlib.uncompressI ζ (quiet ζ) env L fuel = Zlib.uncompress env L fuel :=
  ⟨Quiet.compress_eq env L fuel, Quiet.uncompress_eq env L fuel⟩

namespace Example

/-- `put_string d`, `finish`, which raises an exception, `finish` again, `get_string`. -/
def zRetry (d : Bytes) (sched : Sched) : Option Bytes :=
  match Zlib.compressNew env64 toyZlib 6 false with
  | .error _ => none
  | .ok t0 =>
    let T := Zlib.compressI env64 toyZlib.atomic 10
    match T.putString d ⟨(sched, t0.zs), t0.ob⟩ with
    | .ok () t1 =>
      match T.finish t1 with
      | .exn _ t2 =>
        match T.finish t2 with
        | .ok () t3 =>
          match T.getString t3 with
          | .ok o _ => some o
          | _ => none
        | _ => none
      | _ => none
    | _ => none

end Example

/-- An interrupted call is neither done nor undone. If `finish` is interrupted between the call of zlib and
the assignment that counts its output, this output is lost: `finish` can be called again and returns, but
the compressed stream is incomplete. Here with the toy library, which keeps to the documented behaviour of
zlib (C64). -/
theorem C115_zlib_lost : ∃ (d : Bytes) (sched : Sched) (o : Bytes),
    Example.zRetry d sched = some o ∧ Example.toyStatus o = .more :=
  ⟨[10, 20], List.replicate 8 none ++ [some .failure], [1, 10, 1, 20], by decide +kernel, by decide +kernel⟩

end Verif
