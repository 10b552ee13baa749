import Verif.Props.C86_InertMore
import Verif.Model.Combinators
/-!
C86, `compose`: a call on a composition may raise because the second transform refuses what the first one
has produced. The first has then accepted the input, and its output is lost.
-/
namespace Verif
open Spec

/-- Hexadecimal decoding twice. -/
def hexTwice (env : Env) : Transform (Hex.Dec × Hex.Dec) := compose (Hex.decode env) (Hex.decode env)

theorem trace_ok_inv {τ : Type} {T : Transform τ} {c : Call} {cs : List Call} {t : τ} {x : Bytes}
    {rest : List (Option (Except Exn Bytes))} (h : trace T (c :: cs) t = some (.ok x) :: rest) :
    ∃ t', perform T c t = .ok x t' ∧ trace T cs t' = rest := by
  simp only [trace] at h
  cases hp : perform T c t <;> rw [hp] at h <;> simp at h
  exact ⟨_, by rw [h.1], h.2⟩

theorem trace_exn_inv {τ : Type} {T : Transform τ} {c : Call} {cs : List Call} {t : τ} {e : Exn}
    {rest : List (Option (Except Exn Bytes))} (h : trace T (c :: cs) t = some (.error e) :: rest) :
    ∃ t', perform T c t = .exn e t' ∧ trace T cs t' = rest := by
  simp only [trace] at h
  cases hp : perform T c t <;> rw [hp] at h <;> simp at h
  exact ⟨_, by rw [h.1], h.2⟩

/-- C86 is false of `put_char` of a composition, although it is true of both transforms
(`C86_hex_decode_partial`). Hexadecimal decoding twice: after `7`, the character `A` raises
`Bad_encoding`, since `7A` stands for `z`. If the caller goes on with `31` and `30`, the outcome is
as if `7A` had never been added; if `A` had not been added, `73` would have raised `Bad_encoding`. -/
theorem C86_compose_put_char :
    (trace (hexTwice Example.env64) ([0x37, 0x41, 0x33, 0x31, 0x33, 0x30].map fun c => .op (.putChar c))
        (Hex.decInit Example.env64, Hex.decInit Example.env64)
      = [some (.ok []), some (.error (.error .badEncoding)), some (.ok []), some (.ok []), some (.ok []), some (.ok [])])
    ∧ (trace (hexTwice Example.env64) ([0x37, 0x33].map fun c => .op (.putChar c))
        (Hex.decInit Example.env64, Hex.decInit Example.env64)
      = [some (.ok []), some (.error (.error .badEncoding))])
    ∧ ¬ NoEffectIfRaises (hexTwice Example.env64) (Hex.decInit Example.env64, Hex.decInit Example.env64)
        (.op (.putChar 0x41)) := by
  have h1 : trace (hexTwice Example.env64) ([0x37, 0x41, 0x33, 0x31, 0x33, 0x30].map fun c => .op (.putChar c))
        (Hex.decInit Example.env64, Hex.decInit Example.env64)
      = [some (.ok []), some (.error (.error .badEncoding)), some (.ok []), some (.ok []), some (.ok []), some (.ok [])] := by
    decide +kernel
  have h2 : trace (hexTwice Example.env64) ([0x37, 0x33].map fun c => .op (.putChar c))
        (Hex.decInit Example.env64, Hex.decInit Example.env64)
      = [some (.ok []), some (.error (.error .badEncoding))] := by decide +kernel
  refine ⟨h1, h2, fun hn => ?_⟩
  obtain ⟨t1, e1, r1⟩ := trace_ok_inv h1
  obtain ⟨t2, e2, r2⟩ := trace_exn_inv r1
  obtain ⟨t3, e3, r3⟩ := trace_ok_inv r2
  obtain ⟨u1, f1, s1⟩ := trace_ok_inv h2
  rw [e1] at f1
  simp only [Out.ok.injEq, true_and] at f1
  subst f1
  have hs : After (hexTwice Example.env64) (Hex.decInit Example.env64, Hex.decInit Example.env64) t1 :=
    .returned (c := .op (.putChar 0x37)) .start trivial (by simp only [Spec.discard, M.bind_ok e1]; rfl)
  have := hn t1 hs _ t2 e2 [.op (.putChar 0x33)]
  simp only [List.map] at s1
  rw [s1] at this
  simp only [trace, e3] at this
  simp at this
end Verif
