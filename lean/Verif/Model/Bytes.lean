/-
Byte strings. Go `string` and `[]byte` are both modelled by `List UInt8`
(the modelled code never writes through a shared byte slice).
-/
namespace Verif

/-- A Go `string` or `[]byte`. -/
abbrev Bytes := List UInt8

/-- `b!"text"` is the explicit list of the UTF-8 bytes of the literal. -/
syntax:max (name := bytesLit) "b!" noWs str : term

open Lean in
macro_rules
  | `(b!$s:str) => do
    let bs := s.getString.toUTF8.toList
    let elems ← bs.mapM fun b => `(($(quote b.toNat) : UInt8))
    `(([$(elems.toArray),*] : List UInt8))

/-- `c!"x"` is the byte of a one-character ASCII literal. -/
syntax:max (name := byteLit) "c!" noWs str : term

open Lean in
macro_rules
  | `(c!$c:str) => `(($(quote (c.getString.toList.headD 'x').toNat) : UInt8))

/-- All bytes satisfy `p` once the 256 values do: used to lift finite byte facts. -/
theorem forall_byte {p : UInt8 → Prop} (h : ∀ n : Fin 256, p (UInt8.ofFin n)) : ∀ b, p b := by
  intro b
  have := h b.toFin
  simpa using this

end Verif
