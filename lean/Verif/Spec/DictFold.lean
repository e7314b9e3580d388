import Verif.Spec.Grove
import Verif.Spec.Options
/- Nested dictionaries whose names are compared without regard to case, independently of the code. -/
namespace Verif.Spec

/-- The first of the names that is the same up to case; else the name in lower case. -/
def spellIn (n : Bytes) (ms : List Bytes) : Bytes := (ms.find? (fun m => foldCase m = foldCase n)).getD (foldCase n)

/-- A path in the spelling of the dictionary. -/
def Dict.spell : List Bytes → Dict → List Bytes
  | [], _ => []
  | n :: ns, d => spellIn n d.names :: (((d.get (spellIn n d.names)).getD {}).kids).spell ns

/-- No two labels are the same up to case. -/
def LabelsApart (as : List (Bytes × Bytes)) : Prop := ∀ a ∈ as, ∀ b ∈ as, foldCase a.1 = foldCase b.1 → a.1 = b.1

/-- No two names of a dictionary, and no two labels of an entry, are the same up to case. -/
def Dict.Apart : Dict → Prop
  | .nil => True
  | .entry n as _ k r => LabelsApart as ∧ k.Apart ∧ (∀ m ∈ r.names, foldCase m ≠ foldCase n) ∧ r.Apart

/-- The operation on the entry in the spelling of the dictionary. -/
def DictOp.spelt (d : Dict) : DictOp → DictOp
  | .put ns s => .put (d.spell ns) s
  | .drop ns => .drop (d.spell ns)
  | .label ns k s => .label (d.spell ns) (spellIn k ((((d.find (d.spell ns)).getD {}).labels).map (·.1))) s
  | .unlabel ns k => .unlabel (d.spell ns) (spellIn k ((((d.find (d.spell ns)).getD {}).labels).map (·.1)))

end Verif.Spec
