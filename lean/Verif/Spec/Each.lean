import Verif.Spec.Ask
/- Modifiers on lists of results. -/
namespace Verif.Spec

/-- The modifiers `names` make results of one result: not a missing one, not an empty list, and no list with a missing result or a list in it. -/
def Fruits (mods : Bytes → Option (Result → Result)) (names : List Bytes) : Prop :=
  ∀ r out : Result, r.isArray = false → r.exists? = true → Pipeline mods r names out → out.array ≠ [] ∧ ∀ x ∈ out.array, x.isArray = false ∧ x.exists? = true

/-- One result stands for itself, several are a list. -/
inductive Bundle : List Result → Result → Prop
  | one (r : Result) : Bundle [r] r
  | list (rs : List Result) : rs.length ≠ 1 → Bundle rs (.ofArray rs)

end Verif.Spec
