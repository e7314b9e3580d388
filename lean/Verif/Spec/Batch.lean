import Verif.Model.Bytes
/- Sequences of operations, for any operation. -/
namespace Verif.Spec

/-- `Seq step d ops d'`: applying `step` to the operations one after the other succeeds and leads from `d` to `d'`. -/
inductive Seq {D O : Type} (step : D → O → D → Prop) : D → List O → D → Prop
  | nil (d : D) : Seq step d [] d
  | cons {d d' d'' : D} {op : O} {ops : List O} : step d op d' → Seq step d' ops d'' → Seq step d (op :: ops) d''

/-- `SeqFails step fails d ops e`: some operation fails with `e` after the ones before it succeeded. -/
inductive SeqFails {D O E : Type} (step : D → O → D → Prop) (fails : D → O → E → Prop) : D → List O → E → Prop
  | here {d : D} {op : O} {ops : List O} {e : E} : fails d op e → SeqFails step fails d (op :: ops) e
  | later {d d' : D} {op : O} {ops : List O} {e : E} : step d op d' → SeqFails step fails d' ops e →
      SeqFails step fails d (op :: ops) e

end Verif.Spec
