import Verif.Spec.Astray
/- Where in a path modifiers are looked at. Vocabulary of C52. -/
namespace Verif.Spec

/-- What stands before a step, as far as the modifiers on the step are concerned: something that makes a list (`*`, `#`, `#(…)#`), `#(…)`, or anything else. -/
inductive Prev where
  | plain | pick | list
deriving DecidableEq

def prevOf (p : Bytes) : Prev :=
  if beforeBar p = b!"*" ∨ beforeBar p = b!"#" then .list
  else if b!"#(".isPrefixOf (beforeBar p) then (if b!")#".isSuffixOf (beforeBar p) then .list else .pick)
  else .plain

/-- The modifiers on this step are not looked at. It does not stand after something that makes a list, and it is a name, a position, a wildcard or a filter with more steps
after it. With options (`opt`) it may also be a name, a position, a wildcard or a count at the end, and an attribute or text unless it stands after a filter. -/
def Ignored (opt : Bool) (b : Prev) (p : Bytes) (last : Bool) : Prop :=
  b ≠ .list ∧ ((MoveStep p ∧ last = false) ∨
    (opt = true ∧ (NameStep p ∨ Position p ∨ WildStep p ∨ beforeBar p = b!"#" ∨ (b = .plain ∧ (AttrStep p ∨ beforeBar p = b!"%")))))

/-- The same steps, up to modifiers that are not looked at. -/
inductive SameButMods (opt : Bool) : Prev → List Bytes → List Bytes → Prop where
  | nil (b : Prev) : SameButMods opt b [] []
  | same {b : Prev} {p : Bytes} {ss ss' : List Bytes} (h : SameButMods opt (prevOf p) ss ss') : SameButMods opt b (p :: ss) (p :: ss')
  | other {b : Prev} {p p' : Bytes} {ss ss' : List Bytes} (hi : Ignored opt b p ss.isEmpty) (hb : beforeBar p' = beforeBar p)
      (h : SameButMods opt (prevOf p) ss ss') : SameButMods opt b (p :: ss) (p' :: ss')

/-- With options, the modifiers on this last step are applied, once: it is a filter and does not stand after something that makes a list, or an attribute or text after a filter, or
anything but a filter after something that makes a list. -/
def Applied (b : Prev) (p : Bytes) : Prop :=
  (FilterStep p ∧ b ≠ .list) ∨ ((AttrStep p ∨ beforeBar p = b!"%") ∧ b ≠ .plain) ∨ (¬ FilterStep p ∧ b = .list)

/-- With options, the modifiers at the end are applied to the answer: all steps but the last lead to one element, except that the last but one may make a list; the last
step is one on which modifiers are applied, or fields collected by `#`. -/
inductive AppliedEnd : Prev → List Bytes → Prop where
  | last {b : Prev} {p : Bytes} (h : Applied b p) : AppliedEnd b [p]
  | fields {b : Prev} {p : Bytes} (h : FieldStep p) : AppliedEnd b [b!"#", p]
  | move {b : Prev} {c : Bytes} {ss : List Bytes} (hc : MoveStep c) (hw : beforeBar c ≠ b!"**") (hl : prevOf c = .list → ss.length = 1 ∨ ss.head? = some b!"#")
      (h : AppliedEnd (prevOf c) ss) : AppliedEnd b (c :: ss)

end Verif.Spec
