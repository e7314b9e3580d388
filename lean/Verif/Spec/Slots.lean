import Verif.Spec.Hop
/- What Set writes for the steps of a path that lead nowhere, independently of the code. -/
namespace Verif.Spec

/-- A part that `#` before it collects from all elements: the text, an attribute or a child of an ordinary name. -/
def Collected (part : Bytes) : Prop :=
  beforeBar part = b!"%" ∨ (Identifier (beforeBar part) ∧ (beforeBar part).length ≤ 256) ∨ ∃ a, beforeBar part = c!"@" :: a ∧ Identifier a ∧ a.length < 256

/-- The elements written for steps, by name, from the outermost to the innermost: `none` if a step is passed over. A step that is not a name gives an
element without a name, except for attributes. -/
inductive Slots (cs : Bool) : List Bytes → List (Option Bytes) → Prop where
  | nil : Slots cs [] []
  | collect {p q : Bytes} {ps : List Bytes} {ts : List (Option Bytes)} (hp : beforeBar p = b!"#") (hq : Collected q) (h : Slots cs ps ts) : Slots cs (p :: q :: ps) (some [] :: ts)
  | name {p : Bytes} {ps : List Bytes} {ts : List (Option Bytes)} (hp : NameStep p) (h : Slots cs ps ts) : Slots cs (p :: ps) (some (spelling cs (beforeBar p)) :: ts)
  | attr {p : Bytes} {ps : List Bytes} {ts : List (Option Bytes)} (hp : AttrStep p) (h : Slots cs ps ts) : Slots cs (p :: ps) (none :: ts)
  | other {p : Bytes} {ps : List Bytes} {ts : List (Option Bytes)} (h1 : ¬ NameStep p) (h2 : ¬ AttrStep p) (h3 : ¬ (beforeBar p = b!"#" ∧ ∃ q, ps.head? = some q ∧ Collected q))
      (h : Slots cs ps ts) : Slots cs (p :: ps) (some [] :: ts)

/-- The text of these elements inside each other around `w`, each on its line. -/
def slotLines (indent : Bytes) : Nat → List (Option Bytes) → Bytes → Bytes
  | _, [], w => w
  | d, none :: ts, w => slotLines indent (d + 1) ts w
  | d, some n :: ts, w => newLine indent d ++ (b!"<" ++ n ++ b!">") ++ slotLines indent (d + 1) ts w ++ (b!"</" ++ n ++ b!">")

/-- Steps that lead nowhere in this content, because of the first of them. -/
inductive Missing (cs : Bool) (i : Info) : List Bytes → Prop where
  | blind {p : Bytes} {ps : List Bytes} (h : Blind p) : Missing cs i (p :: ps)
  | nobody {p : Bytes} {k : Pick} {ps : List Bytes} (h : Asks p k) (h0 : i.count cs k = 0) : Missing cs i (p :: ps)

end Verif.Spec
