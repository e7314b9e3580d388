import Verif.Spec.Sense
import Verif.Spec.Slots
/- Where any steps lead, for Set and Delete, independently of the code. -/
namespace Verif.Spec

/-- Where steps lead; `none` if they lead nowhere in any document. A name or a wildcard goes one level down, to the first element that satisfies it or to the one that a position behind
it says (a position above 2^63 - 1 counts as that). A negative position, and any step that is neither a name nor a wildcard, nor a position behind one, lead nowhere. -/
inductive Trail : List Bytes → Option (List Hop) → Prop where
  | nil : Trail [] (some [])
  | nth {p d : Bytes} {k : Pick} {j : Nat} {ps : List Bytes} {t : Option (List Hop)} (hp : Asks p k) (hd : Position d) (hj : Place (beforeBar d) (some j)) (h : Trail ps t) :
      Trail (p :: d :: ps) (t.map ((k, min j (2 ^ 63 - 1)) :: ·))
  | negative {p d : Bytes} {k : Pick} {ps : List Bytes} (hp : Asks p k) (hd : Position d) (hj : Place (beforeBar d) none) : Trail (p :: d :: ps) none
  | first {p : Bytes} {k : Pick} {ps : List Bytes} {t : Option (List Hop)} (hp : Asks p k) (hd : ∀ d, ps.head? = some d → ¬ Position d) (h : Trail ps t) : Trail (p :: ps) (t.map ((k, 0) :: ·))
  | lost {p : Bytes} {ps : List Bytes} (hp : ∀ k, ¬ Asks p k) : Trail (p :: ps) none

/-- The steps lead to the element of that name in the context. -/
def LeadTo (cs : Bool) (ss : List Bytes) (c : Ctx) (x : Bytes) : Prop := ∃ hs, Trail ss (some hs) ∧ Reach cs hs c x

/-- They lead to no element of the document. -/
def LeadNowhere (cs : Bool) (ss : List Bytes) (f : Forest) : Prop := ∀ c e, f = c.plug (El.cons e .nil) → ¬ LeadTo cs ss c e.name

/-- The longest beginning of the steps that leads to an element leads to this one, and these steps remain. -/
structure Deepest (cs : Bool) (ss ps rest : List Bytes) (c : Ctx) (e : El) : Prop where
  split : ss = ps ++ rest
  more : rest ≠ []
  leads : LeadTo cs ps c e.name
  longest : ∀ qs rest', ss = qs ++ rest' → ps.length < qs.length → LeadNowhere cs qs (c.plug (e.cons .nil))

end Verif.Spec
