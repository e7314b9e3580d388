import Verif.Spec.Edit
/-
What the options mean for modifications: `CaseSensitive` decides how the names of a path are compared with the document, and
how new names are written; `Indent` puts new elements on lines of their own.
-/
namespace Verif.Spec

/-- Does the name `n` of a path match the element name `x`. -/
def agrees (cs : Bool) (n x : Bytes) : Bool := if cs then nameMatches n x else nameMatches (foldCase n) (foldCase x)

/-- The elements of a level that a name of a path matches. -/
def Info.namedBy (cs : Bool) (i : Info) (n : Bytes) : List Node := i.elems.filter (fun e => agrees cs n e.name)

/-- The path leads to the element of that name in the context (as `Leads`, with that comparison). -/
def LeadsBy (cs : Bool) : List Step → Ctx → Bytes → Prop
  | [(n, j)], .here b _, x => agrees cs n x = true ∧ (b.info.namedBy cs n).length = j
  | (n, j) :: ps, .within b m _ _ c _ _, x => agrees cs n m = true ∧ (b.info.namedBy cs n).length = j ∧ LeadsBy cs ps c x
  | _, _, _ => False

/-- The element the steps lead to (as `Info.follow`, with that comparison). -/
def Info.followBy (cs : Bool) : List Step → Info → Option Node
  | [], _ => none
  | [(n, j)], i => (i.namedBy cs n)[j]?
  | (n, j) :: ps, i => (i.namedBy cs n)[j]?.bind (fun e => followBy cs ps e.kids)

/-- How a name of the path is written into the document: with CaseSensitive = false, in lower case. -/
def spelling (cs : Bool) (n : Bytes) : Bytes := if cs then n else foldCase n

/-- A line break and the indentation of depth `d`; nothing if there is no indentation. -/
def newLine (indent : Bytes) (d : Nat) : Bytes := if indent = [] then [] else b!"\n" ++ (List.replicate d indent).flatten

/-- Elements of these names inside each other, around `w`, each on its line, the outermost at depth `d`. -/
def chainLines (indent : Bytes) : Nat → List Bytes → Bytes → Bytes
  | _, [], w => w
  | d, n :: ns, w => newLine indent d ++ (b!"<" ++ n ++ b!">") ++ chainLines indent (d + 1) ns w ++ (b!"</" ++ n ++ b!">")

/-- Are two attribute names the same. -/
def sameKey (cs : Bool) (j k : Bytes) : Prop := if cs then j = k else foldCase j = foldCase k

instance (cs : Bool) (j k : Bytes) : Decidable (sameKey cs j k) := by unfold sameKey; infer_instance

/-- The attributes of `e` written anew after setting `k` to `x` (`none`: deleting it). Every attribute that is the same as `k` gets the new
value; if there is none, one is added. -/
structure RetagBy (cs : Bool) (e : El) (k : Bytes) (x : Option Bytes) (as : List Attr) : Prop where
  neat : Neat as
  sorted : (as.map (·.name)).Pairwise LexBefore
  this : ∀ j, sameKey cs j k → attrVal e.attrs j ≠ none → attrVal as j = x
  new : (∀ j, sameKey cs j k → attrVal e.attrs j = none) → ∀ j, sameKey cs j k → attrVal as j = if j = spelling cs k then x else none
  no : ∀ j, sameKey cs j k → (∃ j', sameKey cs j' k ∧ attrVal e.attrs j' ≠ none) → attrVal e.attrs j = none → attrVal as j = none
  others : ∀ j, ¬ sameKey cs j k → attrVal as j = attrVal e.attrs j

/-- As `AfterLast`, with that comparison. -/
def AfterLastBy (cs : Bool) (x : Bytes) (k1 k2 : Forest) : Prop :=
  (∃ (b : Forest) (e : El), k1 = b.append (e.cons .nil) ∧ agrees cs x e.name = true ∧ k2.info.namedBy cs x = []) ∨ (k1.info.namedBy cs x = [] ∧ k2 = .nil)

end Verif.Spec
