import Verif.Spec.Ask
import Verif.Spec.Astray
/- What any path without modifiers means, wherever its steps stand. -/
namespace Verif.Spec

/-- What one step of a path is. A position is `none` if it is negative; `field` is a `#` with the step that it collects. -/
inductive Role where
  | name (n : Bytes)
  | pos (j : Option Nat)
  | cond (all : Bool) (q : Node → Bool)
  | any
  | deep
  | attr (a : Bytes)
  | text
  | count
  | field (g : Goal)

/-- What a step of digits and hyphens counts: a number; nothing if it is negative; and 0 if it is no number at all. Digits that exceed 64 bits may be followed by hyphens. -/
inductive Place (p : Bytes) : Option Nat → Prop where
  | number {ds rest : Bytes} {n : Nat} (he : p = ds ++ rest) (hd : Decimal ds n) (hr : rest = [] ∨ (2 ^ 64 ≤ n ∧ rest.head? = some c!"-")) : Place p (some n)
  | negative {n : Nat} (h : Negative p n) : Place p none
  | none (h1 : ¬ ∃ ds rest n, p = ds ++ rest ∧ Decimal ds n ∧ (rest = [] ∨ (2 ^ 64 ≤ n ∧ rest.head? = some c!"-"))) (h2 : ¬ ∃ n, Negative p n) : Place p (some 0)

/-- A step that is neither a filter nor `#`. -/
inductive RoleOf : Bytes → Role → Prop where
  | name {p : Bytes} (h : NameStep p) : RoleOf p (.name p)
  | pos {p : Bytes} {j : Option Nat} (h : Position p) (hj : Place p j) : RoleOf p (.pos j)
  | any : RoleOf b!"*" .any
  | deep : RoleOf b!"**" .deep
  | attr {a : Bytes} : RoleOf (c!"@" :: a) (.attr a)
  | text : RoleOf b!"%" .text

def push (m : Move) : Option (List Move × Goal) → Option (List Move × Goal)
  | some (ms, g) => some (m :: ms, g)
  | none => none

/-- A filter, as a move. -/
def Move.filtered (n : Option Bytes) (all : Bool) (q : Node → Bool) : Move := if all then .satAll n q else .sat n q

/-- The moves and the goal that the steps amount to; `none` if they find nothing in any document. `kept`: the step before is a filter or a position, which is when an attribute
may be followed by other steps. -/
def plan : Bool → List Role → Option (List Move × Goal)
  | _, [] => some ([], .elem)
  | _, .text :: _ => some ([], .text)
  | _, .count :: _ => some ([], .count)
  | _, .field g :: _ => some ([], g)
  | kept, .attr a :: ks => if kept || ks.isEmpty then some ([], .attr a) else none
  | _, .name n :: .pos (some j) :: ks => push (.nth n j) (plan true ks)
  | _, .name n :: .cond all q :: ks => push (.filtered (some n) all q) (plan true ks)
  | _, .name n :: ks => push (.name n) (plan false ks)
  | _, .pos _ :: _ => none
  | _, .cond all q :: ks => push (.filtered none all q) (plan true ks)
  | _, .any :: ks => push .any (plan false ks)
  | _, .deep :: .name n :: ks => push (.deep (some n)) (plan false ks)
  | _, .deep :: .any :: ks => push (.deep none) (plan false ks)
  | _, .deep :: .deep :: ks => push (.deep none) (plan false ks)
  | _, .deep :: _ => none

/-- The answer that the steps give. -/
def reply (ks : List Role) (i : Info) : Answer :=
  match plan false ks with
  | some (ms, g) => ask ms g true i
  | none => .nothing

/-- There is a step `**`, in the path or in the condition of a filter in it. -/
inductive Searches : Bytes → Prop where
  | here {p : Bytes} {ss : List Bytes} (h : PathSteps p ss) (hm : b!"**" ∈ ss) : Searches p
  | within {p expr q v : Bytes} {ss : List Bytes} {all : Bool} {op : FilterOp} (h : PathSteps p ss) (hm : filterPart expr all ∈ ss) (hc : Condition expr q op v) (hq : Searches q) : Searches p

/-- What is said about: a path and its answer, steps and what they are, or a path in a filter and what it tests of an element. -/
inductive Topic where
  | path (p : Bytes) (a : Info → Answer)
  | steps (ss : List Bytes) (ks : List Role)
  | test (p : Bytes) (f : Node → Option Bytes)

/-- The meaning of a path. A text that is no path asks for nothing. -/
inductive Sense (pf : Bytes → Option FVal) : Topic → Prop where
  | nowhere {p : Bytes} (h : NoPath p) : Sense pf (.path p (fun _ => .nothing))
  | path {p : Bytes} {ss : List Bytes} {ks : List Role} (h : PathSteps p ss) (hs : Sense pf (.steps ss ks)) : Sense pf (.path p (reply ks))
  | nil : Sense pf (.steps [] [])
  | step {s : Bytes} {k : Role} {ss : List Bytes} {ks : List Role} (h : RoleOf s k) (hs : Sense pf (.steps ss ks)) : Sense pf (.steps (s :: ss) (k :: ks))
  | count {ss : List Bytes} {ks : List Role} (h : ∀ q, ss.head? = some q → ¬ FieldStep q) (hs : Sense pf (.steps ss ks)) : Sense pf (.steps (b!"#" :: ss) (.count :: ks))
  | field {s : Bytes} {g : Goal} {ss : List Bytes} {ks : List Role} (h : GoalText [b!"#", s] g) (hs : Sense pf (.steps ss ks)) :
      Sense pf (.steps (b!"#" :: s :: ss) (.field g :: ks))
  | cond {expr p v : Bytes} {op : FilterOp} {all : Bool} {f : Node → Option Bytes} {q : Node → Bool} {ss : List Bytes} {ks : List Role} (hc : Condition expr p op v)
      (ht : Sense pf (.test p f)) (hq : ∀ nd, q nd = true ↔ Holds pf op v (f nd)) (hs : Sense pf (.steps ss ks)) :
      Sense pf (.steps (filterPart expr all :: ss) (.cond all q :: ks))
  | attr {a : Bytes} : Sense pf (.test (c!"@" :: a) (fun nd => nd.attr a))
  | value {p : Bytes} {a : Info → Answer} (h0 : ¬ AttrStep p) (h : Sense pf (.path p a)) : Sense pf (.test p (fun nd => (a nd.kids).str))

end Verif.Spec
