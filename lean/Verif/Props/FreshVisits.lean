import Verif.Props.Fresh
import Verif.Props.FreshEdit
/- C32, C75: the visits of `Model/Fresh` and `Model/FreshEdit` are visits of their own: reversing the order at one of them alone can be seen in what is returned. -/
namespace Verif.Props
open Verif.Spec

/-- The tags of the calls that lead to a visit. -/
def tagsOf : List Nat → List Nat
  | t :: _ :: l => t :: tagsOf l
  | _ => []

/-- A run: the orders as parsed, but reversed at the visits that these calls lead to. -/
def exAt (ts : List Nat) : Visits := fun l => if tagsOf l = ts then revOrd else fun _ a => a

theorem exAt_perm (ts : List Nat) : (exAt ts).IsPerm := fun l => by
  unfold exAt
  split
  · exact revOrd_perm
  · exact exEnv_perm

def rawsOf : Outcome Result → List Bytes
  | .ret r => if r.typ = .array then r.results.map (·.raw) else [r.raw]
  | .panic => []

def askAt (xml : Bytes) (q : List Nat × Bytes) : List Bytes := rawsOf (getF (exAt q.1) (fun _ => none) (fun _ => none) xml q.2)
def askAtCi (xml : Bytes) (q : List Nat × Bytes) : List Bytes :=
  rawsOf (getWithOptionsF (exAt q.1) (fun _ => none) (fun _ => none) xml q.2 (some ⟨false, [], false, none⟩))

def visitDoc : Bytes := b!"<r><a><b><c x='1' y='2'/></b></a></r>"
def visitRoots : Bytes := b!"<a><b><c x='1' y='2'/></b></a><a/>"
def visitAttrs : Bytes := b!"<r><a k='1' K='2'><b/></a></r>"

def turned : Bytes := b!"<c y=\"2\" x=\"1\"/>"
def straight : Bytes := b!"<c x=\"1\" y=\"2\"/>"

/-- C32: names, `*`, positions, filters, field extraction and `**` each read what they go on with anew. -/
theorem C32_visits : (∀ q ∈ [([3, 3], b!"r.a.b"), ([3, 3], b!"*.*.b"), ([3, 0], b!"r.a.#.b"), ([3, 4], b!"r.a.0.b"), ([1, 1], b!"**.b"), ([1, 4], b!"**.a.b"), ([3, 1], b!"r.**.b"),
      ([1, 0], b!"**.a.#.b"), ([3, 4], b!"r.a.#(b)#.b"), ([3, 4], b!"r.a.#(b).b"), ([3, 0], b!"r.a.#(b)#.#.b"), ([3, 0], b!"r.a.#(b).#.b")],
      askAt visitDoc q = [turned] ∧ askAt visitDoc ([9], q.2) = [straight]) ∧
    (∀ q ∈ [([4], b!"a.0.b"), ([0], b!"a.#.b"), ([3], b!"#(b).b"), ([3], b!"#(b)#.b"), ([0], b!"#(b).#.b"), ([0], b!"#(b)#.#.b")],
      askAt visitRoots q = [turned] ∧ askAt visitRoots ([9], q.2) = [straight]) := by decide +kernel

/-- C32: the same with options, and the loops over the attributes of a match, which decide between two attributes whose names differ in case only. -/
theorem C32_visits_options : (∀ q ∈ [([3, 3], b!"R.A.B"), ([3, 3], b!"*.*.B"), ([3, 0], b!"R.A.#.B"), ([3, 4], b!"R.A.0.B"), ([1, 1], b!"**.B"), ([1, 4], b!"**.A.B"), ([3, 1], b!"R.**.B"),
      ([3, 4], b!"R.A.#(b)#.B"), ([3, 4], b!"R.A.#(b).B"), ([3, 0], b!"R.A.#(b)#.#.B"), ([3, 0], b!"R.A.#(b).#.B")],
      askAtCi visitDoc q = [turned] ∧ askAtCi visitDoc ([9], q.2) = [straight]) ∧
    (∀ q ∈ [([4], b!"A.0.B"), ([0], b!"A.#.B"), ([3], b!"#(b).B"), ([3], b!"#(b)#.B"), ([0], b!"#(b).#.B"), ([0], b!"#(b)#.#.B")],
      askAtCi visitRoots q = [turned] ∧ askAtCi visitRoots ([9], q.2) = [straight]) ∧
    (∀ q ∈ [([3, 5], b!"R.A.@K"), ([3, 5], b!"R.A.0.@K"), ([3, 5], b!"R.A.#(b).@K")], askAtCi visitAttrs q = [b!"2"] ∧ askAtCi visitAttrs ([9], q.2) = [b!"1"]) ∧
    (∀ q ∈ [([3, 5], b!"R.*.@K"), ([1, 5], b!"**.A.@K"), ([3, 5], b!"R.A.#(b)#.@K")], askAtCi visitAttrs q = [b!"2", b!"1"] ∧ askAtCi visitAttrs ([9], q.2) = [b!"1", b!"2"]) := by
  decide +kernel

/-- A run that reverses the order at one visit. -/
def exOnly (v : List Nat) : Visits := fun l => if l = v then revOrd else fun _ a => a

theorem exOnly_perm (v : List Nat) : (exOnly v).IsPerm := fun l => by
  unfold exOnly
  split
  · exact revOrd_perm
  · exact exEnv_perm

def setAt (q : List Nat × Bytes) : SetRes := setWithOptionsF (exOnly q.1) b!"<r x='1' y='2'/>" q.2 (.str b!"v") none

/-- C75: the loop over the attributes of the element that is opened is a visit of its own wherever Set opens one: for a value, for an attribute of a new element, for
`-1`, and where the first step of the path is no name. -/
theorem C75_visits : [([2, 2], b!"r.d"), ([2, 0, 2], b!"r.d.@k"), ([0, 2, 2], b!"r.d.e.-1"), ([2, 1, 2], b!"@z.d")].map setAt =
      [.ret (b!"<r y=\"2\" x=\"1\"><d>v</d></r>", none), .ret (b!"<r y=\"2\" x=\"1\"><d k=\"v\"></d></r>", none), .ret (b!"<r y=\"2\" x=\"1\"><d><e>v</e></d></r>", none),
        .ret (b!"<r y=\"2\" x=\"1\"><d>v</d></r>", none)] ∧
    [b!"r.d", b!"r.d.@k", b!"r.d.e.-1", b!"@z.d"].map (fun p => setAt ([9], p)) =
      [.ret (b!"<r x=\"1\" y=\"2\"><d>v</d></r>", none), .ret (b!"<r x=\"1\" y=\"2\"><d k=\"v\"></d></r>", none), .ret (b!"<r x=\"1\" y=\"2\"><d><e>v</e></d></r>", none),
        .ret (b!"<r x=\"1\" y=\"2\"><d>v</d></r>", none)] := by decide +kernel

end Verif.Props
