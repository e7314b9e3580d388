import Verif.Spec.Query
import Verif.Model.Result
/- When two results are the same up to `Raw`, and which modifiers and sorting procedures respect that. -/
namespace Verif.Spec

/-- Same type, text and number, and the same list of nested results up to `Raw`. Only results without nested ones
may differ in `Raw`. -/
inductive Alike : Result → Result → Prop
  | leaf (t : RType) (raw1 raw2 s : Bytes) (n : FVal) : Alike (.mk t raw1 s n []) (.mk t raw2 s n [])
  | nest (t : RType) (s : Bytes) (n : FVal) (l1 l2 : List Result) (hlen : l1.length = l2.length)
      (h : ∀ (i : Nat) (r1 r2 : Result), l1[i]? = some r1 → l2[i]? = some r2 → Alike r1 r2) : Alike (.mk t [] s n l1) (.mk t [] s n l2)

/-- A modifier that, given results that differ at most in `Raw`, gives results that differ at most in `Raw`. -/
def RawBlind (m : Result → Result) : Prop := ∀ r1 r2, Alike r1 r2 → Alike (m r1) (m r2)

/-- A sorting procedure whose output depends only on how the items compare, as for any procedure that only compares
and moves items: relabelling the items relabels the output. -/
def Oblivious {α : Type} (srt : (α → α → Bool) → List α → List α) : Prop :=
  ∀ (R : α → α → Prop) (less1 less2 : α → α → Bool) (l1 l2 : List α), All2 R l1 l2 →
    (∀ a1 b1 a2 b2, R a1 a2 → R b1 b2 → less1 a1 b1 = less2 a2 b2) → All2 R (srt less1 l1) (srt less2 l2)

/-- No element has two attributes whose names differ only in the case of letters. -/
def Info.CaseUnique : Info → Prop
  | .nil => True
  | .text _ next => next.CaseUnique
  | .misc _ next => next.CaseUnique
  | .elem _ a k next => (∀ x y v w, a x = some v → a y = some w → foldCase x = foldCase y → x = y) ∧ k.CaseUnique ∧ next.CaseUnique

end Verif.Spec
