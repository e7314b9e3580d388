import Verif.Spec.Answer
import Verif.Spec.Glob
import Verif.Spec.Path
/- What a filter condition means, independently of the code. -/
namespace Verif.Spec

/-- The shape a number must have to take part in a comparison: an optional sign, digits with at most one dot and at least one digit,
and then the end or an exponent mark (followed by anything: ParseFloat judges the rest). -/
def NumericShape (s : Bytes) : Prop :=
  ∃ sign body tail : Bytes, s = sign ++ body ++ tail ∧ (sign = [] ∨ sign = b!"-" ∨ sign = b!"+") ∧
    (∀ c ∈ body, (48 ≤ c ∧ c ≤ 57) ∨ c = c!".") ∧ body.count c!"." ≤ 1 ∧ (∃ c ∈ body, 48 ≤ c ∧ c ≤ 57) ∧
    (tail = [] ∨ ∃ t, tail = c!"e" :: t ∨ tail = c!"E" :: t)

/-- `s` is a finite number `x` for a comparison. -/
def NumberIs (pf : Bytes → Option FVal) (s : Bytes) (x : Rat) : Prop := NumericShape s ∧ pf s = some (.fin x)

/-- `a` fits the glob `pat`, or the attempt exceeds the budget of 10000 steps (`none`). -/
def Globs (pat a : Bytes) (res : Option Bool) : Prop :=
  if ∃ c ∈ pat, c = c!"*" ∨ c = c!"?" ∨ c = c!"\\" then
    if (tokens (runes pat)).length * (runes a).length > 10000 then res = none
    else ∃ b, res = some b ∧ (b = true ↔ InLang (tokens (runes pat)) (runes a))
  else res = some (decide (a = pat))

/-- The condition `op value` holds of the tested value (`none`: there is no such child or attribute). -/
def Holds (pf : Bytes → Option FVal) (op : FilterOp) (value : Bytes) : Option Bytes → Prop
  | none => False
  | some a =>
    match op with
    | .ex => True
    | .eq => a = value
    | .ne => a ≠ value
    | .lt => ∃ x y, NumberIs pf a x ∧ NumberIs pf value y ∧ x < y
    | .gt => ∃ x y, NumberIs pf a x ∧ NumberIs pf value y ∧ x > y
    | .le => ∃ x y, NumberIs pf a x ∧ NumberIs pf value y ∧ x ≤ y
    | .ge => ∃ x y, NumberIs pf a x ∧ NumberIs pf value y ∧ x ≥ y
    | .pat => Globs value a (some true)
    | .npat => Globs value a (some false)

/-- What is tested: an attribute of the element, or the text of the first descendant reached by a path of names. -/
inductive Tested : Bytes → Node → Option Bytes → Prop where
  | attr (a : Bytes) (nd : Node) : Tested (c!"@" :: a) nd (nd.attr a)
  | path (pre : List Bytes) (n : Bytes) (nd : Node) (hp : ∀ m ∈ pre ++ [n], PlainName m) (hl : pre.length < 100) :
      Tested (pathOf (pre ++ [n])) nd (((nd.kids.select pre n).head?).map (fun e => e.kids.textValue))

/-- How an operator is written. -/
def opText : FilterOp → Bytes
  | .eq => b!"==" | .ne => b!"!=" | .lt => b!"<" | .gt => b!">" | .le => b!"<=" | .ge => b!">=" | .pat => b!"%" | .npat => b!"!%"
  | .ex => []

/-- Text usable as filter path: not empty, printable ASCII without blank, operator characters or bar. -/
def FilterPathText (p : Bytes) : Prop :=
  p ≠ [] ∧ ∀ c ∈ p, 0x21 ≤ c ∧ c ≤ 0x7E ∧ c ≠ c!"=" ∧ c ≠ c!"!" ∧ c ≠ c!"<" ∧ c ≠ c!">" ∧ c ≠ c!"%" ∧ c ≠ c!"|"

/-- A value as written in a filter: quoted, or without blanks and quotes. No control characters or bar; with a one-character operator
no `=` or `%` (the code would look for a two-character operator first). -/
def FilterValueText (op : FilterOp) (t v : Bytes) : Prop :=
  ((t = c!"'" :: v ++ b!"'" ∨ t = c!"\"" :: v ++ b!"\"" ) ∨ (t = v ∧ v ≠ [] ∧ ∀ c ∈ v, 0x21 ≤ c ∧ c ≤ 0x7E ∧ c ≠ c!"'" ∧ c ≠ c!"\"")) ∧
  (∀ c ∈ v, c ≠ 0 ∧ c ≠ 9 ∧ c ≠ 10 ∧ c ≠ 13 ∧ c ≠ c!"|") ∧
  ((op = .lt ∨ op = .gt ∨ op = .pat) → c!"=" ∉ v ∧ c!"%" ∉ v)

end Verif.Spec

namespace Verif.Spec

/-- The operators of two characters. -/
def LongOp (op : FilterOp) : Prop := op = .eq ∨ op = .ne ∨ op = .le ∨ op = .ge ∨ op = .npat

/-- The operators of one character. -/
def ShortOp (op : FilterOp) : Prop := op = .lt ∨ op = .gt ∨ op = .pat

/-- `e` is divided at the first operator of two characters in it or, if there is none anywhere, at the first of one. -/
inductive DividesAt (e : Bytes) : Bytes → FilterOp → Bytes → Prop where
  | long {l r : Bytes} {op : FilterOp} (ho : LongOp op) (he : e = l ++ opText op ++ r)
      (hf : ∀ l' op' r', LongOp op' → e = l' ++ opText op' ++ r' → l.length ≤ l'.length) : DividesAt e l op r
  | short {l r : Bytes} {op : FilterOp} (ho : ShortOp op) (he : e = l ++ opText op ++ r) (hn : ∀ l' op' r', LongOp op' → e ≠ l' ++ opText op' ++ r')
      (hf : ∀ c ∈ l, c ≠ c!"<" ∧ c ≠ c!">" ∧ c ≠ c!"%") : DividesAt e l op r

/-- No operator character. -/
def NoOperator (s : Bytes) : Prop := ∀ c ∈ s, c ≠ c!"=" ∧ c ≠ c!"!" ∧ c ≠ c!"<" ∧ c ≠ c!">" ∧ c ≠ c!"%"

/-- No NUL, tabulator, line feed or carriage return. -/
def NoControl (s : Bytes) : Prop := ∀ c ∈ s, c ≠ 0 ∧ c ≠ 9 ∧ c ≠ 10 ∧ c ≠ 13

/-- `v` is `t` without the quotes around it, if there are any. -/
def Unquotes (t v : Bytes) : Prop :=
  t = c!"'" :: v ++ b!"'" ∨ t = c!"\"" :: v ++ b!"\"" ∨
    (t = v ∧ ¬ (t.head? = some c!"'" ∧ t.getLast? = some c!"'") ∧ ¬ (t.head? = some c!"\"" ∧ t.getLast? = some c!"\""))

/-- `expr` is a condition, meaning `p op v`; without an operator it is a path that must exist. -/
inductive Condition (expr : Bytes) : Bytes → FilterOp → Bytes → Prop where
  | ex (hl : expr.length ≤ 256) (h0 : 0 ∉ expr) (hne : trimSpace expr ≠ []) (ho : NoOperator (trimSpace expr)) : Condition expr (trimSpace expr) .ex []
  | cmp {l r v : Bytes} {op : FilterOp} (hl : expr.length ≤ 256) (h0 : 0 ∉ expr) (hd : DividesAt (trimSpace expr) l op r) (hc : NoControl l)
      (hne : trimSpace l ≠ []) (ho : NoOperator (trimSpace l)) (hr : trimSpace r ≠ []) (hq : Unquotes (trimSpace r) v) (hv : NoControl v) :
      Condition expr (trimSpace l) op v

/-- `expr` would be a condition if its value were not a single quote character. -/
def BadQuote (expr : Bytes) : Prop :=
  expr.length ≤ 256 ∧ 0 ∉ expr ∧ ∃ l op r, DividesAt (trimSpace expr) l op r ∧ NoControl l ∧ trimSpace l ≠ [] ∧ NoOperator (trimSpace l) ∧
    (trimSpace r = b!"'" ∨ trimSpace r = b!"\"")

/-- A condition that can be part of a path: it has no bar, which would start a modifier. -/
def CondText (expr p : Bytes) (op : FilterOp) (v : Bytes) : Prop := c!"|" ∉ expr ∧ Condition expr p op v

/-- How a filter is written in a path. -/
def filterPart (expr : Bytes) (all : Bool) : Bytes := b!"#(" ++ expr ++ (if all then b!")#" else b!")")

/-- What can be tested: an attribute or a path of at most 100 plain names. -/
def Testable (p : Bytes) : Prop :=
  (∃ a, p = c!"@" :: a) ∨ ∃ pre n, (∀ m ∈ pre ++ [n], PlainName m) ∧ pre.length < 100 ∧ p = pathOf (pre ++ [n])

/-- The element satisfies the condition `p op v`. -/
def Satisfies (pf : Bytes → Option FVal) (p : Bytes) (op : FilterOp) (v : Bytes) (nd : Node) : Prop :=
  ∃ actual, Tested p nd actual ∧ Holds pf op v actual

/-- An identifier: a letter or underscore, then letters, digits, `-`, `_` or `:`. -/
def Identifier (f : Bytes) : Prop :=
  ∃ c cs, f = c :: cs ∧ (((65 ≤ c ∧ c ≤ 90) ∨ (97 ≤ c ∧ c ≤ 122)) ∨ c = c!"_") ∧
    ∀ x ∈ cs, ((65 ≤ x ∧ x ≤ 90) ∨ (97 ≤ x ∧ x ≤ 122)) ∨ (48 ≤ x ∧ x ≤ 57) ∨ x = c!"-" ∨ x = c!"_" ∨ x = c!":"

/-- The non-empty own texts of an element: none or one. -/
def Node.ownTexts (nd : Node) : List Bytes := if trimSpace nd.kids.ownText = [] then [] else [nd.kids.ownValue]

end Verif.Spec
