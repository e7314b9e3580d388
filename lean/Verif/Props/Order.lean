import Verif.Lemmas.OrderOpt
import Verif.Props.Options
/- C32 and C47: answers depend neither on the iteration order of maps nor on how the document is written. -/
namespace Verif.Props
open Spec

/-- Two calls that both panic, or return results alike. -/
inductive SameOutcome : Outcome Result → Outcome Result → Prop
  | panic : SameOutcome .panic .panic
  | ret {r1 r2 : Result} : Alike r1 r2 → SameOutcome (.ret r1) (.ret r2)

/-- C47: two documents that say the same (however they order, quote and space attributes, and whether they write empty elements with one tag or
two) get the same answer to every path, up to `Raw`, whatever the iteration orders of maps in the two runs. -/
theorem C47_get (o1 o2 : Ord) (p1 : o1.IsPerm) (p2 : o2.IsPerm) (mods : Bytes → Option (Result → Result)) (hm : ∀ n m, mods n = some m → RawBlind m)
    (pf : Bytes → Option FVal) (xml1 xml2 : Bytes) (i : Info) (h1 : Says xml1 i) (h2 : Says xml2 i) (path : Bytes) :
    SameOutcome (get ⟨o1, mods, pf⟩ xml1 path) (get ⟨o2, mods, pf⟩ xml2 path) := by
  have he : Envs ⟨o1, mods, pf⟩ ⟨o2, mods, pf⟩ := ⟨p1, p2, rfl, rfl, hm⟩
  have hr : RA o1 o2 xml1 xml2 := ⟨i, says_reads p1 h1, says_reads p2 h2⟩
  unfold get
  rw [if_neg (by simpa [maxDocumentSize] using h1.1), if_neg (by simpa [maxDocumentSize] using h2.1)]
  split
  · exact .panic
  · exact .ret alike_null
  · exact .ret alike_null
  · exact .ret (executeQuery_alike he _ hr)

/-- C32: on a document of the class, the answer to a path does not depend on the order in which maps are iterated, up to `Raw`. -/
theorem C32_get (o1 o2 : Ord) (p1 : o1.IsPerm) (p2 : o2.IsPerm) (mods : Bytes → Option (Result → Result)) (hm : ∀ n m, mods n = some m → RawBlind m)
    (pf : Bytes → Option FVal) (xml : Bytes) (i : Info) (h : Says xml i) (path : Bytes) :
    SameOutcome (get ⟨o1, mods, pf⟩ xml path) (get ⟨o2, mods, pf⟩ xml path) :=
  C47_get o1 o2 p1 p2 mods hm pf xml xml i h h path

/-- C47, C32: the same for GetWithOptions. Case-insensitively, no element may have two attributes whose names differ only in case (see
`C31_attribute_order` for what happens then). -/
theorem C47_getWithOptions (o1 o2 : Ord) (p1 : o1.IsPerm) (p2 : o2.IsPerm) (mods : Bytes → Option (Result → Result)) (hm : ∀ n m, mods n = some m → RawBlind m)
    (pf : Bytes → Option FVal) (xml1 xml2 : Bytes) (i : Info) (h1 : Says xml1 i) (h2 : Says xml2 i) (path : Bytes) (opts : Option Options)
    (hu : (opts.getD defaultOptions).caseSensitive = false → i.CaseUnique) :
    SameOutcome (getWithOptions ⟨o1, mods, pf⟩ xml1 path opts) (getWithOptions ⟨o2, mods, pf⟩ xml2 path opts) := by
  have he : Envs ⟨o1, mods, pf⟩ ⟨o2, mods, pf⟩ := ⟨p1, p2, rfl, rfl, hm⟩
  have hr : RU (opts.getD defaultOptions).caseSensitive o1 o2 xml1 xml2 := ⟨i, says_reads p1 h1, says_reads p2 h2, hu⟩
  have hl1 : ¬ xml1.length > maxDocumentSize := by simpa [maxDocumentSize] using h1.1
  have hl2 : ¬ xml2.length > maxDocumentSize := by simpa [maxDocumentSize] using h2.1
  simp only [getWithOptions, if_neg hl1, if_neg hl2]
  split
  · split
    · exact .panic
    · exact .ret alike_null
    · exact .ret alike_null
    · exact .ret (executeQuery_alike he _ ⟨i, says_reads p1 h1, says_reads p2 h2⟩)
  · split
    · exact .panic
    · exact .ret alike_null
    · exact .ret alike_null
    · exact .ret (execQOpt_alike (ev1 := evalFilter ⟨o1, mods, pf⟩) (ev2 := evalFilter ⟨o2, mods, pf⟩) he
        (fun f a b hab => evalFilterN_alike he (f.path.length + 1) f a b hab) _ true _ _ hr)

/-- C32: what a caller can see of two results alike: everything but `Raw` agrees. -/
theorem C32_observed (r1 r2 : Result) (h : Alike r1 r2) (pf : Bytes → Option FVal) :
    r1.typ = r2.typ ∧ r1.exists? = r2.exists? ∧ r1.toStr = r2.toStr ∧ r1.toInt = r2.toInt ∧ r1.toFloat pf = r2.toFloat pf ∧ r1.toBool = r2.toBool ∧
      r1.array.length = r2.array.length ∧ ∀ (k : Nat) x y, r1.array[k]? = some x → r2.array[k]? = some y → Alike x y := by
  refine ⟨h.typ, h.exists?, h.toStr, h.toInt, h.toFloat pf, h.toBool, h.array.length, fun k x y hx hy => ?_⟩
  rcases h.array.get k with ⟨h1, -⟩ | ⟨a, b, h1, h2, h3⟩
  · rw [h1] at hx; cases hx
  · rw [h1] at hx; rw [h2] at hy; cases hx; cases hy; exact h3

/-- C32: the built-in modifiers satisfy the assumption of `C32_get`, for any sorting procedure that only compares and moves, and any `@pretty` that
leaves results without `Raw` alone and otherwise changes at most `Raw` and drops nested results. -/
theorem C32_builtin (srt : Sorter) (hs : Oblivious srt) (pf : Bytes → Option FVal) (pretty : Result → Result) (hp0 : ∀ r, r.raw = [] → pretty r = r)
    (hp : ∀ r, pretty r = r ∨ ∃ raw, pretty r = .mk r.typ raw r.str r.num []) (n : Bytes) (m : Result → Result)
    (h : builtinMods srt pf pretty n = some m) : RawBlind m := by
  refine builtin_blind hs pf ?_ n m h
  intro r1 r2 hr
  cases hr with
  | nest t s n l1 l2 hlen h =>
    rw [hp0 _ rfl, hp0 _ rfl]
    exact .nest t s n l1 l2 hlen h
  | leaf t raw1 raw2 s n =>
    rcases hp (.mk t raw1 s n []) with h1 | ⟨a, h1⟩ <;> rcases hp (.mk t raw2 s n []) with h2 | ⟨b, h2⟩ <;> rw [h1, h2] <;> exact .leaf _ _ _ _ _

/-- Insertion into a sorted list, as an example of a sorting procedure. -/
def insertBy {α : Type} (less : α → α → Bool) (x : α) : List α → List α
  | [] => [x]
  | y :: ys => if less x y then x :: y :: ys else y :: insertBy less x ys

/-- Insertion sort. -/
def insertSort {α : Type} (less : α → α → Bool) : List α → List α
  | [] => []
  | x :: xs => insertBy less x (insertSort less xs)

theorem insertSort_oblivious {α : Type} : Oblivious (insertSort (α := α)) := by
  intro R less1 less2 l1 l2 h hl
  have hins : ∀ {x1 x2 : α} {l1 l2 : List α}, R x1 x2 → All2 R l1 l2 → All2 R (insertBy less1 x1 l1) (insertBy less2 x2 l2) := by
    intro x1 x2 l1 l2 hx h
    induction h with
    | nil => exact .cons hx .nil
    | cons hab h ih =>
      simp only [insertBy, hl _ _ _ _ hx hab]
      split
      · exact .cons hx (.cons hab h)
      · exact .cons hab ih
  induction h with
  | nil => exact .nil
  | cons hab _ ih => exact hins hab ih

/-- The orders of two runs: as parsed, and reversed. -/
def revOrd : Ord := fun _ as => as.reverse

theorem revOrd_perm : revOrd.IsPerm := fun _ as => List.reverse_perm as

/-- A registry with the built-in modifiers. -/
def exMods : Bytes → Option (Result → Result) := builtinMods insertSort (fun _ => none) id

theorem exMods_blind : ∀ n m, exMods n = some m → RawBlind m :=
  fun n m h => C32_builtin insertSort insertSort_oblivious _ id (fun _ _ => rfl) (fun _ => .inl rfl) n m h

/-- One document, written in two ways. -/
def twoWays1 : Forest :=
  .node b!"r" [] [] (.node b!"a" [⟨b!" ", b!"x", [], [], c!"'", b!"1"⟩, ⟨b!"  ", b!"y", b!" ", [], c!"\"", b!"2"⟩] [] (.leaf b!"b" [] [] (.text b!"t" .nil)) []
    (.leaf b!"a" [⟨b!" ", b!"x", [], [], c!"'", b!"0"⟩] b!" " .nil)) [] .nil
def twoWays2 : Forest :=
  .node b!"r" [] b!" " (.node b!"a" [⟨b!" ", b!"y", [], [], c!"'", b!"2"⟩, ⟨b!" ", b!"x", [], [], c!"\"", b!"1"⟩] b!" " (.node b!"b" [] [] .nil b!" " (.text b!"t" .nil)) []
    (.node b!"a" [⟨b!" ", b!"x", [], [], c!"'", b!"0"⟩] [] .nil [] .nil)) [] .nil

theorem twoWays_render : twoWays1.render = b!"<r><a x='1'  y =\"2\"><b/>t</a><a x='0' /></r>" ∧
    twoWays2.render = b!"<r ><a y='2' x=\"1\" ><b></b >t</a><a x='0'></a></r>" := by decide +kernel

theorem twoWays_info : twoWays1.info = twoWays2.info := by
  have : attrVal [⟨b!" ", b!"x", [], [], c!"'", b!"1"⟩, ⟨b!"  ", b!"y", b!" ", [], c!"\"", b!"2"⟩] =
      attrVal [⟨b!" ", b!"y", [], [], c!"'", b!"2"⟩, ⟨b!" ", b!"x", [], [], c!"\"", b!"1"⟩] := by
    funext k
    by_cases h1 : b!"x" = k
    · subst h1; decide +kernel
    · by_cases h2 : b!"y" = k
      · subst h2; decide +kernel
      · simp [attrVal, h1, h2]
  simp only [twoWays1, twoWays2, Forest.info, this]

/-- The two writings, read with different orders, give the same answer to any path; for instance to this one, with filter, field extraction and
modifiers. -/
example (path : Bytes) : SameOutcome (get ⟨fun _ a => a, exMods, fun _ => none⟩ twoWays1.render path) (get ⟨revOrd, exMods, fun _ => none⟩ twoWays2.render path) :=
  C47_get _ _ exEnv_perm revOrd_perm exMods exMods_blind _ _ _ twoWays1.info (says_of _ (by decide +kernel)) (twoWays_info ▸ says_of twoWays2 (by decide +kernel)) path

example : (match get ⟨revOrd, exMods, fun _ => none⟩ twoWays2.render b!"r.a.#(@x)#.@x|@sort" with | .ret r => r.toStr | .panic => []) = b!"[\"0\",\"1\"]" := by decide +kernel

/-- C32: `Raw` does depend on the order: the attributes of nested elements are written back in iteration order. -/
theorem C32_raw : ∃ r1 r2, get exEnv b!"<r><a x='1' y='2'/></r>" b!"r" = .ret r1 ∧ get { exEnv with ord := revOrd } b!"<r><a x='1' y='2'/></r>" b!"r" = .ret r2 ∧
    r1.raw = b!"<a x=\"1\" y=\"2\"/>" ∧ r2.raw = b!"<a y=\"2\" x=\"1\"/>" :=
  ⟨.ofContent b!"<a x=\"1\" y=\"2\"/>", .ofContent b!"<a y=\"2\" x=\"1\"/>", by decide +kernel, by decide +kernel, rfl, rfl⟩

/-- A document outside the class: an element with more than 100 attributes, some of them repeated. -/
def manyAttrs : Bytes := b!"<r><b" ++ (List.replicate 99 b!" k=''").flatten ++ b!" l='' z=\"<a x='1' y='2'/>\"/></r>"

/-- C32: outside the class an attribute value can depend on the order: after the 100th attribute the rest of the tag is taken for content, the element
inside the value is written back in iteration order, and the shortened attribute list is read again. -/
theorem C32_order_matters : get exEnv manyAttrs b!"r.b.@z" = .ret (.ofAttr b!"<a x=") ∧
    get { exEnv with ord := revOrd } manyAttrs b!"r.b.@z" = .ret (.ofAttr b!"<a y=") := by decide +kernel

end Verif.Props
