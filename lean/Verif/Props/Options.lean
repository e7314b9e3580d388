import Verif.Lemmas.Fold
import Verif.Lemmas.Prolog
import Verif.Model.Set
import Verif.Props.Query
/- C30 and C31: the option structure. -/
namespace Verif.Props
open Spec

/-! ## C30 -/

/-- C30: no options, or the default ones, are the same as calling Get. -/
theorem C30_get_default (env : Env) (xml path : Bytes) : getWithOptions env xml path none = get env xml path ∧
    getWithOptions env xml path (some defaultOptions) = get env xml path := by
  constructor <;> simp [getWithOptions, get, isDefaultOptions, defaultOptions] <;> rfl

/-- C30: the same for Set, Delete and SetBytes. -/
theorem C30_set_default (o : Ord) (xml path : Bytes) (v : GoVal) : setWithOptions o xml path v none = set o xml path v ∧
    setWithOptions o xml path v (some defaultOptions) = set o xml path v ∧ deleteWithOptions o xml path none = delete o xml path ∧
    deleteWithOptions o xml path (some defaultOptions) = delete o xml path := ⟨rfl, rfl, rfl, rfl⟩

/-- C30: Set reads only CaseSensitive and Indent, and Delete only CaseSensitive. -/
theorem C30_set_others (o : Ord) (xml path : Bytes) (v : GoVal) (opts : Options) (hc : opts.caseSensitive = true) :
    (opts.indent = [] → setWithOptions o xml path v (some opts) = set o xml path v) ∧ deleteWithOptions o xml path (some opts) = delete o xml path := by
  have hd : deleteWithOptions o xml path (some opts) = delete o xml path := by simp only [deleteWithOptions, delete, effOpts, Option.getD_some, hc, defaultOptions]
  refine ⟨fun hi => ?_, hd⟩
  have hd' : deleteWithOptions o xml path (some opts) = deleteWithOptions o xml path (some defaultOptions) := hd
  simp only [setWithOptions, set, effOpts, Option.getD_some, hc, hi, hd', defaultOptions]

/-- C30: options with CaseSensitive do not change what Get answers, provided the path has no modifiers and does not have both
wildcards and `#`. The second engine is a separate copy of the first. -/
theorem C30_get_cs (env : Env) (xml : Bytes) (parts : List Bytes) (hb : ∀ p ∈ parts, c!"|" ∉ p)
    (hw : (∀ p ∈ parts, p ≠ b!"*" ∧ p ≠ b!"**") ∨ ∀ p ∈ parts, p ≠ b!"#") (opts : Options) (hc : opts.caseSensitive = true) :
    getWithOptions env xml (pathOf parts) (some opts) = get env xml (pathOf parts) := by
  unfold getWithOptions get
  split
  · rfl
  · split
    · rfl
    · simp only [Option.getD_some, hc, parsePathWithOptions]
      cases h : parsePath (pathOf parts) with
      | panic => rfl
      | err => rfl
      | ok ss =>
        obtain ⟨h1, h2, h3⟩ := parsePath_forms hb h
        have := execQOpt_true (env := env) (ev := evalFilter env) ss h1 (hw.imp h2 h3) true xml
        simp only [if_true]
        cases ss with
        | nil => rfl
        | cons s ss => simp only [this, executeQuery]

/-- Options other than the default ones that only ask for case-sensitive names. -/
def wsOpts : Options := ⟨true, [], true, none⟩

example : getWithOptions exEnv exDoc.render b!"r.a.#" (some wsOpts) = get exEnv exDoc.render b!"r.a.#" :=
  C30_get_cs exEnv exDoc.render [b!"r", b!"a", b!"#"] (by decide) (.inl (by decide)) wsOpts rfl
example : isDefaultOptions (some wsOpts) = false := by decide

/-- An environment with one modifier, `m`, whose result is always 7. -/
def mEnv : Env := ⟨fun _ a => a, fun n => if n = b!"m" then some (fun _ => .ofCount 7) else none, fun _ => none⟩

/-- C30, why no modifiers: they are dropped after an element. -/
theorem C30_modifiers_dropped : get mEnv b!"<a>1</a>" b!"a|@m" = .ret (.ofCount 7) ∧
    getWithOptions mEnv b!"<a>1</a>" b!"a|@m" (some wsOpts) = .ret (.ofContent b!"1") := by decide +kernel

/-- C30: it takes only one field different from the defaults for this. -/
theorem C30_any_field (opts : Options) : getWithOptions mEnv b!"<a>1</a>" b!"a|@m" (some opts) = get mEnv b!"<a>1</a>" b!"a|@m" ↔ opts = defaultOptions := by
  constructor
  · intro h
    by_cases hd : isDefaultOptions (some opts) = true
    · obtain ⟨c, i, p, n⟩ := opts
      simp only [isDefaultOptions, Bool.and_eq_true, List.isEmpty_iff, Bool.not_eq_true', Option.isNone_iff_eq_none] at hd
      obtain ⟨⟨⟨rfl, rfl⟩, rfl⟩, rfl⟩ := hd; rfl
    · exfalso
      rw [C30_modifiers_dropped.1] at h
      have h1 : ¬ (b!"<a>1</a>").length > maxDocumentSize := by decide
      rw [getWithOptions, if_neg h1, if_neg hd] at h
      simp only [Option.getD_some] at h
      revert h
      cases opts.caseSensitive <;> decide +kernel
  · rintro rfl; exact (C30_get_default _ _ _).2

/-- C30, why not wildcards with `#`: no result is different from an empty array. -/
theorem C30_wildcard_field : getWithOptions exEnv b!"<r><a/></r>" b!"*.#.f" (some wsOpts) ≠ get exEnv b!"<r><a/></r>" b!"*.#.f" := by decide +kernel

/-! ## C31 -/

/-- C31: case-insensitive queries whose paths are equal up to the case of letters have the same answer on any document.
(Filters and modifiers are case-sensitive, so the path contains none.) -/
theorem C31_path_case (env : Env) (xml p q : Bytes) (hpq : foldCase p = foldCase q) (h1 : c!"|" ∉ p) (h2 : c!"(" ∉ p) (opts : Options)
    (hc : opts.caseSensitive = false) : getWithOptions env xml p (some opts) = getWithOptions env xml q (some opts) := by
  have key : ∀ x : UInt8, (¬ (65 ≤ x ∧ x ≤ 90) ∧ ¬ (97 ≤ x ∧ x ≤ 122)) → x ∉ p → x ∉ q := by
    intro x hx hp hq
    have hm : ∀ s : Bytes, x ∈ foldCase s ↔ x ∈ s := by
      intro s
      rw [foldCase_eq, toLowerASCII, List.mem_map]
      constructor
      · rintro ⟨c, hc, e⟩
        rw [lowerByte_eq hx] at e
        exact e ▸ hc
      · intro h
        exact ⟨x, h, (lowerByte_eq hx x).mpr rfl⟩
    exact hp ((hm p).mp (hpq ▸ (hm q).mpr hq))
  rw [← getWithOptions_low env xml p h1 h2 opts hc, ← getWithOptions_low env xml q (key _ (by decide) h1) (key _ (by decide) h2) opts hc]
  rw [foldCase_eq, foldCase_eq] at hpq
  rw [hpq]

/-- Case-insensitive options. -/
def ciOpts : Options := ⟨false, [], false, none⟩

example : getWithOptions exEnv exDoc.render b!"R.A.#.B" (some ciOpts) = getWithOptions exEnv exDoc.render b!"r.a.#.b" (some ciOpts) :=
  C31_path_case exEnv _ _ _ (by decide) (by decide) (by decide) ciOpts rfl

/-- C31: on an element path the answer is the first element reached by the names, all compared up to case. -/
theorem C31_get_element (env : Env) (ho : env.ord.IsPerm) (xml : Bytes) (i : Info) (h : Says xml i)
    (pre : List Bytes) (n : Bytes) (hp : ∀ m ∈ pre ++ [n], PlainName m) (hl : pre.length < 100) (opts : Options) (hc : opts.caseSensitive = false) :
    match (i.selectFold pre n).head? with
    | none => getWithOptions env xml (pathOf (pre ++ [n])) (some opts) = .ret .null
    | some nd => ∃ r, getWithOptions env xml (pathOf (pre ++ [n])) (some opts) = .ret r ∧ IsElement r nd := by
  obtain ⟨r, h1, h2⟩ := getOpt_path (Q := IsElementW) (g := fun k => (k.namedFold n).head?) env ho hc h pre n [] hp (by simp; omega) [] rfl
    (fun c k hc => stepOpt_elem env _ n _ hc)
  rw [List.append_nil] at h1
  rw [Info.selectFold, List.head?_flatMap]
  revert h2
  cases List.findSome? (fun k => (k.namedFold n).head?) (i.reachFold pre) with
  | none => rintro rfl; exact h1
  | some nd =>
    rintro ⟨-, h2⟩
    exact ⟨r, h1, h2.spec⟩

example : ∃ r, getWithOptions exEnv exDoc.render b!"R.a.B" (some ciOpts) = .ret r ∧ r.typ = .element ∧ r.toStr = b!"y" := by
  have := C31_get_element exEnv exEnv_perm _ _ exDoc_says [b!"R", b!"a"] b!"B" (plains_of (by decide)) (by decide) ciOpts rfl
  rw [show ((exDoc.info.selectFold [b!"R", b!"a"] b!"B").head?) = some ⟨b!"b", attrVal [], .text b!"y" .nil⟩ by rfl] at this
  obtain ⟨r, h1, h2⟩ := this
  exact ⟨r, h1, h2.typ, by rw [h2.str]; decide +kernel⟩
/-- and case matters to Get. -/
example : get exEnv exDoc.render b!"R.a.B" = .ret .null := by decide +kernel

/-- C31: filters stay case-sensitive. -/
theorem C31_filter_case : getWithOptions exEnv b!"<r><a><b>1</b></a></r>" b!"r.a.#(B==1)" (some ciOpts) = .ret .null ∧
    getWithOptions exEnv b!"<r><a><b>1</b></a></r>" b!"r.a.#(b==1)" (some ciOpts) ≠ .ret .null := by decide +kernel

/-- C31: when two attributes of one element differ only by case, which one is found depends on the map iteration order. -/
theorem C31_attribute_order : getWithOptions ⟨fun _ a => a, fun _ => none, fun _ => none⟩ b!"<a K=\"1\" k=\"2\"/>" b!"a.@k" (some ciOpts) ≠
    getWithOptions ⟨fun _ a => a.reverse, fun _ => none, fun _ => none⟩ b!"<a K=\"1\" k=\"2\"/>" b!"a.@k" (some ciOpts) := by decide +kernel

end Verif.Props
