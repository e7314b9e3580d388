import Verif.Lemmas.Step
import Verif.Spec.Decide
/- Properties of Get on element paths with one final step: C04-C08. The document says `i` (`Says`), see Spec/Query. -/
namespace Verif.Props
open Spec

/-- The map order used by the examples: as it comes. -/
def exEnv : Env := ⟨fun _ a => a, fun _ => none, fun _ => none⟩

theorem exEnv_perm : exEnv.ord.IsPerm := fun _ a => List.Perm.refl a

/-- A check that a name is an ordinary element name. -/
def plain? (n : Bytes) : Bool :=
  !n.isEmpty && !n.contains c!"|" && n.head? ≠ some c!"@" && n.head? ≠ some c!"#" && n ≠ b!"%" && n ≠ b!"*" && n ≠ b!"**" &&
    n.any (fun c => !((48 ≤ c && c ≤ 57) || (c = c!"-" && 2 ≤ n.length)))

theorem plain_of {n : Bytes} (h : plain? n = true) : PlainName n := by
  simp only [plain?, Bool.and_eq_true, Bool.not_eq_true', decide_eq_true_eq, List.any_eq_true, Bool.or_eq_false_iff,
    Bool.and_eq_false_iff, List.isEmpty_eq_false_iff, List.contains_eq_mem, decide_eq_false_iff_not] at h
  obtain ⟨⟨⟨⟨⟨⟨⟨h1, h2⟩, h3⟩, h4⟩, h5⟩, h6⟩, h7⟩, c, h8, h9, h10⟩ := h
  refine ⟨h1, h2, h3, h4, h5, h6, h7, c, h8, ?_⟩
  rintro (⟨a, b⟩ | ⟨a, b⟩)
  · rcases h9 with h9 | h9
    · exact h9 a
    · exact h9 b
  · rcases h10 with h10 | h10
    · exact h10 a
    · exact h10 b

theorem plains_of {ns : List Bytes} (h : ns.all plain? = true) : ∀ n ∈ ns, PlainName n :=
  fun n hn => plain_of (List.all_eq_true.mp h n hn)

/-! ## C04 element paths -/

/-- C04: the answer to an element path is the first element reached by it, in document order: its String() is its text value
and its Raw is XML saying the same as its content; and there is no answer exactly if there is no such element. -/
theorem C04_get_element (env : Env) (ho : env.ord.IsPerm) (xml : Bytes) (i : Info) (h : Says xml i)
    (pre : List Bytes) (n : Bytes) (hp : ∀ m ∈ pre ++ [n], PlainName m) (hl : pre.length < 100) :
    match (i.select pre n).head? with
    | none => get env xml (pathOf (pre ++ [n])) = .ret .null
    | some nd => ∃ r, get env xml (pathOf (pre ++ [n])) = .ret r ∧ IsElement r nd := by
  obtain ⟨r, h1, h2⟩ := get_path (Q := IsElementW) (g := fun k => (k.named n).head?) env ho h pre n [] hp (by simp; omega) [] rfl
    (fun c k hc => step_elem env _ n _ hc)
  rw [List.append_nil] at h1
  rw [Info.select, List.head?_flatMap]
  revert h2
  cases List.findSome? (fun k => (k.named n).head?) (i.reach pre) with
  | none => rintro rfl; exact h1
  | some nd =>
    rintro ⟨-, h2⟩
    exact ⟨r, h1, h2.spec⟩

/-- `r.a.b` in the example document: there is such an element and its text is `y`. -/
example : ((exDoc.info.select [b!"r", b!"a"] b!"b").head?).map (fun nd => nd.kids.textValue) = some b!"y" := by decide +kernel
/-- so Get finds it. -/
example : ∃ r, get exEnv exDoc.render b!"r.a.b" = .ret r ∧ r.typ = .element ∧ r.toStr = b!"y" := by
  have := C04_get_element exEnv exEnv_perm _ _ exDoc_says [b!"r", b!"a"] b!"b" (plains_of (by decide)) (by decide)
  rw [show ((exDoc.info.select [b!"r", b!"a"] b!"b").head?) = some ⟨b!"b", attrVal [], .text b!"y" .nil⟩ by rfl] at this
  obtain ⟨r, h1, h2⟩ := this
  exact ⟨r, h1, h2.typ, by rw [h2.str]; decide +kernel⟩

theorem cutLt_cons {a : Bytes} (h : c!"<" ∉ a) (b : Bytes) : cutLt (a ++ c!"<" :: b) = a :: cutLt b := by
  induction a with
  | nil => simp [cutLt]
  | cons c cs ih =>
    simp only [List.mem_cons, not_or] at h
    rw [List.cons_append, cutLt, if_neg (fun e => h.1 e.symm), ih h.2]; rfl

theorem behind_gt {w : Bytes} (h : c!">" ∉ w) (l : Bytes) : ((w ++ c!">" :: l).dropWhile (· ≠ c!">")).filter (· ≠ c!">") = l.filter (· ≠ c!">") := by
  rw [List.dropWhile_append_of_pos]
  · simp
  · intro a ha
    have : a ≠ c!">" := fun e => h (e ▸ ha)
    simpa using this

/-- What leaks of `<` `w` `>` `l` `more`. -/
theorem leak_piece {w l : Bytes} (h1 : c!"<" ∉ w) (h2 : c!">" ∉ w) (h3 : c!"<" ∉ l) (m : Misc) (h : m.render = c!"<" :: (w ++ c!">" :: l)) :
    m.leak = l.filter (· ≠ c!">") := by
  rw [Misc.leak, h, cutLt, if_pos rfl, cutLt_none (by simp [h1, h3]), ← behind_gt h2 l]
  simp

/-- C04: comments and CDATA sections without `>` inside add nothing to the text of an element; with a `>` inside, everything behind
it is taken for text, with the end of the comment or section. -/
theorem C04_leak (x y : Bytes) (hx : c!">" ∉ x) (hx' : c!"<" ∉ x) (hy : c!"<" ∉ y) :
    (Misc.comment x).leak = [] ∧ (Misc.cdata x).leak = [] ∧ (Misc.comment (x ++ b!">" ++ y)).leak = y.filter (· ≠ c!">") ++ b!"--" ∧
      (Misc.cdata (x ++ b!">" ++ y)).leak = y.filter (· ≠ c!">") ++ b!"]]" := by
  refine ⟨?_, ?_, ?_, ?_⟩
  · exact leak_piece (w := b!"!--" ++ x ++ b!"--") (l := []) (by simpa using hx') (by simpa using hx) (by simp) _ (by simp [Misc.render])
  · exact leak_piece (w := b!"![CDATA[" ++ x ++ b!"]]") (l := []) (by simpa using hx') (by simpa using hx) (by simp) _ (by simp [Misc.render])
  · rw [leak_piece (w := b!"!--" ++ x) (l := y ++ b!"-->") (by simpa using hx') (by simpa using hx) (by simpa using hy) _ (by simp [Misc.render])]
    simp
  · rw [leak_piece (w := b!"![CDATA[" ++ x) (l := y ++ b!"]]>") (by simpa using hx') (by simpa using hx) (by simpa using hy) _ (by simp [Misc.render])]
    simp

/-- C04: the text of an element in a comment, the text behind it and `--` are read as text of the element around the comment. -/
theorem C04_leak_element (x s u t v : Bytes) (h : ∀ p ∈ [x, s, u, t, v], c!"<" ∉ p ∧ c!">" ∉ p) :
    (Misc.comment (x ++ b!"<" ++ s ++ b!">" ++ u ++ b!"</" ++ t ++ b!">" ++ v)).leak = u ++ v ++ b!"--" := by
  have hx := h x (by simp)
  have hs := h s (by simp)
  have hu := h u (by simp)
  have ht := h t (by simp)
  have hv := h v (by simp)
  have e : (Misc.comment (x ++ b!"<" ++ s ++ b!">" ++ u ++ b!"</" ++ t ++ b!">" ++ v)).render =
      c!"<" :: ((b!"!--" ++ x) ++ c!"<" :: ((s ++ c!">" :: u) ++ c!"<" :: ((c!"/" :: t) ++ c!">" :: (v ++ b!"-->")))) := by simp [Misc.render]
  have keep : ∀ w : Bytes, c!">" ∉ w → w.filter (· ≠ c!">") = w := by
    intro w hw
    rw [List.filter_eq_self]
    intro a ha
    have : a ≠ c!">" := fun e => hw (e ▸ ha)
    simpa using this
  have none : ∀ w : Bytes, c!">" ∉ w → (w.dropWhile (· ≠ c!">")).filter (· ≠ c!">") = [] := by
    intro w hw
    have : w.dropWhile (· ≠ c!">") = [] := by
      have := List.dropWhile_append_of_pos (l₁ := w) (l₂ := []) (p := (· ≠ c!">")) (fun a ha => by
        have : a ≠ c!">" := fun e => hw (e ▸ ha)
        simpa using this)
      simpa using this
    rw [this]; rfl
  rw [Misc.leak, e, cutLt, if_pos rfl, cutLt_cons (by simpa using hx.1), cutLt_cons (by simp [hs.1, hu.1]), cutLt_none (by simp [ht.1, hv.1])]
  simp only [List.flatMap_cons, List.flatMap_nil, behind_gt hs.2, behind_gt (w := c!"/" :: t) (by simp [ht.2]), none (b!"!--" ++ x) (by simpa using hx.2), keep u hu.2,
    List.filter_append, keep v hv.2, List.dropWhile_nil, List.filter_nil]
  simp

/-- A document with such a comment and such a section is in the class, -/
def leakDoc : Forest := .node b!"r" [] [] (.misc (.comment b!"x > y") (.text b!" 1 > 0" (.misc (.cdata b!"a->b") .nil))) [] .nil
example : leakDoc.render = b!"<r><!--x > y--> 1 > 0<![CDATA[a->b]]></r>" := by decide +kernel
theorem leakDoc_says : Says leakDoc.render leakDoc.info := says_of leakDoc (by decide +kernel)
/-- and this is what is read. -/
theorem C04_leak_witness : ∃ r, get exEnv leakDoc.render b!"r" = .ret r ∧ r.toStr = b!"y-- 1  0b]]" := by
  have := C04_get_element exEnv exEnv_perm _ _ leakDoc_says [] b!"r" (plains_of (by decide)) (by decide)
  rw [show ((leakDoc.info.select [] b!"r").head?) = some ⟨b!"r", attrVal [], .misc (.comment b!"x > y") (.text b!" 1 > 0" (.misc (.cdata b!"a->b") .nil))⟩ by rfl] at this
  obtain ⟨r, h1, h2⟩ := this
  exact ⟨r, h1, by rw [h2.str]; decide +kernel⟩

/-- An element in a comment: its text is read, -/
def shutDoc : Forest := .node b!"r" [] [] (.misc (.comment b!" old: <b k=\"1\">x</b> ") (.node b!"b" [] [] (.text b!"y" .nil) [] .nil)) [] .nil
theorem shutDoc_render : shutDoc.render = b!"<r><!-- old: <b k=\"1\">x</b> --><b>y</b></r>" := by decide +kernel
theorem shutDoc_says : Says shutDoc.render shutDoc.info := by
  refine ⟨by decide +kernel, .done shutDoc, (Forest.Legal.loose (d := 0) (by decide +kernel)), ?_, rfl, rfl⟩
  refine ⟨by decide +kernel, by decide, ⟨⟨⟨.text b!" old: " (.node b!"b" [⟨b!" ", b!"k", [], [], c!"\"", b!"1"⟩] [] (.text b!"x" .nil) [] (.text b!" " .nil)), by decide +kernel, by decide +kernel⟩, by decide, by decide⟩, ?_⟩, trivial⟩
  exact ⟨by decide +kernel, by decide, trivial, trivial⟩

/-- but the element is not found. -/
theorem C04_comment_witness : (∃ r, get exEnv shutDoc.render b!"r" = .ret r ∧ r.toStr = b!"x --y") ∧
    get exEnv shutDoc.render b!"r.b.#" = .ret (.ofCount 1) ∧ ∃ r, get exEnv shutDoc.render b!"r.b" = .ret r ∧ r.toStr = b!"y" := by
  refine ⟨?_, by decide +kernel, ?_⟩
  · have := C04_get_element exEnv exEnv_perm _ _ shutDoc_says [] b!"r" (plains_of (by decide)) (by decide)
    rw [show ((shutDoc.info.select [] b!"r").head?) = some ⟨b!"r", attrVal [], .misc (.comment b!" old: <b k=\"1\">x</b> ") (.elem b!"b" (attrVal []) (.text b!"y" .nil) .nil)⟩ by rfl] at this
    obtain ⟨r, h1, h2⟩ := this
    exact ⟨r, h1, by rw [h2.str]; decide +kernel⟩
  · have := C04_get_element exEnv exEnv_perm _ _ shutDoc_says [b!"r"] b!"b" (plains_of (by decide)) (by decide)
    rw [show ((shutDoc.info.select [b!"r"] b!"b").head?) = some ⟨b!"b", attrVal [], .text b!"y" .nil⟩ by rfl] at this
    obtain ⟨r, h1, h2⟩ := this
    exact ⟨r, h1, by rw [h2.str]; decide +kernel⟩

/-! ## C05 attributes -/

/-- C05: among the parents reached by the path, each contributes the attribute of its first matching child; the answer is
the first of these that exists. -/
theorem C05_get_attribute (env : Env) (ho : env.ord.IsPerm) (xml : Bytes) (i : Info) (h : Says xml i)
    (pre : List Bytes) (n a : Bytes) (hp : ∀ m ∈ pre ++ [n], PlainName m) (ha : c!"|" ∉ a) (hl : pre.length < 99) :
    get env xml (pathOf (pre ++ [n] ++ [c!"@" :: a])) =
      match (i.reach pre).findSome? (fun k => (k.named n).head?.bind (·.attr a)) with
      | none => .ret .null
      | some v => .ret (.ofAttr v) := by
  have hs : parseParts [c!"@" :: a] = .ok [⟨.attr a, []⟩] := by
    have : parsePart (c!"@" :: a) = .seg ⟨.attr a, []⟩ := by
      unfold parsePart
      rw [parseModifiers_plain _ (by simp [ha])]
      simp [hasPrefix, List.isPrefixOf]
    simp [parseParts, this]
  obtain ⟨r, h1, h2⟩ := get_path env ho h pre n [c!"@" :: a] hp (by simp; omega) _ hs (fun c k hc => step_attr env _ n a _ hc)
  rw [h1]
  revert h2
  cases (i.reach pre).findSome? (fun k => (k.named n).head?.bind (·.attr a)) with
  | none => rintro rfl; rfl
  | some v => rintro ⟨-, rfl⟩; rfl

/-- C05, the usual case: all parents on the way are unique, so the answer is the attribute of the first element reached. -/
theorem C05_get_attribute_unique (env : Env) (ho : env.ord.IsPerm) (xml : Bytes) (i k : Info) (h : Says xml i)
    (pre : List Bytes) (n a : Bytes) (hp : ∀ m ∈ pre ++ [n], PlainName m) (ha : c!"|" ∉ a) (hl : pre.length < 99) (hu : i.reach pre = [k]) :
    get env xml (pathOf (pre ++ [n] ++ [c!"@" :: a])) =
      match (i.select pre n).head?.bind (·.attr a) with
      | none => .ret .null
      | some v => .ret (.ofAttr v) := by
  rw [C05_get_attribute env ho xml i h pre n a hp ha hl, Info.select, hu]
  simp only [List.flatMap_cons, List.flatMap_nil, List.append_nil, List.findSome?_cons, List.findSome?_nil]
  cases (k.named n).head?.bind (·.attr a) <;> rfl

/-- C05: an attribute written with a value reads as that value decoded (the last one if written twice). -/
theorem C05_attrVal_last (as : List Attr) (a : Attr) : attrVal (as ++ [a]) a.name = some (unescapeXML a.raw) := by
  simp [attrVal, List.filter_append]

example : get exEnv exDoc.render b!"r.n:a.@k" = .ret (.ofAttr b!"2") := by
  have := C05_get_attribute exEnv exEnv_perm _ _ exDoc_says [b!"r"] b!"n:a" b!"k" (plains_of (by decide)) (by decide) (by decide)
  rw [show (exDoc.info.reach [b!"r"]).findSome? (fun k => (k.named b!"n:a").head?.bind (·.attr b!"k")) = some b!"2" by decide +kernel] at this
  exact this

/-- The answer need not come from the first element reached: a document where the first `r.a.b` has no `k` but a later one does. -/
theorem C05_not_first : get exEnv b!"<r><a><b/></a><a><b k=\"1\"/></a></r>" b!"r.a.b.@k" = .ret (.ofAttr b!"1") ∧
    get exEnv b!"<r><a><b/><b k=\"1\"/></a></r>" b!"r.a.b.@k" = .ret .null := by decide +kernel

/-! ## C06 count and index -/

/-- C06: a count is the number of matching children below the first parent having any, capped at 1000. -/
theorem C06_count (env : Env) (ho : env.ord.IsPerm) (xml : Bytes) (i : Info) (h : Says xml i)
    (pre : List Bytes) (n : Bytes) (hp : ∀ m ∈ pre ++ [n], PlainName m) (hl : pre.length < 99) :
    match (i.groups pre n).find? (fun g => !g.isEmpty) with
    | none => get env xml (pathOf (pre ++ [n] ++ [b!"#"])) = .ret .null
    | some g => get env xml (pathOf (pre ++ [n] ++ [b!"#"])) = .ret (.ofCount (min 1000 g.length)) := by
  obtain ⟨r, h1, h2⟩ := get_path env ho h pre n [b!"#"] hp (by simp; omega) [⟨.count, []⟩] rfl
    (fun c k hc => step_count env _ n _ hc)
  rw [h1]
  have e : (i.reach pre).findSome? (fun k => if (k.hits pre.isEmpty n).isEmpty then none else some (min 1000 (k.hits pre.isEmpty n).length)) =
      ((i.groups pre n).find? (fun g => !g.isEmpty)).map (fun g => min 1000 g.length) := by
    rw [Info.groups]
    induction i.reach pre with
    | nil => rfl
    | cons k ks ih =>
      simp only [List.findSome?_cons, List.map_cons, List.find?_cons]
      cases (k.hits pre.isEmpty n).isEmpty with
      | true => simpa using ih
      | false => rfl
  rw [e] at h2
  revert h2
  cases (i.groups pre n).find? (fun g => !g.isEmpty) with
  | none => rintro rfl; rfl
  | some g => rintro ⟨-, rfl⟩; rfl

/-- C06: a count is a Number with that value, and its String() is its decimal numeral. -/
theorem C06_count_value (m : Nat) : (Result.ofCount m).typ = .number ∧ (Result.ofCount m).num = .fin m ∧ Decimal (Result.ofCount m).toStr m := by
  refine ⟨rfl, rfl, ?_⟩
  rw [Result.toStr_ne _ (by simp) (by simp)]
  show Decimal (natDec m) m
  induction m using Nat.strongRecOn with
  | _ m ih =>
    rw [natDec]
    have hd : ∀ k, k < 10 → (48 : UInt8) ≤ UInt8.ofNat (48 + k) ∧ UInt8.ofNat (48 + k) ≤ 57 ∧ (UInt8.ofNat (48 + k)).toNat - 48 = k := by decide
    split
    · rename_i hm
      obtain ⟨a, b, c⟩ := hd m hm
      have := Decimal.digit _ ⟨a, b⟩
      rwa [c] at this
    · rename_i hm
      obtain ⟨a, b, c⟩ := hd (m % 10) (Nat.mod_lt _ (by omega))
      have := Decimal.snoc (ih (m / 10) (by omega)) ⟨a, b⟩
      rw [c] at this
      rwa [show 10 * (m / 10) + m % 10 = m by omega] at this

/-- C06: an index `j` is the `j`-th matching child of the first parent having that many (among its first 1000). -/
theorem C06_index (env : Env) (ho : env.ord.IsPerm) (xml : Bytes) (i : Info) (h : Says xml i)
    (pre : List Bytes) (n ds : Bytes) (j : Nat) (hj : Decimal ds j) (hp : ∀ m ∈ pre ++ [n], PlainName m) (hl : pre.length < 99) :
    match (i.groups pre n).findSome? (fun g => (g.take 1000)[j]?) with
    | none => get env xml (pathOf (pre ++ [n] ++ [ds])) = .ret .null
    | some nd => ∃ r, get env xml (pathOf (pre ++ [n] ++ [ds])) = .ret r ∧ IsElement r nd := by
  have hs : parseParts [ds] = .ok [⟨.index ((if j ≥ 2 ^ 63 then 2 ^ 63 - 1 else j : Nat) : Int), []⟩] := by
    simp only [parseParts, parsePart_decimal hj]
    split <;> simp_all
  obtain ⟨r, h1, h2⟩ := get_path env ho h pre n [ds] hp (by simp; omega) _ hs (fun c k hc => step_index env _ n _ _ hc)
  have e : (i.reach pre).findSome? (fun k => ((k.hits pre.isEmpty n).take 1000)[if j ≥ 2 ^ 63 then 2 ^ 63 - 1 else j]?) =
      (i.groups pre n).findSome? (fun g => (g.take 1000)[j]?) := by
    rw [Info.groups]
    have : ∀ l : List Node, (l.take 1000)[if j ≥ 2 ^ 63 then 2 ^ 63 - 1 else j]? = (l.take 1000)[j]? := by
      intro l
      split
      · rw [List.getElem?_eq_none, List.getElem?_eq_none] <;> rw [List.length_take] <;> omega
      · rfl
    induction i.reach pre with
    | nil => rfl
    | cons k ks ih => simp only [List.findSome?_cons, List.map_cons, this] at ih ⊢; rw [ih]
  rw [e] at h2
  revert h2
  cases (i.groups pre n).findSome? (fun g => (g.take 1000)[j]?) with
  | none => rintro rfl; exact h1
  | some nd =>
    rintro ⟨-, h2⟩
    exact ⟨r, h1, h2.spec⟩

/-- C06: count and index agree when one parent is reached: with `m` matching children (up to 1000) the count is `m`, and index `j`
exists exactly if `j < m`. -/
theorem C06_agree (env : Env) (ho : env.ord.IsPerm) (xml : Bytes) (i k : Info) (h : Says xml i)
    (pre : List Bytes) (n ds : Bytes) (j : Nat) (hj : Decimal ds j) (hp : ∀ m ∈ pre ++ [n], PlainName m) (hl : pre.length < 99)
    (hu : i.reach pre = [k]) (m : Nat) (hc : get env xml (pathOf (pre ++ [n] ++ [b!"#"])) = .ret (.ofCount m)) :
    (∃ r, get env xml (pathOf (pre ++ [n] ++ [ds])) = .ret r ∧ r.typ ≠ .null) ↔ j < m := by
  have h1 := C06_count env ho xml i h pre n hp hl
  have h2 := C06_index env ho xml i h pre n ds j hj hp hl
  simp only [Info.groups, hu, List.map_cons, List.map_nil, List.find?_cons, List.find?_nil, List.findSome?_cons, List.findSome?_nil] at h1 h2
  generalize k.hits pre.isEmpty n = l at h1 h2
  cases hl : l with
  | nil =>
    subst hl
    simp only [List.isEmpty_nil, Bool.not_true] at h1
    rw [h1] at hc
    injection hc with hc
    have := congrArg Result.typ hc
    simp at this
  | cons a as =>
    have : (!l.isEmpty) = true := by rw [hl]; rfl
    simp only [this] at h1
    rw [h1] at hc
    injection hc with hc
    have hc := congrArg Result.num hc
    simp only [Result.ofCount, Result.num, FVal.fin.injEq] at hc
    have hc : min 1000 l.length = m := by exact_mod_cast hc
    have hlt : (l.take 1000).length = m := by rw [List.length_take]; exact hc
    constructor
    · rintro ⟨r, hr, ht⟩
      apply Decidable.byContradiction
      intro hn
      rw [List.getElem?_eq_none (by omega)] at h2
      simp only at h2
      rw [hr] at h2
      injection h2 with h2
      rw [h2] at ht
      exact ht rfl
    · intro hlt2
      rw [List.getElem?_eq_getElem (by omega)] at h2
      simp only at h2
      obtain ⟨r, hr, ht⟩ := h2
      exact ⟨r, hr, by rw [ht.typ]; simp⟩

example : get exEnv exDoc.render b!"r.a.#" = .ret (.ofCount 2) := by
  exact C06_count exEnv exEnv_perm _ _ exDoc_says [b!"r"] b!"a" (plains_of (by decide)) (by decide)
example : (exDoc.info.groups [b!"r"] b!"a").map List.length = [2] := by decide +kernel

/-- With several parents they need not agree: the count is that of the first parent (1), yet index 1 is found below the second. -/
theorem C06_disagree : get exEnv b!"<r><p><x>0</x></p><p><x>1</x><x>2</x></p></r>" b!"r.p.x.#" = .ret (.ofCount 1) ∧
    get exEnv b!"<r><p><x>0</x></p><p><x>1</x><x>2</x></p></r>" b!"r.p.x.1" = .ret (.ofContent b!"2") := by decide +kernel

/-! ## C07 direct text -/

/-- C07: `%` after an element path is the element's own text (trimmed, decoded), nothing of its descendants; the element is the
first match below the first parent having one. Texts containing `/>` or beginning with `>` are excluded (`Quiet`), see DESIGN.md section 6. -/
theorem C07_direct_text (env : Env) (ho : env.ord.IsPerm) (xml : Bytes) (i : Info) (h : Says xml i)
    (pre : List Bytes) (n : Bytes) (hp : ∀ m ∈ pre ++ [n], PlainName m) (hl : pre.length < 99) :
    match (i.select pre n).head? with
    | none => get env xml (pathOf (pre ++ [n] ++ [b!"%"])) = .ret .null
    | some nd => ∃ r, get env xml (pathOf (pre ++ [n] ++ [b!"%"])) = .ret r ∧ IsOwnText r nd := by
  obtain ⟨r, h1, h2⟩ := get_path (g := fun k => (k.named n).head?) env ho h pre n [b!"%"] hp (by simp; omega) [⟨.text, []⟩] rfl
    (fun c k hc => step_text env _ n _ hc)
  rw [Info.select, List.head?_flatMap]
  revert h2
  cases List.findSome? (fun k => (k.named n).head?) (i.reach pre) with
  | none => rintro rfl; exact h1
  | some nd => rintro ⟨-, h2⟩; exact ⟨r, h1, h2⟩

/-- The own text of `r.a` in the example is `x`, although its text value is `xy`. -/
example : ((exDoc.info.select [b!"r"] b!"a").head?).map (fun nd => (nd.kids.ownValue, nd.kids.textValue)) = some (b!"x", b!"xy") := by decide +kernel
example : ∃ r, get exEnv exDoc.render b!"r.a.%" = .ret r ∧ r.toStr = b!"x" := ⟨.ofText b!"x<b>y</b><!--c-->", by decide +kernel, by decide +kernel⟩

/-- `Quiet` is needed: with a raw `/>` in the text, `%` drops own text and includes text of a child. -/
theorem C07_gt_needed : get exEnv b!"<r>1/>2<b>3</b>4</r>" b!"r.%" = .ret (.mk .string b!"1/>2<b>3</b>4" b!"1/3" (.fin 0) []) := by
  decide +kernel

/-! ## C08 wildcard -/

/-- C08: `*` returns all children of the first parent having any, in document order and at most 1000: a single result when there is one,
an Array otherwise. -/
theorem C08_wildcard (env : Env) (ho : env.ord.IsPerm) (xml : Bytes) (i : Info) (h : Says xml i)
    (pre : List Bytes) (hp : ∀ m ∈ pre, PlainName m) (hl : pre.length < 100) :
    match (i.reach pre).find? (fun k => !k.elems.isEmpty) with
    | none => get env xml (pathOf (pre ++ [b!"*"])) = .ret .null
    | some k => ∃ r, get env xml (pathOf (pre ++ [b!"*"])) = .ret r ∧ IsList IsElement r (k.elems.take 1000) := by
  have hq : get env xml (pathOf (pre ++ [b!"*"])) = .ret (executeQuery env (pre.map nameSeg ++ [⟨.wild false, []⟩]) xml) := by
    have hd : maxDocumentSize = 10485760 := rfl
    have hx := h.1
    unfold get
    rw [if_neg (by omega), parsePath_parts _ (by simp) (by cases pre <;> simp) (by simp; omega),
      parseParts_names pre [b!"*"] hp [⟨.wild false, []⟩] rfl]
    simp only
    rw [fuseFields_names]
    cases pre <;> rfl
  have hy := exec_path env ho (evalFilter env) pre ⟨.wild false, []⟩ [] rfl (says_reads ho h) (fun c k hc => step_wild env _ _ hc)
  have e : (i.reach pre).findSome? (fun k => if k.elems.isEmpty then none else some (k.elems.take 1000)) =
      ((i.reach pre).find? (fun k => !k.elems.isEmpty)).map (fun k => k.elems.take 1000) := by
    induction i.reach pre with
    | nil => rfl
    | cons k ks ih =>
      simp only [List.findSome?_cons, List.find?_cons]
      cases k.elems.isEmpty with
      | true => simpa using ih
      | false => rfl
  rw [e] at hy
  revert hy
  rw [hq]
  cases (i.reach pre).find? (fun k => !k.elems.isEmpty) with
  | none => intro hy; exact congrArg _ hy
  | some k => rintro ⟨-, h2⟩; exact ⟨_, rfl, IsList.imp h2 (fun _ _ h => h.spec)⟩

example : ((exDoc.info.reach [b!"r"]).find? (fun k => !k.elems.isEmpty)).map (fun k => k.elems.map (·.name)) = some [b!"a", b!"n:a"] := by decide +kernel
example : get exEnv exDoc.render b!"r.*" = .ret (.ofArray [.ofContent b!"x<b>y</b><!--c-->", .ofContent []]) := by decide +kernel
example : get exEnv exDoc.render b!"*" = .ret (.ofContent b!"<a k=\"1\">x<b>y</b><!--c--></a><n:a k=\"2\" j=\"3\"/>") := by decide +kernel

end Verif.Props
