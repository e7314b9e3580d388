import Verif.Lemmas.Excess
import Verif.Props.Query
/- C58: what queries make of tags and tokens over the limits, which the validator rejects. -/
namespace Verif.Props
open Spec

/-- C58: a tag with more than 100 attributes is read as if it ended after the hundredth; the rest of the tag is content. -/
theorem C58_attributes (env : Env) (pro n : Bytes) (as : List Attr) (w c : UInt8) (rest path : Bytes) (hpro : Prolog pro) (hn : TagName n) (ha : AttrsLoose as)
    (hl : as.length = 100) (hw : IsWs w) (hcw : ¬ IsWs c) (h1 : c ≠ c!">") (h2 : c ≠ c!"/") :
    get env (pro ++ (b!"<" ++ n ++ as.flatMap Attr.render ++ [w] ++ c :: rest)) path = get env (pro ++ (b!"<" ++ n ++ as.flatMap Attr.render ++ b!">" ++ c :: rest)) path := by
  have e : ∀ x : UInt8, pro ++ (b!"<" ++ n ++ as.flatMap Attr.render ++ [x] ++ c :: rest) = pro ++ (c!"<" :: (n ++ as.flatMap Attr.render ++ x :: c :: rest)) := by intro x; simp
  rw [e, e]
  exact get_top (by simp only [List.length_append, List.length_cons]) (topElems_full env.ord hpro hn ha hl hw hcw h1 h2) path

/-- C58: with any options. -/
theorem C58_attributes_options (env : Env) (pro n : Bytes) (as : List Attr) (w c : UInt8) (rest path : Bytes) (opts : Option Options) (hpro : Prolog pro) (hn : TagName n)
    (ha : AttrsLoose as) (hl : as.length = 100) (hw : IsWs w) (hcw : ¬ IsWs c) (h1 : c ≠ c!">") (h2 : c ≠ c!"/") :
    getWithOptions env (pro ++ (b!"<" ++ n ++ as.flatMap Attr.render ++ [w] ++ c :: rest)) path opts =
      getWithOptions env (pro ++ (b!"<" ++ n ++ as.flatMap Attr.render ++ b!">" ++ c :: rest)) path opts := by
  have e : ∀ x : UInt8, pro ++ (b!"<" ++ n ++ as.flatMap Attr.render ++ [x] ++ c :: rest) = pro ++ (c!"<" :: (n ++ as.flatMap Attr.render ++ x :: c :: rest)) := by intro x; simp
  rw [e, e]
  exact getWithOptions_top (by simp only [List.length_append, List.length_cons]) (topElems_full env.ord hpro hn ha hl hw hcw h1 h2) path opts

private theorem leak_says {n : Bytes} {as : List Attr} {c : UInt8} {t : Bytes} (hn : TagName n) (ha : AttrsLoose as) (hf : AttrsFit as) (ht : c!"<" ∉ c :: t)
    (hx : (b!"<" ++ n ++ as.flatMap Attr.render ++ b!">" ++ c :: t ++ b!"</" ++ n ++ b!">").length ≤ 10485760) :
    Says (b!"<" ++ n ++ as.flatMap Attr.render ++ b!">" ++ c :: t ++ b!"</" ++ n ++ b!">") (Forest.node n as [] (.text (c :: t) .nil) [] .nil).info := by
  refine ⟨hx, .done (.node n as [] (.text (c :: t) .nil) [] .nil), ?_, ?_, ?_, rfl⟩
  · exact ⟨hn, ha, by simp, ⟨ht, trivial⟩, ⟨by simp, by simp⟩, trivial⟩
  · exact ⟨hf, by have := hn.2.2.2.2.2; simpa using this, trivial, trivial⟩
  · simp [Draft.render, Forest.render, openTag, closeTag]

private theorem leak_node (n : Bytes) (as : List Attr) (c : UInt8) (t : Bytes) :
    ((Forest.node n as [] (.text (c :: t) .nil) [] .nil).info.named n).head? = some ⟨n, attrVal as, (Forest.text (c :: t) .nil).info⟩ := by
  simp [Info.named, Forest.info, Info.elems, nameMatches]

/-- C58: so the remaining attributes are part of the element's text, and cannot be read as attributes. -/
theorem C58_leak (env : Env) (ho : env.ord.IsPerm) (n : Bytes) (as : List Attr) (w c : UInt8) (t : Bytes) (hn : TagName n) (hp : PlainName n) (ha : AttrsLoose as) (hf : AttrsFit as)
    (hl : as.length = 100) (hw : IsWs w) (hcw : ¬ IsWs c) (h1 : c ≠ c!">") (h2 : c ≠ c!"/") (ht : c!"<" ∉ c :: t)
    (hx : (b!"<" ++ n ++ as.flatMap Attr.render ++ [w] ++ c :: t ++ b!"</" ++ n ++ b!">").length ≤ 10485760) :
    (∃ r, get env (b!"<" ++ n ++ as.flatMap Attr.render ++ [w] ++ c :: t ++ b!"</" ++ n ++ b!">") (pathOf [n]) = .ret r ∧
      r.toStr = unescapeXML (trimSpace ((c :: t).filter (· ≠ c!">")))) ∧
    ∀ k, c!"|" ∉ k → get env (b!"<" ++ n ++ as.flatMap Attr.render ++ [w] ++ c :: t ++ b!"</" ++ n ++ b!">") (pathOf [n, c!"@" :: k]) =
      .ret (match attrVal as k with | some v => .ofAttr v | none => .null) := by
  have e := fun p => C58_attributes env [] n as w c (t ++ b!"</" ++ n ++ b!">") p .nil hn ha hl hw hcw h1 h2
  have hs := leak_says hn ha hf ht (by simp only [List.length_append, List.length_cons, List.length_nil] at hx ⊢; omega)
  simp only [List.nil_append, List.append_assoc, List.cons_append] at e hs ⊢
  constructor
  · have := C04_get_element env ho _ _ hs [] n (by simpa using hp) (by simp)
    have hsel : ((Forest.node n as [] (.text (c :: t) .nil) [] .nil).info.select [] n).head? = some ⟨n, attrVal as, (Forest.text (c :: t) .nil).info⟩ := by
      simp only [Info.select, Info.reach, List.flatMap_cons, List.flatMap_nil, List.append_nil, leak_node]
    rw [hsel] at this
    obtain ⟨r, hr, hi⟩ := this
    exact ⟨r, by rw [e]; exact hr, by rw [hi.str]; simp [Forest.info, Info.textValue, Info.allText]⟩
  · intro k hk
    have := C05_get_attribute env ho _ _ hs [] n k (by simpa using hp) hk (by simp)
    simp only [Info.reach, List.findSome?_cons, List.findSome?_nil, leak_node, Option.bind_some] at this
    rw [e]
    refine this.trans ?_
    cases attrVal as k <;> rfl

/-- C58: a processing instruction of more than 1 MiB ends there: elements written behind that point of it are found. -/
theorem C58_instruction (env : Env) (b : Bytes) (c : UInt8) (rest path : Bytes) (hb : c!">" ∉ b) (hl : b.length = 1048575) (hx : (b!"<?" ++ b ++ c :: rest).length ≤ 10485760) :
    get env (b!"<?" ++ b ++ c :: rest) path = get env rest path := by
  refine get_top ?_ (topElems_skip (skipToNext_longPi hb hl)) path
  have : maxDocumentSize = 10485760 := rfl
  simp only [List.length_append, List.length_cons] at hx ⊢
  omega

/-- C58: an attribute value of more than 1 MiB is empty, and what stands behind that point inside the value is read as further attributes. -/
theorem C58_value (env : Env) (pro n k v : Bytes) (q c : UInt8) (rest path : Bytes) (hpro : Prolog pro) (hn : TagName n) (hk : AttrName k) (hq : q = c!"\"" ∨ q = c!"'") (hv : q ∉ v)
    (hl : v.length = 1048577) :
    get env (pro ++ (b!"<" ++ n ++ b!" " ++ k ++ b!"=" ++ [q] ++ v ++ c :: rest)) path =
      get env (pro ++ (b!"<" ++ n ++ List.replicate 1048578 c!" " ++ k ++ b!"=" ++ [q, q] ++ rest)) path := by
  have e1 : pro ++ (b!"<" ++ n ++ b!" " ++ k ++ b!"=" ++ [q] ++ v ++ c :: rest) = pro ++ (c!"<" :: (n ++ (b!" " ++ k ++ b!"=" ++ q :: (v ++ c :: rest)))) := by simp
  have e2 : pro ++ (b!"<" ++ n ++ List.replicate 1048578 c!" " ++ k ++ b!"=" ++ [q, q] ++ rest) =
      pro ++ (c!"<" :: (n ++ ((b!" " ++ List.replicate 1048577 c!" ") ++ k ++ b!"=" ++ q :: q :: rest))) := by
    rw [show (1048578 : Nat) = 1048577 + 1 from rfl, List.replicate_succ]
    simp only [List.append_assoc, List.cons_append, List.nil_append]
  rw [e1, e2]
  refine get_top ?_ (topElems_long env.ord hpro hn hk hq hv hl) path
  simp only [List.length_append, List.length_cons, List.length_replicate, List.length_nil, hl]
  omega

private theorem injected_says (N : Nat) (h0 : 0 < N) (h1 : N ≤ 10485000) :
    Says (b!"<r" ++ List.replicate N c!" " ++ b!"k=\"\"x='1'>evil</r>\"/>")
      (Forest.node b!"r" [⟨List.replicate N c!" ", b!"k", [], [], c!"\"", []⟩, ⟨[], b!"x", [], [], c!"'", b!"1"⟩] [] (.text b!"evil" .nil) [] (.text b!"\"/>" .nil)).info := by
  have hw : ∀ c ∈ List.replicate N c!" ", IsWs c := by intro c hc; rw [(List.mem_replicate.mp hc).2]; simp [IsWs]
  have hr : TagName b!"r" := by simp [TagName, IsWs]; decide +kernel
  refine ⟨by simp only [List.length_append, List.length_replicate, List.length_cons, List.length_nil]; omega, .done _, ?_, ?_, ?_, rfl⟩
  · refine ⟨hr, ⟨by simp, ?_, ?_⟩, by simp, ⟨by simp, trivial⟩, ⟨by simp, by simp⟩, by simp, trivial⟩
    · intro a ha
      simp only [List.mem_cons, List.not_mem_nil, or_false] at ha
      rcases ha with rfl | rfl
      · exact ⟨hw, by simp [AttrName, IsWs], by simp, by simp, .inl rfl, by simp, by simp⟩
      · exact ⟨by simp, by simp [AttrName, IsWs], by simp, by simp, .inr rfl, by simp, by simp⟩
    · intro a ha
      simp only [List.head?_cons, Option.some.injEq] at ha
      subst ha
      simp; omega
  · refine ⟨?_, by simp, trivial, trivial⟩
    intro a ha
    simp only [List.mem_cons, List.not_mem_nil, or_false] at ha
    rcases ha with rfl | rfl
    · show (escapeXML (unescapeXML [])).length ≤ 1048576
      decide +kernel
    · show (escapeXML (unescapeXML b!"1")).length ≤ 1048576
      decide +kernel
  · simp [Draft.render, Forest.render, openTag, closeTag, Attr.render]

/-- C58: so text inside a value becomes an attribute and content, although the document is a single empty element. -/
theorem C58_injected (env : Env) (ho : env.ord.IsPerm) (v : Bytes) (hv : c!"\"" ∉ v) (hl : v.length = 1048577) :
    get env (b!"<r k=\"" ++ v ++ b!" x='1'>evil</r>\"/>") b!"r.@x" = .ret (.ofAttr b!"1") := by
  have hr : TagName b!"r" := by simp [TagName, IsWs]; decide +kernel
  have e := C58_value env [] b!"r" b!"k" v c!"\"" c!" " b!"x='1'>evil</r>\"/>" b!"r.@x" .nil hr (by simp [AttrName, IsWs]) (.inl rfl) hv hl
  have hs := injected_says 1048578 (by omega) (by omega)
  generalize 1048578 = N at e hs
  have h := C05_get_attribute env ho _ _ hs [] b!"r" b!"x" (plains_of (ns := [b!"r"]) (by decide)) (by simp) (by simp)
  simp only [List.append_assoc, List.cons_append, List.nil_append] at e h ⊢
  rw [e]
  have hp : pathOf [b!"r", b!"@x"] = b!"r.@x" := by decide
  rw [← hp, h]
  have : ((Forest.node b!"r" [⟨List.replicate N c!" ", b!"k", [], [], c!"\"", []⟩, ⟨[], b!"x", [], [], c!"'", b!"1"⟩] [] (.text b!"evil" .nil) [] (.text b!"\"/>" .nil)).info.reach []).findSome?
      (fun k => (k.named b!"r").head?.bind (·.attr b!"x")) = some b!"1" := by
    simp [Info.reach, Info.named, Forest.info, Info.elems, nameMatches, attrVal, unescapeXML]
  rw [this]

private def many : Bytes := ((List.range 100).flatMap fun i => b!" " ++ [97 + (i / 10).toUInt8, 97 + (i % 10).toUInt8] ++ b!"=\"\"")

/-- C58: a self-closing tag with 101 attributes is not recognised as such, and swallows what follows; also inside an element. -/
theorem C58_swallow : get exEnv (b!"<x" ++ many ++ b!" b=\"\"/><y>1</y>") b!"y" = .ret .null ∧
    get exEnv (b!"<r><x" ++ many ++ b!" b=\"\"/><y>1</y></r>") b!"r.y" = .ret .null ∧
    get exEnv (b!"<r><x" ++ many ++ b!" b=\"\"/><y>1</y></r>") b!"r.x.y" = .ret (.mk .element b!"1" b!"1" (.fin 0) []) ∧
    get exEnv (b!"<r><x" ++ many ++ b!"/><y>1</y></r>") b!"r.y" = .ret (.mk .element b!"1" b!"1" (.fin 0) []) := by decide +kernel

end Verif.Props
