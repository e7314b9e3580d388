import Verif.Lemmas.ShapeDoc
import Verif.Props.Value
import Verif.Props.Valid
import Verif.Props.Order
/- C54: what answers are made of. -/
namespace Verif.Props
open Spec

/-- Every answer is made of pieces with this relation between Raw and String() of elements. -/
theorem item_atoms {P : Bytes → Prop} {C : Bytes → Bytes → Prop} (h : ∀ c, P c → C c (unescapeXML (extractTextContent c))) : Atoms P (ResultItem C) where
  elem hc := ⟨.inl rfl, fun _ => by simpa [Result.ofContent, Result.toStr, Result.raw] using h _ hc, by simp [Result.ofContent, Result.typ], by simp [Result.ofContent, Result.typ], fun _ => rfl, rfl⟩
  attr v := ⟨.inr (.inl rfl), by simp [Result.ofAttr, Result.typ], fun _ => by simp [Result.ofAttr, Result.toStr, Result.raw], by simp [Result.ofAttr, Result.typ], fun _ => rfl, rfl⟩
  text _ := ⟨.inr (.inr (.inl rfl)), by simp [Result.ofText, Result.typ], by simp [Result.ofText, Result.typ], by simp [Result.ofText, Result.typ], fun _ => rfl, rfl⟩
  own _ := ⟨.inr (.inr (.inl rfl)), by simp [Result.typ], by simp [Result.typ], by simp [Result.typ], fun _ => rfl, rfl⟩
  count n := ⟨.inr (.inr (.inr rfl)), by simp [Result.ofCount, Result.typ], by simp [Result.ofCount, Result.typ],
    fun _ => ⟨rfl, n, rfl, by simpa [Result.ofCount, Result.toStr] using natDec_decimal n⟩, by simp [Result.ofCount, Result.typ], rfl⟩
  single h := by
    rcases h.typ with h | h | h | h <;> simp [Single, h]


theorem item_not_array {C : Bytes → Bytes → Prop} (r : Result) (h : ResultItem C r) : r.typ ≠ .array := by
  rcases h.typ with h | h | h | h <;> simp [h]

/-- A modifier that keeps answers flat and their elements related to their Raw. -/
def Keeping (C : Bytes → Bytes → Prop) (m : Result → Result) : Prop := ∀ r, Flat (ResultItem C) r → Flat (ResultItem C) (m r)

/-- The path names no modifier, or all registered modifiers keep the shape of answers. -/
def Keeping.On (C : Bytes → Bytes → Prop) (mods : Bytes → Option (Result → Result)) (path : Bytes) : Prop := c!"|" ∉ path ∨ ∀ n m, mods n = some m → Keeping C m

/-- C54: whatever the document - well-formed or not - and whatever the path, the answer of Get is nothing, one thing, or a flat Array of things; the String() of every
element in it is the text in its Raw, that of an attribute is its Raw, and that of a count is its decimal numeral. -/
theorem C54_get (env : Env) (xml path : Bytes) (hm : Keeping.On Text env.mods path) (r : Result) (hr : get env xml path = .ret r) : Flat (ResultItem Text) r := by
  have : Atoms (fun _ => True) (ResultItem Text) := item_atoms fun c _ => text_content c
  refine get_shape (P := fun _ => True) (D := fun _ => True) ⟨fun _ _ _ _ => trivial, fun _ _ => trivial⟩ (fun _ => trivial) path (fun ss hs => ?_) hr
  rcases hm with hm | hm
  · exact keeps_none (parsePath_nobar hm hs)
  · exact keeps_all hm ss

/-- C54: the same with any options. -/
theorem C54_get_options (env : Env) (xml path : Bytes) (opts : Option Options) (hm : Keeping.On Text env.mods path) (r : Result)
    (hr : getWithOptions env xml path opts = .ret r) : Flat (ResultItem Text) r := by
  have : Atoms (fun _ => True) (ResultItem Text) := item_atoms fun c _ => text_content c
  refine getWithOptions_shape (P := fun _ => True) (D := fun _ => True) ⟨fun _ _ _ _ => trivial, fun _ _ => trivial⟩ (fun _ => trivial) path opts (fun ss hs => ?_) hr
  rcases hm with hm | hm
  · rcases hs with hs | hs
    · exact keeps_none (parsePath_nobar hm hs)
    · exact keeps_none (parsePathWithOptions_nobar hm hs)
  · exact keeps_all hm ss

/-- C54: on documents the validator accepts, the Raw of every element in the answer is well-formed content, and its String() is the text of that content. -/
theorem C54_well_formed (env : Env) (ho : env.ord.IsPerm) (f : Forest) (hl : f.Legal 0) (ht : f.Tame true) (path : Bytes) (hm : Keeping.On Content env.mods path)
    (r : Result) (hr : get env f.render path = .ret r) : Flat (ResultItem Content) r := by
  have : Atoms CanonContent (ResultItem Content) := item_atoms fun c hc => canonContent_content hc
  refine get_shape (closed_legal ho) (fun _ => ⟨f, 0, true, hl, ht, rfl⟩) path (fun ss hs => ?_) hr
  rcases hm with hm | hm
  · exact keeps_none (parsePath_nobar hm hs)
  · exact keeps_all hm ss

/-- C54: the same with any options. -/
theorem C54_well_formed_options (env : Env) (ho : env.ord.IsPerm) (f : Forest) (hl : f.Legal 0) (ht : f.Tame true) (path : Bytes) (opts : Option Options)
    (hm : Keeping.On Content env.mods path) (r : Result) (hr : getWithOptions env f.render path opts = .ret r) : Flat (ResultItem Content) r := by
  have : Atoms CanonContent (ResultItem Content) := item_atoms fun c hc => canonContent_content hc
  refine getWithOptions_shape (closed_legal ho) (fun _ => ⟨f, 0, true, hl, ht, rfl⟩) path opts (fun ss hs => ?_) hr
  rcases hm with hm | hm
  · rcases hs with hs | hs
    · exact keeps_none (parsePath_nobar hm hs)
    · exact keeps_none (parsePathWithOptions_nobar hm hs)
  · exact keeps_all hm ss

/-- C54: so an element of an answer, put between tags, is a document the validator accepts. -/
theorem C54_valid (env : Env) (ho : env.ord.IsPerm) (f : Forest) (hl : f.Legal 0) (ht : f.Tame true) (path : Bytes) (hm : Keeping.On Content env.mods path)
    (r : Result) (hr : get env f.render path = .ret r) (e : Result) (he : e ∈ r.array) (hte : e.typ = .element) (n : Bytes) (hn : IsName n)
    (hlen : (b!"<" ++ n ++ b!">" ++ e.raw ++ b!"</" ++ n ++ b!">").length ≤ 10485760) :
    valid (b!"<" ++ n ++ b!">" ++ e.raw ++ b!"</" ++ n ++ b!">") = true := by
  have hitem : ResultItem Content e := by
    rcases C54_well_formed env ho f hl ht path hm r hr with ⟨h, -⟩ | h | ⟨h, -, h2⟩
    · simp [Result.array, h] at he
    · have h3 := item_not_array r h
      have h4 : r.typ ≠ .null := by rcases h.typ with h | h | h | h <;> simp [h]
      simp only [Result.array, if_neg h3, if_neg h4, List.mem_singleton] at he
      rw [he]; exact h
    · simp only [Result.array, if_pos h] at he; exact h2 e he
  obtain ⟨g, hg, hr, -⟩ := hitem.elem hte
  rw [C02_valid_iff_document]
  refine ⟨hlen, .node n [] [] g [] .nil, ⟨hn, ⟨by simp, by simp, by simp⟩, by simp, by omega, hg, by simp, trivial⟩, trivial, ?_⟩
  simp [Forest.render, openTag, closeTag, hr]

/-- C54: the built-in list modifiers keep the shape of answers. -/
theorem C54_modifiers (C : Bytes → Bytes → Prop) (srt : Sorter) (hs : SortContract srt) (pf : Bytes → Option FVal) :
    Keeping C reverseMod ∧ Keeping C (sortMod srt pf) ∧ Keeping C firstMod ∧ Keeping C lastMod ∧ Keeping C flattenMod :=
  ⟨fun _ => keeps_reverse item_not_array, fun _ => keeps_sort item_not_array srt hs pf, fun _ => keeps_first item_not_array, fun _ => keeps_last item_not_array,
    fun _ => keeps_flatten item_not_array⟩

/-! ### concrete cases -/

/-- `<r><x k='"'>t<y/></x><x>u<!-- c --></x></r>` -/
def shapeDoc : Forest :=
  .node b!"r" [] [] (.node b!"x" [⟨b!" ", b!"k", [], [], c!"'", b!"\""⟩] [] (.text b!"t" (.leaf b!"y" [] [] .nil)) []
    (.node b!"x" [] [] (.text b!"u" (.misc (.comment b!" c ") .nil)) [] .nil)) [] .nil

theorem shapeDoc_ok : shapeDoc.Legal 0 ∧ shapeDoc.Tame true := ⟨by decide +kernel, Forest.Tidy.tame (by decide +kernel)⟩

/-- An Array of two elements, well-formed content each. -/
theorem C54_witness : get exEnv shapeDoc.render b!"r.*" = .ret (.ofArray [.ofContent b!"t<y/>", .ofContent b!"u<!-- c -->"]) ∧
    get exEnv shapeDoc.render b!"r" = .ret (.ofContent b!"<x k=\"&quot;\">t<y/></x><x>u<!-- c --></x>") := by decide +kernel

/-- Each is a document when put between tags. -/
example : valid (b!"<" ++ b!"n" ++ b!">" ++ b!"u<!-- c -->" ++ b!"</" ++ b!"n" ++ b!">") = true :=
  C54_valid exEnv exEnv_perm shapeDoc shapeDoc_ok.1 shapeDoc_ok.2 b!"r.*" (.inl (by decide)) _ C54_witness.1 (.ofContent b!"u<!-- c -->")
    (by simp [Result.array, Result.ofArray, Result.typ, Result.results]) rfl b!"n" (by decide +kernel) (by decide +kernel)

/-- On a document that is not well-formed, Raw need not be: here it is a lone closing tag. It still has its text. -/
theorem C54_malformed : get exEnv b!"<r>a</x>b</r>" b!"r" = .ret (.ofContent b!"a</x>b") ∧ valid b!"<n>a</x>b</n>" = false ∧ (Result.ofContent b!"a</x>b").toStr = b!"ab" := by
  decide +kernel

/-- @ugly is not among these modifiers: it takes white space out of Raw, which stays in String(). -/
theorem C54_ugly : ¬ Keeping Text uglyMod := by
  intro h
  have h1 : Flat (ResultItem Text) (.ofContent b!"<b>x</b> <b>y</b>") := C54_get exEnv b!"<r><b>x</b> <b>y</b></r>" b!"r" (.inl (by decide)) _ (by decide +kernel)
  have h2 := h _ h1
  have e : uglyMod (.ofContent b!"<b>x</b> <b>y</b>") = .mk .element b!"<b>x</b><b>y</b>" b!"x y" (.fin 0) [] := by decide +kernel
  rw [e] at h2
  rcases h2 with ⟨h, -⟩ | h | ⟨h, -⟩
  · simp [Result.typ] at h
  · obtain ⟨t, ht, hs⟩ := h.elem rfl
    have : t = b!"xy" := by
      have key : ∀ {raw t}, TextOf raw t → stripTags false raw = t := by
        intro raw t h
        induction h with
        | nil => rfl
        | byte h1 h2 _ ih => simp [stripTags, h1, h2, ih]
        | gt _ ih => simpa [stripTags] using ih
        | @tag w r t hw _ ih =>
          have := stripTags_markup hw r
          simp only [List.append_assoc, List.cons_append, List.nil_append]
          rw [← ih]; exact this
        | @«open» w hw => simp only [List.cons_append, List.nil_append]; rw [stripTags, if_pos rfl, stripTags_open hw]
      rw [← key ht]; decide +kernel
    rw [this] at hs
    revert hs; decide +kernel
  · simp [Result.typ] at h

end Verif.Props
