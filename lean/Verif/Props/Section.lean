import Verif.Spec.Section
import Verif.Props.Set
import Verif.Lemmas.Order
/- C64: CDATA sections are not sections to the reader: tags inside are tags. -/
namespace Verif.Props
open Verif Verif.Spec

theorem forest_append_info (f g : Forest) : (f.append g).info = f.info.append g.info := by
  induction f with
  | nil => rfl
  | text b next ih => simp [Forest.append, Forest.info, Info.append, ih]
  | misc m next ih => simp [Forest.append, Forest.info, Info.append, ih]
  | leaf n as ws next ih => simp [Forest.append, Forest.info, Info.append, ih]
  | node n as ws kids cws next _ ih => simp [Forest.append, Forest.info, Info.append, ih]

/-- The bytes are those of a CDATA section. -/
theorem C64_render (a : Bytes) (g next : Forest) : (sectionOf a g next).render = b!"<![CDATA[" ++ (a ++ g.render) ++ b!"]]>" ++ next.render := by
  simp [sectionOf, Forest.render, Misc.render, append_render]

/-- C64: a CDATA section with properly nested tags in it, anywhere in a document of the class, leaves it in the class (so every theorem about queries
holds): what the document says there is the elements inside the section, and `]]>` is text. -/
theorem C64_class (a : Bytes) (g next : Forest) (ha : c!"<" ∉ a) (hs : g.Sharp) (top : Bool) (hg : g.Loose ∧ g.Tame top) (hn : next.Loose ∧ next.Tame top) :
    (sectionOf a g next).Loose ∧ (sectionOf a g next).Tame top ∧
    (sectionOf a g next).info = .misc (.mark (b!"[CDATA[" ++ a)) (g.info.append (.text b!"]]>" next.info)) := by
  refine ⟨⟨.inr ⟨by simpa using ha, ?_, ?_, .inr ?_⟩, hg.1.join ⟨by decide, hn.1⟩⟩, ⟨by cases top <;> trivial, hg.2.join hn.2⟩, ?_⟩
  · intro h
    have h := congrArg List.head? h
    simp at h
  · rintro ⟨t, ht⟩; simp at ht
  · cases g <;> first | exact hs.elim | trivial
  · simp [sectionOf, Forest.info, forest_append_info]

theorem section_elems (a : Bytes) (g next : Forest) : (sectionOf a g next).info.elems = g.info.elems ++ next.info.elems := by
  simp [sectionOf, Forest.info, forest_append_info, Info.elems, Info.elems_append]

theorem section_text (a : Bytes) (g next : Forest) (ha : c!"<" ∉ a) (hgt : c!">" ∉ a) :
    (sectionOf a g next).info.allText = g.info.allText ++ (b!"]]" ++ next.info.allText) := by
  have hl : (Misc.mark (b!"[CDATA[" ++ a)).leak = [] := by
    have h1 : c!"<" ∉ c!"!" :: (b!"[CDATA[" ++ a) := by simpa using ha
    have h2 : c!">" ∉ c!"!" :: (b!"[CDATA[" ++ a) := by simpa using hgt
    have e : (Misc.mark (b!"[CDATA[" ++ a)).render = c!"<" :: (c!"!" :: (b!"[CDATA[" ++ a)) := by simp [Misc.render]
    rw [Misc.leak, e, cutLt, if_pos rfl, cutLt_none h1]
    have h3 : ∀ w : Bytes, c!">" ∉ w → w.dropWhile (· ≠ c!">") = [] := by
      intro w hw
      induction w with
      | nil => rfl
      | cons x w ih =>
        simp only [List.mem_cons, not_or] at hw
        have hx : x ≠ c!">" := fun e => hw.1 e.symm
        rw [List.dropWhile_cons, if_pos (by simpa using hx), ih hw.2]
    have h3 := h3 _ h2
    simp only [List.flatMap_cons, List.flatMap_nil, h3]
    rfl
  simp only [sectionOf, Forest.info, forest_append_info, Info.allText, Info.allText_append, hl, List.nil_append]
  rfl

theorem reach_elems {i j : Info} (h : i.elems = j.elems) (n : Bytes) (ns : List Bytes) : i.reach (n :: ns) = j.reach (n :: ns) := by
  simp [Info.reach, Info.named, h]

theorem select_elems {i j : Info} (h : i.elems = j.elems) (pre : List Bytes) (n : Bytes) : i.select pre n = j.select pre n := by
  cases pre with
  | nil => simp [Info.select, Info.reach, Info.named, h]
  | cons m pre => simp only [Info.select, reach_elems h]

/-- C64: below an element with such a section, a path finds the first element that matches, be it inside the section or behind it. -/
theorem C64_found (env : Env) (ho : env.ord.IsPerm) (root : Bytes) (as : List Attr) (ws cws : Bytes) (a : Bytes) (g next : Forest) (ha : c!"<" ∉ a) (hs : g.Sharp)
    (hg : g.Loose ∧ g.Tame false) (hn : next.Loose ∧ next.Tame false) (hr : PlainName root) (hm : nameMatches root root = true)
    (hd : (Forest.node root as ws .nil cws .nil).Loose ∧ (Forest.node root as ws .nil cws .nil).Tame true)
    (hl : (Forest.node root as ws (sectionOf a g next) cws .nil).render.length ≤ 10485760)
    (pre : List Bytes) (n : Bytes) (hp : ∀ m ∈ pre ++ [n], PlainName m) (hc : pre.length < 99) :
    match ((g.info.append next.info).select pre n).head? with
    | none => get env (Forest.node root as ws (sectionOf a g next) cws .nil).render (pathOf (root :: pre ++ [n])) = .ret .null
    | some nd => ∃ r, get env (Forest.node root as ws (sectionOf a g next) cws .nil).render (pathOf (root :: pre ++ [n])) = .ret r ∧ IsElement r nd := by
  obtain ⟨c1, c2, -⟩ := C64_class a g next ha hs false hg hn
  have hsay : Says (Forest.node root as ws (sectionOf a g next) cws .nil).render (Forest.node root as ws (sectionOf a g next) cws .nil).info := by
    refine ⟨hl, .done _, ?_, ?_, rfl, rfl⟩
    · obtain ⟨h1, h2, h3, -, h5, -⟩ := hd.1
      exact ⟨h1, h2, h3, c1, h5, trivial⟩
    · obtain ⟨h1, h2, -, -⟩ := hd.2
      exact ⟨h1, h2, c2, trivial⟩
  have h := C04_get_element env ho _ _ hsay (root :: pre) n (fun m hm => by
    rcases List.mem_cons.mp hm with rfl | hm
    · exact hr
    · exact hp m hm) (by simp only [List.length_cons]; omega)
  have e : (Forest.node root as ws (sectionOf a g next) cws .nil).info.select (root :: pre) n = (g.info.append next.info).select pre n := by
    have he : (sectionOf a g next).info.elems = (g.info.append next.info).elems := by rw [section_elems, Info.elems_append]
    rw [← select_elems he]
    simp [Info.select, Info.reach, Info.named, Forest.info, Info.elems, hm]
  rw [e] at h
  exact h

/-- C64: the text of the element is the text of the elements inside the section, what is behind them in the section with its closing `]]`, and what follows;
the text in the section before its first tag is lost. -/
theorem C64_text (env : Env) (ho : env.ord.IsPerm) (root : Bytes) (as : List Attr) (ws cws : Bytes) (a : Bytes) (g next : Forest) (ha : c!"<" ∉ a) (hgt : c!">" ∉ a)
    (hs : g.Sharp) (hg : g.Loose ∧ g.Tame false) (hn : next.Loose ∧ next.Tame false) (hr : PlainName root) (hm : nameMatches root root = true)
    (hd : (Forest.node root as ws .nil cws .nil).Loose ∧ (Forest.node root as ws .nil cws .nil).Tame true)
    (hl : (Forest.node root as ws (sectionOf a g next) cws .nil).render.length ≤ 10485760) :
    ∃ r, get env (Forest.node root as ws (sectionOf a g next) cws .nil).render (pathOf [root]) = .ret r ∧ r.typ = .element ∧
      r.toStr = unescapeXML (trimSpace (g.info.allText ++ (b!"]]" ++ next.info.allText))) := by
  obtain ⟨c1, c2, -⟩ := C64_class a g next ha hs false hg hn
  have hsay : Says (Forest.node root as ws (sectionOf a g next) cws .nil).render (Forest.node root as ws (sectionOf a g next) cws .nil).info := by
    refine ⟨hl, .done _, ?_, ?_, rfl, rfl⟩
    · obtain ⟨h1, h2, h3, -, h5, -⟩ := hd.1
      exact ⟨h1, h2, h3, c1, h5, trivial⟩
    · obtain ⟨h1, h2, -, -⟩ := hd.2
      exact ⟨h1, h2, c2, trivial⟩
  have h := C04_get_element env ho _ _ hsay [] root (by simpa using hr) (by simp)
  have e : ((Forest.node root as ws (sectionOf a g next) cws .nil).info.select [] root).head? = some ⟨root, attrVal as, (sectionOf a g next).info⟩ := by
    simp [Info.select, Info.reach, Info.named, Forest.info, Info.elems, hm]
  rw [e] at h
  obtain ⟨r, h1, h2⟩ := h
  exact ⟨r, h1, h2.typ, by rw [h2.str]; simp only [Info.textValue, section_text a g next ha hgt]⟩

/-- The section of the example: `<![CDATA[a <b>1</b> c]]><b>2</b>`. -/
def exSection : Forest := sectionOf b!"a " (.node b!"b" [] [] (.text b!"1" .nil) [] (.text b!" c" .nil)) (.node b!"b" [] [] (.text b!"2" .nil) [] .nil)
theorem exSection_doc : (Forest.node b!"r" [] [] exSection [] .nil).render = b!"<r><![CDATA[a <b>1</b> c]]><b>2</b></r>" := by decide +kernel
theorem exSection_says : Says (Forest.node b!"r" [] [] exSection [] .nil).render (Forest.node b!"r" [] [] exSection [] .nil).info :=
  says_draft (.done (Forest.node b!"r" [] [] exSection [] .nil)) (by decide +kernel)

/-- Both theorems apply to it. -/
example : ∃ r, get exEnv b!"<r><![CDATA[a <b>1</b> c]]><b>2</b></r>" b!"r.b" = .ret r ∧ r.toStr = b!"1" := by
  have h := C64_found exEnv exEnv_perm b!"r" [] [] [] b!"a " (.node b!"b" [] [] (.text b!"1" .nil) [] (.text b!" c" .nil)) (.node b!"b" [] [] (.text b!"2" .nil) [] .nil)
    (by decide) trivial ⟨by decide +kernel, Forest.Tidy.tame (by decide +kernel)⟩ ⟨by decide +kernel, Forest.Tidy.tame (by decide +kernel)⟩ (plain_of (by decide)) (by decide)
    ⟨by decide +kernel, Forest.Tidy.tame (by decide +kernel)⟩ (by decide +kernel) [] b!"b" (plains_of (by decide)) (by decide)
  obtain ⟨r, h1, h2⟩ := h
  exact ⟨r, h1, by rw [h2.str]; decide +kernel⟩
example : ∃ r, get exEnv b!"<r><![CDATA[a <b>1</b> c]]><b>2</b></r>" b!"r" = .ret r ∧ r.toStr = b!"1 c]]2" := by
  obtain ⟨r, h1, -, h2⟩ := C64_text exEnv exEnv_perm b!"r" [] [] [] b!"a " (.node b!"b" [] [] (.text b!"1" .nil) [] (.text b!" c" .nil)) (.node b!"b" [] [] (.text b!"2" .nil) [] .nil)
    (by decide) (by decide) trivial ⟨by decide +kernel, Forest.Tidy.tame (by decide +kernel)⟩ ⟨by decide +kernel, Forest.Tidy.tame (by decide +kernel)⟩ (plain_of (by decide)) (by decide)
    ⟨by decide +kernel, Forest.Tidy.tame (by decide +kernel)⟩ (by decide +kernel)
  exact ⟨r, h1, by rw [h2]; decide +kernel⟩

/-- Comments with `--` inside are of the class as well, at the top and inside elements. -/
def exDashes : Forest := .misc (.comment b!" a -- b ") (.node b!"r" [] [] (.misc (.comment b!" c -- d ") (.node b!"b" [] [] (.text b!"1" .nil) [] .nil)) [] .nil)
theorem exDashes_doc : exDashes.render = b!"<!-- a -- b --><r><!-- c -- d --><b>1</b></r>" := by decide +kernel
theorem exDashes_says : Says exDashes.render exDashes.info := says_draft (.done exDashes) (by decide +kernel)
example : ∃ r, get exEnv b!"<!-- a -- b --><r><!-- c -- d --><b>1</b></r>" b!"r.b" = .ret r ∧ r.toStr = b!"1" := by
  obtain ⟨r, h1, h2⟩ := C04_get_element exEnv exEnv_perm _ _ exDashes_says [b!"r"] b!"b" (plains_of (by decide)) (by decide)
  exact ⟨r, h1, by rw [h2.str]; decide +kernel⟩

/-- C64: with tags in the section that are not properly nested, elements outside the section are lost or found elsewhere, though the document is valid; and Set writes into
the section. -/
theorem C64_witness :
    valid b!"<r><![CDATA[a < b]]><b>2</b></r>" = true ∧ get exEnv b!"<r><![CDATA[a < b]]><b>2</b></r>" b!"r.b" = .ret .null ∧
    valid b!"<r><![CDATA[<br>]]><a>1</a></r>" = true ∧ get exEnv b!"<r><![CDATA[<br>]]><a>1</a></r>" b!"r.a" = .ret .null ∧
    get exEnv b!"<r><![CDATA[<br>]]><a>1</a></r>" b!"r.br.a" = .ret (.ofContent b!"1") ∧
    valid b!"<r><![CDATA[</r>]]><a>1</a></r>" = true ∧ get exEnv b!"<r><![CDATA[</r>]]><a>1</a></r>" b!"r.a" = .ret .null ∧
    set exEnv.ord b!"<r><![CDATA[a <b>1</b> c]]><b>2</b></r>" b!"r.b" (.str b!"x") = .ret (b!"<r><![CDATA[a <b>x</b> c]]><b>2</b></r>", none) := by decide +kernel

end Verif.Props
