import Verif.Props.Order
import Verif.Props.Ask
/- C53: queries read documents the validator rejects. -/
namespace Verif.Props
open Spec

/-- Nothing behind the names in closing tags. -/
def tidyF : Forest → Forest
  | .nil => .nil
  | .text b next => .text b (tidyF next)
  | .misc m next => .misc m (tidyF next)
  | .leaf n as ws next => .leaf n as ws (tidyF next)
  | .node n as ws kids _ next => .node n as ws (tidyF kids) [] (tidyF next)

theorem tidyF_info (f : Forest) : (tidyF f).info = f.info := by
  induction f with
  | nil => rfl
  | text b next ih => simp [tidyF, Forest.info, ih]
  | misc m next ih => simp [tidyF, Forest.info, ih]
  | leaf n as ws next ih => simp [tidyF, Forest.info, ih]
  | node n as ws kids cws next ihk ih => simp [tidyF, Forest.info, ihk, ih]

theorem tidyF_loose {f : Forest} (h : f.Loose) : (tidyF f).Loose := by
  induction f with
  | nil => trivial
  | text b next ih => exact ⟨h.1, ih h.2⟩
  | misc m next ih => exact ⟨h.1.imp_right (·.mono (fun hs => by cases next <;> first | exact hs.elim | trivial)), ih h.2⟩
  | leaf n as ws next ih => exact ⟨h.1, h.2.1, h.2.2.1, ih h.2.2.2⟩
  | node n as ws kids cws next ihk ih =>
    obtain ⟨h1, h2, h3, h4, -, h6⟩ := h
    exact ⟨h1, h2, h3, ihk h4, ⟨by simp, by simp⟩, ih h6⟩

theorem tidyF_tame {top : Bool} {f : Forest} (h : f.Tame top) : (tidyF f).Tame top := by
  induction f generalizing top with
  | nil => trivial
  | text b next ih => exact ih h
  | misc m next ih => exact ⟨h.1, ih h.2⟩
  | leaf n as ws next ih => exact ⟨h.1, ih h.2⟩
  | node n as ws kids cws next ihk ih =>
    obtain ⟨h1, h2, h3, h4⟩ := h
    exact ⟨h1, by simp only [List.length_nil]; omega, ihk h3, ih h4⟩

/-- The document with the missing closing tags added and nothing behind the names in closing tags. -/
def repaired (g : Draft) : Forest := tidyF g.close

theorem repaired_says {g : Draft} (hl : g.Loose) (ht : g.Tame true) (hlen : (repaired g).render.length ≤ 10485760) : Says (repaired g).render g.info :=
  ⟨hlen, .done (repaired g), tidyF_loose (Draft.close_loose hl), tidyF_tame (Draft.close_tame hl ht), rfl, tidyF_info g.close⟩

/-- C53: a document that ends inside elements, or has junk behind the names in its closing tags, is answered as the repaired document is: every path gets the
same answer, up to `Raw`. -/
theorem C53_repaired (o1 o2 : Ord) (p1 : o1.IsPerm) (p2 : o2.IsPerm) (mods : Bytes → Option (Result → Result)) (hm : ∀ n m, mods n = some m → RawBlind m)
    (pf : Bytes → Option FVal) (g : Draft) (hl : g.Loose) (ht : g.Tame true) (h1 : g.render.length ≤ 10485760) (h2 : (repaired g).render.length ≤ 10485760) (path : Bytes) :
    SameOutcome (get ⟨o1, mods, pf⟩ g.render path) (get ⟨o2, mods, pf⟩ (repaired g).render path) :=
  C47_get o1 o2 p1 p2 mods hm pf _ _ g.info ⟨h1, g, hl, ht, rfl, rfl⟩ (repaired_says hl ht h2) path

/-- C53 with options. -/
theorem C53_repaired_options (o1 o2 : Ord) (p1 : o1.IsPerm) (p2 : o2.IsPerm) (mods : Bytes → Option (Result → Result)) (hm : ∀ n m, mods n = some m → RawBlind m)
    (pf : Bytes → Option FVal) (g : Draft) (hl : g.Loose) (ht : g.Tame true) (h1 : g.render.length ≤ 10485760) (h2 : (repaired g).render.length ≤ 10485760) (path : Bytes)
    (opts : Option Options) (hu : (opts.getD defaultOptions).caseSensitive = false → g.info.CaseUnique) :
    SameOutcome (getWithOptions ⟨o1, mods, pf⟩ g.render path opts) (getWithOptions ⟨o2, mods, pf⟩ (repaired g).render path opts) :=
  C47_getWithOptions o1 o2 p1 p2 mods hm pf _ _ g.info ⟨h1, g, hl, ht, rfl, rfl⟩ (repaired_says hl ht h2) path opts hu

/-- C53: an element that is still open when the document ends is found like a closed one; its text is all that follows. -/
theorem C53_open_element (env : Env) (ho : env.ord.IsPerm) (f : Forest) (n : Bytes) (as : List Attr) (ws : Bytes) (rest : Draft)
    (hl : (Draft.more f n as ws rest).Loose) (ht : (Draft.more f n as ws rest).Tame true) (h1 : (Draft.more f n as ws rest).render.length ≤ 10485760)
    (hp : PlainName n) (hf : ∀ e ∈ f.info.elems, nameMatches n e.name = false) (hn : nameMatches n n = true) :
    ∃ r, get env (Draft.more f n as ws rest).render (pathOf [n]) = .ret r ∧ r.typ = .element ∧ r.toStr = rest.info.textValue := by
  have hs : Says (Draft.more f n as ws rest).render (Draft.more f n as ws rest).info := ⟨h1, _, hl, ht, rfl, rfl⟩
  have := C04_get_element env ho _ _ hs [] n (by simpa using hp) (by simp)
  have e : ((Draft.more f n as ws rest).info.select [] n).head? = some ⟨n, attrVal as, rest.info⟩ := by
    have hnil : f.info.elems.filter (fun e => nameMatches n e.name) = [] := by simpa [List.filter_eq_nil_iff] using hf
    simp [Info.select, Info.reach, Info.named, Draft.info_more, Info.elems_append, Info.elems, hnil, hn]
  rw [e] at this
  obtain ⟨r, h2, h3⟩ := this
  exact ⟨r, h2, h3.typ, h3.str⟩

/-! ### a document with all these faults -/

/-- Text outside the root, a name the validator does not accept, junk in a closing tag, and an end inside two elements. -/
def badDoc : Draft :=
  .more (.text b!"text" .nil) b!"größe" [⟨b!" ", b!"1k", [], [], c!"'", b!"v"⟩] []
    (.more (.node b!"b" [] [] (.text b!"x" .nil) b!" junk=" .nil) b!"c" [⟨b!" ", b!"k", [], [], c!"'", b!"2"⟩] [] (.done (.text b!"y" .nil)))

theorem badDoc_render : badDoc.render = b!"text<größe 1k='v'><b>x</b junk=><c k='2'>y" := by decide +kernel
theorem badDoc_repaired : (repaired badDoc).render = b!"text<größe 1k='v'><b>x</b><c k='2'>y</c></größe>" := by decide +kernel
theorem badDoc_ok : badDoc.Loose ∧ badDoc.Tame true := ⟨by decide +kernel, Draft.Tidy.tame (by decide +kernel)⟩
theorem badDoc_says : Says badDoc.render badDoc.info := says_draft _ (by decide +kernel)

/-- C53: the validator rejects it, and the repaired document too (text outside the root; the name); Get finds what is in it. -/
theorem C53_witness : valid badDoc.render = false ∧ valid (repaired badDoc).render = false ∧
    get exEnv badDoc.render b!"größe.b" = .ret (.ofContent b!"x") ∧ get exEnv badDoc.render b!"größe.c" = .ret (.ofContent b!"y") ∧
    get exEnv badDoc.render b!"größe.c.@k" = .ret (.ofAttr b!"2") ∧ get exEnv badDoc.render b!"größe.@1k" = .ret (.ofAttr b!"v") := by decide +kernel

/-- The theorem applies to it, with any path. -/
example (path : Bytes) : SameOutcome (get ⟨fun _ a => a, exMods, fun _ => none⟩ badDoc.render path) (get ⟨revOrd, exMods, fun _ => none⟩ (repaired badDoc).render path) :=
  C53_repaired _ _ exEnv_perm revOrd_perm exMods exMods_blind _ badDoc badDoc_ok.1 badDoc_ok.2 (by decide +kernel) (by decide +kernel) path

/-- So do the theorems about what a path means, for instance C51. -/
example : ∃ r, get exEnv badDoc.render b!"größe.c" = .ret r ∧ r.toStr = b!"y" := by
  obtain ⟨r, h1, h2⟩ := C51_get exEnv exEnv_perm _ _ badDoc_says (dp := false) (ps := [b!"größe", b!"c"]) (gs := []) (ms := [.name b!"größe", .name b!"c"]) (g := .elem)
    (.cons (.name (plain_of (by decide))) (.cons (.name (plain_of (by decide))) .nil)) .elem (by simp [Proper, Move.Free]) (by simp) (by simp) (by simp) (by simp)
  have e : ask [.name b!"größe", .name b!"c"] .elem true badDoc.info = .one (.elem ⟨b!"c", attrVal [⟨b!" ", b!"k", [], [], c!"'", b!"2"⟩], .text b!"y" .nil⟩) := rfl
  rw [e] at h2
  have h3 : IsElement r _ := h2
  exact ⟨r, h1, by rw [h3.str]; decide +kernel⟩

/-- C53: the closing tag of an element inside a closed one may be missing, unless both have the same name: then the
outer one swallows what follows. -/
theorem C53_missing_inside : get exEnv b!"<r><a><b>x</a><c>y</c></r>" b!"r.a" = .ret (.ofContent b!"<b>x") ∧
    get exEnv b!"<r><a><b>x</a><c>y</c></r>" b!"r.a.b" = .ret (.ofContent b!"x") ∧
    get exEnv b!"<r><a><a>x</a><c>y</c></r>" b!"r.c" = .ret .null ∧
    get exEnv b!"<r><a><a>x</a><c>y</c></r>" b!"r.a.c" = .ret (.ofContent b!"y") := by decide +kernel

end Verif.Props
