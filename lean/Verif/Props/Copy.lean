import Verif.Lemmas.Copy
import Verif.Props.Shape
import Verif.Props.Raw
import Verif.Props.Chain
namespace Verif.Props
open Spec

/-! ## C67 Copying an element -/

/-- The Raw of an element found in a valid document is content that can be written anywhere, and the element is what that content says. -/
theorem raw_content (env : Env) (ho : env.ord.IsPerm) (f : Forest) (hl : f.Legal 0) (ht : f.Tame true) (hne : f.NoEntity) (path : Bytes) (hp : c!"|" ∉ path)
    (r : Result) (hr : get env f.render path = .ret r) (a : Result) (ha : a ∈ r.array) (hta : a.typ = .element) :
    ∃ g : Forest, g.Neat ∧ g.Legal 1 ∧ g.Tame false ∧ g.NoEntity ∧ g.levels < f.levels ∧ g.render = a.raw ∧ ∀ n as, IsElement a ⟨n, as, g.info⟩ := by
  let C : Bytes → Bytes → Prop := fun c s => CopyContent f.levels c ∧ s = unescapeXML (extractTextContent c)
  have : Atoms (CopyContent f.levels) (ResultItem C) := item_atoms fun c hc => ⟨hc, rfl⟩
  have hflat : Flat (ResultItem C) r := get_shape (closed_copy ho f.levels) (fun _ => ⟨f, 0, true, hl, ht, hne, Nat.le_refl _, rfl⟩) path
    (fun ss hs => keeps_none (parsePath_nobar hp hs)) hr
  have hitem : ResultItem C a := by
    rcases hflat with ⟨h, -⟩ | h | ⟨h, -, h2⟩
    · simp [Result.array, h] at ha
    · have h3 := item_not_array r h
      have h4 : r.typ ≠ .null := by rcases h.typ with h | h | h | h <;> simp [h]
      simp only [Result.array, if_neg h3, if_neg h4, List.mem_singleton] at ha
      rw [ha]; exact h
    · simp only [Result.array, if_pos h] at ha; exact h2 a ha
  obtain ⟨⟨g, h1, h2, h3, h4, h5, h6⟩, hs⟩ := hitem.elem hta
  refine ⟨g, neatF_canon.mpr h1, h2, h3, h4, h5, h6, fun n as => ⟨hta, ?_, ⟨.done g, h2.loose, h3, canonF_plain.mp h1, h6, rfl⟩, hitem.results⟩⟩
  obtain ⟨g', -, e1, e2⟩ := canonContent_content ⟨g, h1, h2, h3, rfl⟩
  have := stripTags_canon h1 (Forest.Legal.loose h2) h3 []
  simp only [List.append_nil, stripTags] at this
  rw [hs, ← h6, extractTextContent, this]; rfl

/-- C67: the Raw of any element that any path finds in a valid document can be written with SetRaw as the content of any element of another document (or of the same), and
Get with that path then finds an element that says the same. -/
theorem C67_copy (env : Env) (ho : env.ord.IsPerm) (f : Forest) (hl : f.Legal 0) (ht : f.Tame true) (hne : f.NoEntity) (path : Bytes) (hp : c!"|" ∉ path)
    (r : Result) (hr : get env f.render path = .ret r) (a : Result) (ha : a ∈ r.array) (hta : a.typ = .element) (hraw : a.raw.length ≤ 5242880)
    (n : Bytes) (hn : PlainName n) (ps : List Step) (parts : List Bytes) (hps : StepsText ps parts) (hj : ∀ p ∈ ps, p.2 < 1000) (hpl : parts.length < 100)
    (c : Ctx) (e : El) (hL : Leads ((n, 0) :: ps) c e.name) (h : Editable (c.plug (e.cons .nil))) (hb : e.body ≠ none) (hd : c.depth + f.levels ≤ 100) :
    ∃ y, setRaw env.ord (c.plug (e.cons .nil)).render (pathOf (n :: parts)) a.raw = .ret (y, none) ∧ y = c.before ++ e.start ++ a.raw ++ e.stop ++ c.after ∧
      (y.length ≤ 10485760 → valid y = true ∧
        ∃ r' nd, get env y (pathOf (n :: parts)) = .ret r' ∧ IsElement r' nd ∧ IsElement a nd ∧ r'.toStr = a.toStr) := by
  obtain ⟨g, h1, h2, h3, h4, h5, h6, h7⟩ := raw_content env ho f hl ht hne path hp r hr a ha hta
  have hg : g.Legal (c.depth + 1) := legal_deeper h2 (by omega) (by omega) (by omega)
  obtain ⟨s1, s2⟩ := C44_set env.ord ho _ _ (.name hn hps) (by simp; omega) c e hL h hb g hg h3 h1 h4 (by rw [h6]; exact hraw)
  rw [h6] at s1
  refine ⟨_, s1, ?_, fun hy => ?_⟩
  · have hgood := editable_el h
    rw [plug_el_render]
    obtain ⟨nm, as, ws, body⟩ := e
    rcases body with _ | ⟨k0, cws⟩
    · exact absurd rfl hb
    · have : cws = [] := hgood.stable.1
      subst this
      simp [El.refill, El.start, El.inner, El.stop, h6]
  · obtain ⟨t1, t2, t3⟩ := s2 hy
    obtain ⟨ms, m1, m2, m3⟩ := ask_steps_top (pf := env.parseFloat) hn hps hj
    obtain ⟨r', g1, g2⟩ := C51_get env ho _ _ (editable_says t1) m1 .elem m2 (by simp) (by simp; omega) (by simp) (by simp)
    rw [m3 _ _ t3] at g2
    rw [List.append_nil] at g1
    exact ⟨t2, r', _, g1, g2, h7 _ _, by rw [g2.str, (h7 [] (fun _ => none)).str]⟩

/-- C67: the same where the target is missing: the elements on the way to it are created, and the last of them is the copy. -/
theorem C67_created (env : Env) (ho : env.ord.IsPerm) (f : Forest) (hl : f.Legal 0) (ht : f.Tame true) (hne : f.NoEntity) (path : Bytes) (hp : c!"|" ∉ path)
    (r : Result) (hr : get env f.render path = .ret r) (a : Result) (ha : a ∈ r.array) (hta : a.typ = .element) (hraw : a.raw.length ≤ 5242880)
    (n : Bytes) (hn : PlainName n) (ps : List Step) (parts : List Bytes) (hps : StepsText ps parts) (hj : ∀ p ∈ ps, p.2 < 1000)
    (ns : List Bytes) (m : Bytes) (hns : ∀ k ∈ ns ++ [m], IsName k) (hpl : parts.length + (ns ++ [m]).length < 100)
    (c : Ctx) (e : El) (hL : Leads ((n, 0) :: ps) c e.name) (h : Editable (c.plug (e.cons .nil))) (hm : e.kids.info.named ((ns ++ [m]).head (by simp)) = [])
    (hd : c.depth + (ns ++ [m]).length + f.levels ≤ 100) :
    ∃ y, setRaw env.ord (c.plug (e.cons .nil)).render (pathOf (n :: (parts ++ (ns ++ [m])))) a.raw = .ret (y, none) ∧
      (y.length ≤ 10485760 → valid y = true ∧
        ∃ r' nd, get env y (pathOf (n :: (parts ++ (ns ++ [m])))) = .ret r' ∧ IsElement r' nd ∧ IsElement a nd ∧ r'.toStr = a.toStr) := by
  obtain ⟨g, h1, h2, h3, h4, h5, h6, h7⟩ := raw_content env ho f hl ht hne path hp r hr a ha hta
  have hg : g.Legal (c.depth + 1 + (ns ++ [m]).length) := legal_deeper h2 (by omega) (by omega) (by omega)
  obtain ⟨as, ws, y, -, -, s1, s2⟩ := C44_created env.ord ho _ _ (.name hn hps) c e hL h ns m hns (by simp at hpl ⊢; omega) (by omega) hm g hg h3 h1 h4
    (by rw [h6]; exact hraw)
  rw [h6] at s1
  refine ⟨_, s1, fun hy => ?_⟩
  obtain ⟨t1, t2, t3⟩ := s2 hy
  obtain ⟨ms, m1, m2, m3⟩ := ask_steps_top (pf := env.parseFloat) hn (stepsText_append hps (stepsText_names fun k hk => name_plain (hns k hk)))
    (by
      intro p hp
      rcases List.mem_append.mp hp with hp | hp
      · exact hj p hp
      · obtain ⟨k, -, rfl⟩ := List.mem_map.mp hp; exact (by decide : 0 < 1000))
  obtain ⟨r', g1, g2⟩ := C51_get env ho _ _ (editable_says t1) m1 .elem m2 (by simp) (by simp at hpl ⊢; omega) (by simp) (by simp)
  rw [m3 _ _ t3] at g2
  rw [List.append_nil] at g1
  exact ⟨t2, r', _, g1, g2, h7 _ _, by rw [g2.str, (h7 [] (fun _ => none)).str]⟩

/-- C67: so every path asked of the copy and of the original has the same answer. -/
theorem C67_same (env : Env) (ho : env.ord.IsPerm) (a b : Result) (nd : Node) (ha : IsElement a nd) (hb : IsElement b nd) (hc : nd.kids.Calm)
    (hla : a.raw.length + 29 ≤ 10485760) (hlb : b.raw.length + 29 ≤ 10485760) {dp : Bool} {ps gs : List Bytes} {ms : List Move} {g : Goal}
    (hs : Spells env.parseFloat dp (.moves ps ms)) (hg : GoalText gs g) (hp : Proper ms) (hne : ps ++ gs ≠ []) (hl : (ps ++ gs).length ≤ 99)
    (hd : dp = true → nd.kids.descendants.length < 9998) (ht : g = .fieldText → nd.kids.Quiet) :
    ∃ x y ans, a.get env (pathOf (ps ++ gs)) = .ret x ∧ b.get env (pathOf (ps ++ gs)) = .ret y ∧ Gives x ans ∧ Gives y ans := by
  obtain ⟨x, x1, x2⟩ := C60_get env ho a nd ha hc hla hs hg hp hne hl hd ht
  obtain ⟨y, y1, y2⟩ := C60_get env ho b nd hb hc hlb hs hg hp hne hl hd ht
  exact ⟨x, y, _, x1, y1, x2, y2⟩

/-! ### a case -/

/-- `<r><x k='"'>t<y/></x><x>u<!-- c --></x></r>` is copied from; `<d><e/><e>old</e></d>` is written to. -/
def copyTo : Ctx := .within .nil b!"d" [] [] (.here (.leaf b!"e" [] [] .nil) .nil) [] .nil
def copyEl : El := ⟨b!"e", [], [], some (.text b!"old" .nil, [])⟩
theorem copyTo_text : (copyTo.plug (copyEl.cons .nil)).render = b!"<d><e/><e>old</e></d>" := by decide +kernel

example : ∃ y, setRaw exEnv.ord b!"<d><e/><e>old</e></d>" b!"d.e.1" b!"<x k=\"&quot;\">t<y/></x><x>u<!-- c --></x>" = .ret (y, none) ∧
    y = b!"<d><e/><e><x k=\"&quot;\">t<y/></x><x>u<!-- c --></x></e></d>" ∧ valid y = true ∧ ∃ r', get exEnv y b!"d.e.1" = .ret r' ∧ r'.toStr = b!"tu" := by
  have h := C67_copy exEnv exEnv_perm shapeDoc shapeDoc_ok.1 shapeDoc_ok.2 (by simp [shapeDoc, Forest.NoEntity]) b!"r" (by decide) _ C54_witness.2
    (.ofContent b!"<x k=\"&quot;\">t<y/></x><x>u<!-- c --></x>")
    (by simp [Result.array, Result.ofContent, Result.typ]) rfl (by decide) b!"d" (plain_of (by decide)) [(b!"e", 1)] [b!"e", b!"1"]
    (.index (plain_of (by decide)) (.digit c!"1" (by decide)) (by decide) .nil) (by decide) (by decide) copyTo copyEl
    ⟨by decide +kernel, by decide +kernel, by decide +kernel, by decide +kernel⟩ (editable_of (by decide +kernel)) (by decide) (by decide +kernel)
  obtain ⟨y, h1, rfl, h2⟩ := h
  rw [copyTo_text] at h1
  obtain ⟨h3, r', -, h4, -, -, h5⟩ := h2 (by decide +kernel)
  exact ⟨_, h1, by decide +kernel, h3, r', h4, by rw [h5]; decide +kernel⟩

example : ∃ y, setRaw exEnv.ord b!"<d><e/><e>old</e></d>" b!"d.e.1.p.q" b!"<x k=\"&quot;\">t<y/></x><x>u<!-- c --></x>" = .ret (y, none) ∧
    (y.length ≤ 10485760 → valid y = true ∧ ∃ r', get exEnv y b!"d.e.1.p.q" = .ret r' ∧ r'.toStr = b!"tu") := by
  have h := C67_created exEnv exEnv_perm shapeDoc shapeDoc_ok.1 shapeDoc_ok.2 (by simp [shapeDoc, Forest.NoEntity]) b!"r" (by decide) _ C54_witness.2
    (.ofContent b!"<x k=\"&quot;\">t<y/></x><x>u<!-- c --></x>")
    (by simp [Result.array, Result.ofContent, Result.typ]) rfl (by decide) b!"d" (plain_of (by decide)) [(b!"e", 1)] [b!"e", b!"1"]
    (.index (plain_of (by decide)) (.digit c!"1" (by decide)) (by decide) .nil) (by decide) [b!"p"] b!"q" (by intro k hk; exact isName_of (by revert k; decide) (by revert k; decide)) (by decide) copyTo copyEl
    ⟨by decide +kernel, by decide +kernel, by decide +kernel, by decide +kernel⟩ (editable_of (by decide +kernel)) (by decide +kernel) (by decide +kernel)
  obtain ⟨y, h1, h2⟩ := h
  rw [copyTo_text] at h1
  refine ⟨_, h1, fun hy => ?_⟩
  obtain ⟨h3, r', -, h4, -, -, h5⟩ := h2 hy
  exact ⟨h3, r', h4, by rw [h5]; decide +kernel⟩

example : setRaw exEnv.ord b!"<d><e/><e>old</e></d>" b!"d.e.1.p.q" b!"<x k=\"&quot;\">t<y/></x><x>u<!-- c --></x>" =
    .ret (b!"<d><e/><e>old<p><q><x k=\"&quot;\">t<y/></x><x>u<!-- c --></x></q></p></e></d>", none) := by decide +kernel

/-- C67: without the conditions: a self-closing target stays empty and the content is put behind it, and of a CDATA section with tags the tags are written anew. -/
theorem C67_witness : set exEnv.ord b!"<d><e/></d>" b!"d.e" (.raw b!"<x/>") = .ret (b!"<d><e/><x/></d>", none) ∧
    get exEnv b!"<r><x><![CDATA[<b>1</b >]]></x></r>" b!"r.x" = .ret (.ofContent b!"<![CDATA[<b>1</b>]]>") ∧
    setRaw exEnv.ord b!"<d><e>0</e></d>" b!"d.e" b!"<![CDATA[<b>1</b>]]>" = .ret (b!"<d><e><![CDATA[<b>1</b>]]></e></d>", none) := by decide +kernel

end Verif.Props
