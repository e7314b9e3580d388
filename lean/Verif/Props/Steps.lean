import Verif.Lemmas.Copy
import Verif.Props.Raw
import Verif.Props.Ask
namespace Verif.Props
open Spec

/-! ## C17 and C29 for paths with indices -/

/-- What Get finds at the steps that lead to an element with a text as its only content. -/
theorem get_steps (env : Env) (ho : env.ord.IsPerm) (n : Bytes) (hn : PlainName n) (ps : List Step) (parts : List Bytes) (hps : StepsText ps parts)
    (hj : ∀ p ∈ ps, p.2 < 1000) (hpl : parts.length < 100) (c : Ctx) (e : El) (w : Bytes) (hL : Leads ((n, 0) :: ps) c e.name)
    (hb : e.body = some (.text w .nil, [])) (h : Editable (c.plug (e.cons .nil))) (hgt : c!">" ∉ w) :
    ∃ a, get env (c.plug (e.cons .nil)).render (pathOf (n :: parts)) = .ret a ∧ a.typ = .element ∧ a.toStr = unescapeXML (trimSpace w) := by
  obtain ⟨ms, m1, m2, m3⟩ := ask_steps_top (pf := env.parseFloat) hn hps hj
  obtain ⟨r, g1, g2⟩ := C51_get env ho _ _ (editable_says h) m1 .elem m2 (by simp) (by simp; omega) (by simp) (by simp)
  rw [m3 _ _ (leads_follow hL)] at g2
  rw [List.append_nil] at g1
  replace g2 : IsElement r e.node := g2
  refine ⟨r, g1, g2.typ, ?_⟩
  have hf : w.filter (fun c => c ≠ c!">") = w := List.filter_eq_self.mpr (fun c hc => by simp; intro hh; exact hgt (hh ▸ hc))
  rw [g2.str, El.node, hb]
  simp only [Info.textValue, Forest.info, Info.allText, hf, List.append_nil]

/-- C17: after Set with a string at a path of names and indices that leads to an element with a body, Get with the same path gives the string
without leading and trailing white space. The first name has no index, and indices are below 1000;
`C17_index_at_top` shows why. -/
theorem C17_steps (env : Env) (ho : env.ord.IsPerm) (n : Bytes) (hn : PlainName n) (ps : List Step) (parts : List Bytes) (hps : StepsText ps parts)
    (hj : ∀ p ∈ ps, p.2 < 1000) (hpl : parts.length < 100) (c : Ctx) (e : El) (hL : Leads ((n, 0) :: ps) c e.name)
    (h : Editable (c.plug (e.cons .nil))) (hb : e.body ≠ none) (s : Bytes) (hw : (escapeXML s).length ≤ 5242880) :
    ∃ r, set env.ord (c.plug (e.cons .nil)).render (pathOf (n :: parts)) (.str s) = .ret (r, none) ∧
      (r.length ≤ 10485760 → ∃ a, get env r (pathOf (n :: parts)) = .ret a ∧ a.typ = .element ∧ a.toStr = trimSpace s) := by
  have h1 := set_existing ho (.name hn hps) (by simp; omega) hL h (v := .str s) (by simp) rfl hw
  rw [← fill_render hb] at h1
  refine ⟨_, h1, fun hsz => ?_⟩
  obtain ⟨a, g1, g2, g3⟩ := get_steps env ho n hn ps parts hps hj hpl c (e.fill (escapeXML s)) (escapeXML s) hL (by rw [fill_refill h hb]; rfl)
    (editable_fill h hb (C20_no_markup s) (by rw [fill_render hb] at hsz; exact hsz)) (fun hh => (escapeXML_mem hh).2.1 rfl)
  exact ⟨a, g1, g2, by rw [g3, trim_escape, unescape_escape]⟩

/-- C17: and where the path leads to an element below which the next name is missing, the missing elements are created and Get finds the last. -/
theorem C17_steps_created (env : Env) (ho : env.ord.IsPerm) (n : Bytes) (hn : PlainName n) (ps : List Step) (parts : List Bytes) (hps : StepsText ps parts)
    (hj : ∀ p ∈ ps, p.2 < 1000) (ns : List Bytes) (m : Bytes) (hns : ∀ k ∈ ns ++ [m], IsName k) (hpl : parts.length + (ns ++ [m]).length < 100)
    (c : Ctx) (e : El) (hL : Leads ((n, 0) :: ps) c e.name) (h : Editable (c.plug (e.cons .nil))) (hm : e.kids.info.named ((ns ++ [m]).head (by simp)) = [])
    (hd : c.depth + 1 + (ns ++ [m]).length ≤ 100) (s : Bytes) (hw : (escapeXML s).length ≤ 5242880) :
    ∃ r, set env.ord (c.plug (e.cons .nil)).render (pathOf (n :: (parts ++ (ns ++ [m])))) (.str s) = .ret (r, none) ∧
      (r.length ≤ 10485760 → ∃ a, get env r (pathOf (n :: (parts ++ (ns ++ [m])))) = .ret a ∧ a.typ = .element ∧ a.toStr = trimSpace s) := by
  obtain ⟨as, ws, hop, hset⟩ := set_missing ho (.name hn hps) hL h
  obtain ⟨k, ks, hk⟩ : ∃ k ks, ns ++ [m] = k :: ks := by cases ns <;> exact ⟨_, _, rfl⟩
  have h1 := hset k ks (fun m hm => name_plain (hns m (hk ▸ hm))) (by rw [← hk]; simp at hpl ⊢; omega) (by simpa [hk] using hm) (.str s) _ (by simp) rfl hw
  rw [← hk] at h1
  obtain ⟨c2, l1, l2⟩ := created_leads (as := as) (ws := ws) hL hm
  have e1 : c.before ++ (e.refill as ws (e.kids.append (chain (ns ++ [m]) (.text (escapeXML s) .nil)))).render ++ c.after =
      (c2.plug ((tip m (escapeXML s)).cons .nil)).render := by rw [l2, plug_el_render]; simp [El.render]
  refine ⟨_, h1, fun hsz => ?_⟩
  have hE := editable_created h (by simp) hns hd (C20_no_markup s) hop hsz
  rw [← l2] at hE
  rw [e1]
  obtain ⟨a, g1, g2, g3⟩ := get_steps env ho n hn (ps ++ firsts (ns ++ [m])) (parts ++ (ns ++ [m]))
    (stepsText_append hps (stepsText_names fun k hk => name_plain (hns k hk)))
    (by
      intro p hp
      rcases List.mem_append.mp hp with hp | hp
      · exact hj p hp
      · obtain ⟨k, -, rfl⟩ := List.mem_map.mp hp; exact (by decide : 0 < 1000))
    (by simp at hpl ⊢; omega) c2 (tip m (escapeXML s)) (escapeXML s) l1 rfl hE (fun hh => (escapeXML_mem hh).2.1 rfl)
  exact ⟨a, g1, g2, by rw [g3, trim_escape, unescape_escape]⟩

/-- C29: after Set of an attribute at a path of names and indices, Get with the same path gives the value. -/
theorem C29_steps (env : Env) (ho : env.ord.IsPerm) (n : Bytes) (hn : PlainName n) (ps : List Step) (parts : List Bytes) (hps : StepsText ps parts)
    (hj : ∀ p ∈ ps, p.2 < 1000) (hpl : parts.length < 99) (c : Ctx) (e : El) (hL : Leads ((n, 0) :: ps) c e.name)
    (h : Editable (c.plug (e.cons .nil))) (k : Bytes) (hk : IsName k) (s : Bytes) (hw : (escapeXML s).length ≤ 1048576)
    (hcount : attrVal e.attrs k ≠ none ∨ e.attrs.length < 100) :
    ∃ r, set env.ord (c.plug (e.cons .nil)).render (pathOf (n :: parts ++ [c!"@" :: k])) (.str s) = .ret (r, none) ∧
      (r.length ≤ 10485760 → valid r = true ∧ get env r (pathOf (n :: parts ++ [c!"@" :: k])) = .ret (.ofAttr s)) := by
  have hk' : c!"|" ∉ k := by
    intro hh
    have := hk.2.1 _ hh
    revert this; decide
  obtain ⟨as, h1, h2, h3⟩ := set_attr ho (.name hn hps) (by simp; omega) hL h hk' (v := .str s) (by simp) rfl (by omega)
  refine ⟨_, h2, fun hsz => ?_⟩
  have hg := editable_el h
  obtain ⟨ha, hf⟩ := el_attrs hg.legal hg.tame
  obtain ⟨h4, h5⟩ := h3 ha hf hk hw hcount
  have hr : c.before ++ (e.retag as).render ++ c.after = (c.plug ((e.retag as).cons .nil)).render := by
    rw [plug_el_render]; simp [El.render]
  rw [hr] at hsz ⊢
  have he := editable_retag h h4 h5 h1.neat hsz
  obtain ⟨ms, m1, m2, m3⟩ := ask_steps_goal (pf := env.parseFloat) hn hps hj
  obtain ⟨r, g1, g2⟩ := C51_get env ho _ _ (editable_says he) m1 (.attr hk') m2 (by simp) (by simp; omega) (by simp) (by simp)
  have hv : attrVal as k = some s := h1.this
  rw [m3 _ _ (.attr k) (.attr s) (leads_follow (e := e.retag as) hL) (.inr ⟨k, rfl⟩) (by
    simp only [Goal.items, El.node, El.retag, hv]; rfl)] at g2
  rw [show r = .ofAttr s from g2] at g1
  exact ⟨editable_valid he, g1⟩

/-! ### cases -/

example : ∃ r, set exEnv.ord b!"<!--x--><r v='1' ><a k=\"&lt;\">x</a> <a><b>y</b></a><c j=\"1\"/></r>" b!"r.a.1" (.str b!" <&> ") = .ret (r, none) ∧
    (r.length ≤ 10485760 → ∃ a, get exEnv r b!"r.a.1" = .ret a ∧ a.typ = .element ∧ a.toStr = b!"<&>") := by
  have h := C17_steps exEnv exEnv_perm b!"r" (plain_of (by decide)) [(b!"a", 1)] [b!"a", b!"1"]
    (.index (plain_of (by decide)) (.digit c!"1" (by decide)) (by decide) .nil) (by decide) (by decide) exCtx exEl exLeads exEdit (by decide) b!" <&> " (by decide +kernel)
  rw [exEdit_render] at h
  rw [show trimSpace b!" <&> " = b!"<&>" by decide +kernel] at h
  exact h

example : ∃ r, set exEnv.ord b!"<!--x--><r v='1' ><a k=\"&lt;\">x</a> <a><b>y</b></a><c j=\"1\"/></r>" b!"r.a.1.@k" (.str b!"<") = .ret (r, none) ∧
    (r.length ≤ 10485760 → valid r = true ∧ get exEnv r b!"r.a.1.@k" = .ret (.ofAttr b!"<")) := by
  have h := C29_steps exEnv exEnv_perm b!"r" (plain_of (by decide)) [(b!"a", 1)] [b!"a", b!"1"]
    (.index (plain_of (by decide)) (.digit c!"1" (by decide)) (by decide) .nil) (by decide) (by decide) exCtx exEl exLeads exEdit b!"k"
    (isName_of (by decide) (by decide)) b!"<" (by decide +kernel) (.inr (by decide))
  rw [exEdit_render] at h
  exact h

example : ∃ r, set exEnv.ord b!"<!--x--><r v='1' ><a k=\"&lt;\">x</a> <a><b>y</b></a><c j=\"1\"/></r>" b!"r.a.1.p.q" (.str b!"<") = .ret (r, none) ∧
    (r.length ≤ 10485760 → ∃ a, get exEnv r b!"r.a.1.p.q" = .ret a ∧ a.typ = .element ∧ a.toStr = b!"<") := by
  have h := C17_steps_created exEnv exEnv_perm b!"r" (plain_of (by decide)) [(b!"a", 1)] [b!"a", b!"1"]
    (.index (plain_of (by decide)) (.digit c!"1" (by decide)) (by decide) .nil) (by decide) [b!"p"] b!"q"
    (by intro k hk; exact isName_of (by revert k; decide) (by revert k; decide)) (by decide) exCtx exEl exLeads exEdit (by decide +kernel) (by decide +kernel) b!"<" (by decide +kernel)
  rw [exEdit_render, show trimSpace b!"<" = b!"<" by decide +kernel] at h
  exact h

/-- C17: an index on the first name of a path: Set counts the elements whose name matches, Get those whose name is the same; so Get need not find
what Set wrote. -/
theorem C17_index_at_top : set exEnv.ord b!"<x:a>1</x:a><a>2</a>" b!"a.1" (.str b!"v") = .ret (b!"<x:a>1</x:a><a>v</a>", none) ∧
    get exEnv b!"<x:a>1</x:a><a>v</a>" b!"a.1" = .ret .null ∧
    set exEnv.ord b!"<r><x:a>1</x:a><a>2</a></r>" b!"r.a.1" (.str b!"v") = .ret (b!"<r><x:a>1</x:a><a>v</a></r>", none) ∧
    get exEnv b!"<r><x:a>1</x:a><a>v</a></r>" b!"r.a.1" = .ret (.ofContent b!"v") := by decide +kernel

end Verif.Props
