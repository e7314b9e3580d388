import Verif.Lemmas.White
import Verif.Props.Set
import Verif.Props.Escape
/- C74: the white space that reading removes is the white space of Unicode, all of it and nothing else. -/
namespace Verif.Props
open Verif Verif.Spec

/-- C74: what the library removes from the ends of a text is exactly Unicode's white space, for any
bytes whatever, valid UTF-8 or not. -/
theorem C74_trim (s t : Bytes) : trimSpace s = t ↔ Trims s t := trims_iff s t

/-- C74: the text of the element read by a path of names is the decoded text between the white space. -/
theorem C74_text (env : Env) (ho : env.ord.IsPerm) (xml : Bytes) (i : Info) (h : Says xml i)
    (pre : List Bytes) (n : Bytes) (hp : ∀ m ∈ pre ++ [n], PlainName m) (hl : pre.length < 100) (nd : Node) (hnd : (i.select pre n).head? = some nd) :
    ∃ r t, get env xml (pathOf (pre ++ [n])) = .ret r ∧ Trims nd.kids.allText t ∧ Decodes t r.toStr := by
  have := C04_get_element env ho xml i h pre n hp hl
  rw [hnd] at this
  obtain ⟨r, h1, h2⟩ := this
  exact ⟨r, _, h1, (C74_trim _ _).1 rfl, by rw [h2.str]; exact (C01_unescape_decodes _ _).1 rfl⟩

/-- C74: a string written by Set comes back without the white space around it, and otherwise
unchanged. -/
theorem C74_set (env : Env) (ho : env.ord.IsPerm) (f : Forest) (h : Editable f) (ns : List Bytes) (n : Bytes) (hn : ∀ m ∈ ns ++ [n], IsName m) (hl : ns.length < 100)
    (hsc : ∀ c e, f = c.plug (El.cons e .nil) → Leads (firsts (ns ++ [n])) c e.name → e.body ≠ none)
    (s : Bytes) (hw : (escapeXML s).length ≤ 5242880) :
    ∃ r, set env.ord f.render (pathOf (ns ++ [n])) (.str s) = .ret (r, none) ∧
      (r.length ≤ 10485760 → ∃ a, get env r (pathOf (ns ++ [n])) = .ret a ∧ Trims s a.toStr ∧ (a.toStr = s ↔ Trims s s)) := by
  obtain ⟨r, h1, h2⟩ := C17_set_get env ho f h ns n hn hl hsc s hw
  refine ⟨r, h1, fun hr => ?_⟩
  obtain ⟨a, g1, -, g3⟩ := h2 hr
  refine ⟨a, g1, (C74_trim _ _).1 g3.symm, ?_⟩
  rw [g3]
  exact C74_trim s s

/-- A no-break space, an ideographic space and a line separator around a value are lost, the zero width
space and the byte order mark are kept. -/
example : Trims "\u00a0\u3000ab\u2028".toUTF8.data.toList b!"ab" := by
  rw [← C74_trim]; decide +kernel
example : trimSpace "\u200bab\ufeff".toUTF8.data.toList = "\u200bab\ufeff".toUTF8.data.toList := by decide +kernel
/-- A lone continuation byte is no white space, nor is the unfinished encoding of a space. -/
example : trimSpace [0xA0, c!"a", 0xE2, 0x80] = [0xA0, c!"a", 0xE2, 0x80] := by decide +kernel

example : ∃ r, set exEnv.ord (exCtx.plug (exEl.cons .nil)).render b!"r.q.x" (.str "\u00a0 a b\u2029".toUTF8.data.toList) = .ret (r, none) ∧
    (r.length ≤ 10485760 → ∃ a, get exEnv r b!"r.q.x" = .ret a ∧ a.toStr = b!"a b") := by
  obtain ⟨r, h1, h2⟩ := C74_set exEnv exEnv_perm _ exEdit [b!"r", b!"q"] b!"x" (by decide) (by decide) (by
    intro c e h1 h2
    have h3 := leads_follow h2
    rw [← h1] at h3
    have h4 : ((exCtx.plug (exEl.cons .nil)).info.follow (firsts [b!"r", b!"q", b!"x"])).isNone = true := by decide +kernel
    have h5 : firsts ([b!"r", b!"q"] ++ [b!"x"]) = firsts [b!"r", b!"q", b!"x"] := rfl
    rw [h5] at h3
    rw [h3] at h4; simp at h4) "\u00a0 a b\u2029".toUTF8.data.toList (by decide +kernel)
  refine ⟨r, h1, fun hr => ?_⟩
  obtain ⟨a, g1, g2, -⟩ := h2 hr
  refine ⟨a, g1, ?_⟩
  rw [← C74_trim] at g2
  rw [← g2]
  decide +kernel

end Verif.Props
