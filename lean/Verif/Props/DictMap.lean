import Verif.Props.Dict
import Verif.Props.Fluent
/- C72: `Map` of what is found in a dictionary. -/
namespace Verif.Props
open Spec

/-- Number of entries of a dictionary. -/
def dictSize : Dict → Nat
  | .nil => 0
  | .entry _ _ _ _ r => dictSize r + 1

theorem dict_elems_length (d : Dict) : d.forest.info.elems.length = dictSize d := by
  induction d with
  | nil => rfl
  | entry n as s k r _ ih => simp [Dict.forest, Forest.info, Info.elems, dictSize, ih]

theorem dict_elems_filter {d : Nat} {x : Dict} (h : x.Fine d) (k : Bytes) :
    x.forest.info.elems.filter (fun e => e.name = k) = ((x.get k).map (fun y => (slotEl k y).node)).toList := by
  induction x with
  | nil => rfl
  | entry m as s kk r _ ih =>
    obtain ⟨-, -, -, -, h5, h6⟩ := h
    have e : Dict.forest (.entry m as s kk r) = (slotEl m ⟨as, s, kk⟩).cons r.forest := rfl
    have e' : ((slotEl m ⟨as, s, kk⟩).cons r.forest).info.elems = (slotEl m ⟨as, s, kk⟩).node :: r.forest.info.elems := rfl
    have en : (slotEl m ⟨as, s, kk⟩).node.name = m := rfl
    rw [e, e', List.filter_cons, en, ih h6, Dict.get]
    by_cases hm : m = k
    · subst hm; simp [h5]
    · simp [hm]

theorem dict_elems_simple {d : Nat} {x : Dict} (h : x.Fine d) : ∀ e ∈ x.forest.info.elems, Simple e.name := by
  induction x with
  | nil => intro e he; simp [Dict.forest, Forest.info, Info.elems] at he
  | entry m as s kk r _ ih =>
    obtain ⟨h1, -, -, -, -, h6⟩ := h
    intro e he
    simp only [Dict.forest, Forest.info, Info.elems, List.mem_cons] at he
    rcases he with rfl | he
    · exact h1
    · exact ih h6 e he

theorem dict_find_fine {d : Nat} {x : Dict} (h : x.Fine d) {ns : List Bytes} {y : Slot} (hf : x.find ns = some y) : ∃ e, y.kids.Fine e := by
  have get_fine : ∀ {d : Nat} {x : Dict} {n : Bytes} {y : Slot}, x.Fine d → x.get n = some y → y.kids.Fine (d + 1) := by
    intro d x n y h hg
    induction x with
    | nil => simp [Dict.get] at hg
    | entry m as s kk r _ ih =>
      obtain ⟨-, -, -, h4, -, h6⟩ := h
      rw [Dict.get] at hg
      split at hg
      · cases hg; exact h4
      · exact ih h6 hg
  induction ns generalizing d x with
  | nil => simp [Dict.find] at hf
  | cons n ns ih =>
    cases ns with
    | nil => exact ⟨_, get_fine h (by simpa [Dict.find] using hf)⟩
    | cons m ns =>
      obtain ⟨z, h1, h2⟩ := find_some hf
      exact ih (get_fine h h1) h2

/-- C72: `Map` of the element at a path lists the entries of its dictionary: under each name the entry, if there is one, and under `%` the text, if it is not blank. -/
theorem C72_map (env : Env) (ho : env.ord.IsPerm) (d : Dict) (hd : d.Fine 0) (h0 : d ≠ .nil) (hs : d.render.length ≤ 10485760)
    (ns : List Bytes) (hne : ns ≠ []) (hl : ns.length ≤ 100) (hns : ∀ n ∈ ns, Simple n) (y : Slot) (hy : d.find ns = some y) (hn : dictSize y.kids ≤ 1000)
    (r : Result) (hr : get env d.render (pathOf ns) = .ret r) (hlen : r.raw.length ≤ 10485760) :
    (∀ k, k ≠ b!"%" → match y.kids.get k with
      | none => (r.map env.ord).get? k = none
      | some z => ∃ v, (r.map env.ord).get? k = some v ∧ v.typ = .element ∧ v.toStr = trimSpace (z.text ++ z.kids.words)) ∧
    (if trimSpace y.text = [] then (r.map env.ord).get? b!"%" = none
      else ∃ v, (r.map env.ord).get? b!"%" = some v ∧ v.typ = .string ∧ v.toStr = trimSpace y.text) := by
  obtain ⟨pre, n, rfl⟩ : ∃ pre n, ns = pre ++ [n] := ⟨ns.dropLast, ns.getLast hne, (List.dropLast_concat_getLast hne).symm⟩
  have hrd : (Forest.text [] d.forest).render = d.render := by simp [Forest.render, forest_render]
  have hg := C04_get_element env ho _ _ (editable_says (dict_editable hd h0 hs)) pre n (simple_plain hns) (by simp at hl; omega)
  rw [dict_select pre n hns hd, hrd, hy] at hg
  obtain ⟨r', h1, h2⟩ := hg
  rw [hr] at h1
  cases h1
  obtain ⟨e, he⟩ := dict_find_fine hd hy
  obtain ⟨a1, a2⟩ := C39_any env ho r _ h2 hlen
  have eel : (slotEl n y).node.kids.elems = y.kids.forest.info.elems := rfl
  refine ⟨fun k hk => ?_, ?_⟩
  · have := a1 k hk
    rw [eel, List.take_of_length_le (by rw [dict_elems_length]; exact hn), dict_elems_filter he k] at this
    cases hz : y.kids.get k with
    | none => rw [hz] at this; exact this
    | some z =>
      rw [hz] at this
      obtain ⟨v, h3, h4⟩ := this
      have h5 : IsElement v (slotEl k z).node := h4
      refine ⟨v, h3, h5.typ, ?_⟩
      rw [h5.str]
      show unescapeXML (trimSpace ((escapeXML z.text).filter (fun c => c ≠ c!">") ++ z.kids.forest.info.allText)) = _
      rw [dict_allText, escape_noGt, ← escapeXML_append, trim_escape, unescape_escape]
  · have hq : (slotEl n y).node.kids.Quiet := ⟨escape_quiet _, dict_quiet _⟩
    have hp : ∀ k ∈ (slotEl n y).node.kids.elems, k.name ≠ b!"%" := by
      intro k hk h
      exact (name_plain (dict_elems_simple he k hk).1).notPct h
    have := a2 hq hp
    have eo : (slotEl n y).node.kids.ownText = escapeXML y.text := by
      show (escapeXML y.text).filter (fun c => c ≠ c!">") ++ y.kids.forest.info.ownText = _
      rw [dict_ownText, escape_noGt, List.append_nil]
    rw [Node.ownTexts, Info.ownValue, eo, trim_escape, unescape_escape] at this
    by_cases hb : trimSpace y.text = []
    · rw [if_pos hb]
      rw [if_pos (by rw [hb]; rfl)] at this
      exact this
    · rw [if_neg hb]
      rw [if_neg (by intro h; apply hb; rw [← unescape_escape (trimSpace y.text), h, unescapeXML_nil])] at this
      exact this

/-- The map of `net` in the example: its text and its two entries. -/
example : ∃ r, get exEnv b!"<net id=\"1\">a &lt; b<dns>x</dns><ntp/></net>" b!"net" = .ret r ∧
    (r.map exEnv.ord).map (fun e => (e.1, e.2.toStr)) = [(b!"%", b!"a < b"), (b!"dns", b!"x"), (b!"ntp", b!"")] :=
  ⟨.ofContent b!"a &lt; b<dns>x</dns><ntp/>", by decide +kernel, by decide +kernel⟩

end Verif.Props
