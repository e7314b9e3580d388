import Verif.Props.Steps
import Verif.Props.Entry
/- C17: positions from 1000 on. -/
namespace Verif.Props
open Verif Verif.Spec

/-- C06: From the position 1000 on, Get finds nothing, in whatever document. -/
theorem C06_beyond (env : Env) (ho : env.ord.IsPerm) (xml : Bytes) (i : Info) (h : Says xml i) (pre : List Bytes) (n ds : Bytes) (j : Nat) (hj : Decimal ds j) (hp : ∀ m ∈ pre ++ [n], PlainName m)
    (hl : pre.length < 99) (h1 : 1000 ≤ j) : get env xml (pathOf (pre ++ [n] ++ [ds])) = .ret .null := by
  have h2 := C06_index env ho xml i h pre n ds j hj hp hl
  have h3 : (i.groups pre n).findSome? (fun g => (g.take 1000)[j]?) = none := by
    rw [List.findSome?_eq_none_iff]
    intro g _
    rw [List.getElem?_eq_none_iff, List.length_take]
    omega
  rw [h3] at h2
  exact h2

/-- C17: Set writes there nonetheless, so that there the value cannot be read back with the same path. -/
theorem C17_beyond (env : Env) (ho : env.ord.IsPerm) (pre : List Bytes) (n ds : Bytes) (j : Nat) (hj : Decimal ds j) (hp : ∀ m ∈ pre ++ [n], PlainName m) (hl : pre.length < 98) (h1 : 1000 ≤ j) (h2 : j < 2 ^ 63)
    (c : Ctx) (e : El) (hL : Leads (firsts pre ++ [(n, j)]) c e.name) (h : Editable (c.plug (e.cons .nil))) (hb : e.body ≠ none) (s : Bytes) (hw : (escapeXML s).length ≤ 5242880) :
    ∃ r, set env.ord (c.plug (e.cons .nil)).render (pathOf (pre ++ [n] ++ [ds])) (.str s) = .ret (r, none) ∧ r = (c.plug ((e.fill (escapeXML s)).cons .nil)).render ∧
      (r.length ≤ 10485760 → get env r (pathOf (pre ++ [n] ++ [ds])) = .ret .null) := by
  have h3 := set_existing ho (parts := pre ++ [n] ++ [ds]) (by rw [List.append_assoc]; exact stepsText_append (stepsText_names (fun m hm => hp m (by simp [hm]))) (.index (hp n (by simp)) hj h2 .nil))
    (by simp; omega) hL h (v := .str s) (by simp) rfl hw
  rw [← fill_render hb] at h3
  refine ⟨_, h3, rfl, fun hsz => ?_⟩
  exact C06_beyond env ho _ _ (editable_says (editable_fill h hb (C20_no_markup s) (by rw [fill_render hb] at hsz; exact hsz))) pre n ds j hj hp (by omega) h1

/-- That many elements `<a/>`. -/
def crowd : Nat → Forest
  | 0 => .nil
  | k + 1 => .leaf b!"a" [] [] (crowd k)

/-- `r.a.1000` is the last of 1001 elements: Set writes it, Get does not find it. -/
example (env : Env) (ho : env.ord.IsPerm) : ∃ r,
    set env.ord (b!"<r>" ++ (crowd 1000).render ++ b!"<a></a></r>") b!"r.a.1000" (.str b!"v") = .ret (r, none) ∧ r = b!"<r>" ++ (crowd 1000).render ++ b!"<a>v</a></r>" ∧ get env r b!"r.a.1000" = .ret .null := by
  obtain ⟨r, h1, h2, h3⟩ := C17_beyond env ho [b!"r"] b!"a" b!"1000" 1000 (.snoc (d := 48) (.snoc (d := 48) (.snoc (d := 48) (.digit 49 (by decide)) (by decide)) (by decide)) (by decide)) (plains_of (by decide)) (by decide) (by decide) (by decide)
    (.within .nil b!"r" [] [] (.here (crowd 1000) .nil) [] .nil) ⟨b!"a", [], [], some (.nil, [])⟩ ⟨rfl, by decide +kernel, rfl, by decide +kernel⟩ (editable_of (by decide +kernel)) (by simp) b!"v" (by decide)
  have e : ∀ k : Forest, ((Ctx.within .nil b!"r" [] [] (.here (crowd 1000) .nil) [] .nil).plug ((⟨b!"a", [], [], some (k, [])⟩ : El).cons .nil)).render = b!"<r>" ++ (crowd 1000).render ++ (b!"<a>" ++ k.render ++ b!"</a></r>") := by
    intro k
    rw [plug_el_render]
    simp [Ctx.before, Ctx.after, El.start, El.inner, El.stop, openTag, closeTag, Forest.render]
  have e2 : r = b!"<r>" ++ (crowd 1000).render ++ b!"<a>v</a></r>" := by
    rw [h2]
    refine (e (.text b!"v" .nil)).trans ?_
    simp [Forest.render]
  rw [e .nil] at h1
  refine ⟨r, ?_, e2, h3 (by rw [e2]; decide +kernel)⟩
  have h4 : pathOf ([b!"r"] ++ [b!"a"] ++ [b!"1000"]) = b!"r.a.1000" := by decide +kernel
  rw [h4] at h1
  simpa [Forest.render] using h1

/-- C42: The size of what Set writes is not limited: two values within their limit make a document that is too large, without an error. From then on nothing is found in it and no modification is accepted,
also none that would make it smaller. -/
theorem C42_outgrown (env : Env) (ho : env.ord.IsPerm) : ∃ xml v r, valid xml = true ∧ set env.ord xml b!"a.b" (.str v) = .ret (r, none) ∧ valid r = false ∧
    (∀ path, get env r path = .ret .null) ∧ (∀ path w, set env.ord r path w = .ret (r, some .malformed)) ∧ ∀ path, delete env.ord r path = .ret (r, some .malformed) := by
  have hx : ∀ k, ∃ x : Bytes, x.length = k ∧ escapeXML x = x ∧ c!"<" ∉ x := by
    intro k
    refine ⟨List.replicate k c!"x", List.length_replicate, ?_, fun h => absurd (List.eq_of_mem_replicate h) (by decide)⟩
    induction k with
    | zero => rfl
    | succ k ih => rw [List.replicate_succ, escapeXML, ih]; rfl
  obtain ⟨x, hx1, _, hx2⟩ := hx 10000000
  obtain ⟨y, hy1, hy2, _⟩ := hx 5242880
  have hb := editable_of (f := (Ctx.within .nil b!"a" [] [] (.here (.node b!"b" [] [] .nil [] .nil) .nil) [] .nil).plug ((⟨b!"c", [], [], some (.nil, [])⟩ : El).cons .nil)) (by decide +kernel)
  have hf := editable_fill hb (by simp) hx2 (by simp [hx1, Ctx.before, Ctx.after, El.start, El.stop, openTag, closeTag, Forest.render])
  have h1 := set_existing ho (ps := [(b!"a", 0), (b!"b", 0)]) (parts := [b!"a", b!"b"]) (.name (plain_of (by decide)) (.name (plain_of (by decide)) .nil)) (by decide)
    (c := .within .nil b!"a" [] [] (.here .nil (.node b!"c" [] [] (.text (x) .nil) [] .nil)) [] .nil) (e := ⟨b!"b", [], [], some (.nil, [])⟩) ⟨rfl, rfl, rfl, rfl⟩ hf
    (v := .str (y)) (w := y) (by simp) (by rw [valueToXML, hy2]) (by omega)
  have h2 : pathOf [b!"a", b!"b"] = b!"a.b" := by decide +kernel
  rw [h2] at h1
  refine ⟨_, _, _, editable_valid hf, h1, ?_⟩
  have hlen : (Ctx.before (.within .nil b!"a" [] [] (.here .nil (.node b!"c" [] [] (.text (x) .nil) [] .nil)) [] .nil) ++ (⟨b!"b", [], [], some (.nil, [])⟩ : El).start ++ y ++
      (⟨b!"b", [], [], some (.nil, [])⟩ : El).stop ++ Ctx.after (.within .nil b!"a" [] [] (.here .nil (.node b!"c" [] [] (.text (x) .nil) [] .nil)) [] .nil)).length > 10485760 := by
    simp [hx1, hy1, Ctx.before, Ctx.after, El.start, El.stop, openTag, closeTag, Forest.render]
  exact ⟨C42_valid _ hlen, fun p => C42_get env _ p hlen, fun p w => C42_set env.ord _ p w _ hlen, fun p => C42_delete env.ord _ p _ hlen⟩

end Verif.Props
