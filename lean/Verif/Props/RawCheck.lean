import Verif.Props.Raw
import Verif.Props.Valid
/- C44: getting around the check of SetRaw, and the precaution that the documentation recommends. -/
namespace Verif.Props
open Verif Verif.Spec

/-- C44: the barrier does not keep the fragment inside the target. This fragment is accepted, although it closes the target, adds an element beside it and opens another one;
the result is valid, and Get finds the added element. (A `>` within quotes ends the tag for the check, so what follows within the quotes counts as the start of a comment.) -/
theorem C44_injection :
    setRaw exEnv.ord b!"<user><x>1</x></user>" b!"user.x" b!"<a b=\"><!--\"></a></x><admin>true</admin><x><a d=\"-->\"></a>" =
      .ret (b!"<user><x><a b=\"><!--\"></a></x><admin>true</admin><x><a d=\"-->\"></a></x></user>", none) ∧
    valid b!"<user><x><a b=\"><!--\"></a></x><admin>true</admin><x><a d=\"-->\"></a></x></user>" = true ∧
    (∃ a, get exEnv b!"<user><x><a b=\"><!--\"></a></x><admin>true</admin><x><a d=\"-->\"></a></x></user>" b!"user.admin" = .ret a ∧ a.toStr = b!"true") :=
  ⟨by decide +kernel, by decide +kernel, _, rfl, by decide +kernel⟩

/-- C44: the precaution in docs/security.md, to check `<root>` + fragment + `</root>` with Valid first, does not prevent that the document is broken afterwards. -/
theorem C44_precaution_fails :
    valid (b!"<root>" ++ b!"<a b=\"><!--\"></a></root><root><a d=\"-->\"></a>" ++ b!"</root>") = true ∧
    setRaw exEnv.ord b!"<user><x>1</x></user>" b!"user.x" b!"<a b=\"><!--\"></a></root><root><a d=\"-->\"></a>" =
      .ret (b!"<user><x><a b=\"><!--\"></a></root><root><a d=\"-->\"></a></x></user>", none) ∧
    valid b!"<user><x><a b=\"><!--\"></a></root><root><a d=\"-->\"></a></x></user>" = false := by decide +kernel

/-- Two occurrences of a pattern that begins with `<` and has no other. -/
theorem cut_unique {a b t p : Bytes} {z : UInt8} (hp : c!"<" ∉ p) (hb : ¬ (c!"<" :: p) <:+: b) (h : a ++ c!"<" :: p ++ t = b ++ c!"<" :: p ++ [z]) (ht : t ≠ []) : a = b := by
  have hlen := congrArg List.length h
  simp only [List.length_append, List.length_cons, List.length_nil] at hlen
  have hpos := List.length_pos_iff.mpr ht
  rw [List.append_assoc, List.append_assoc] at h
  rcases List.append_eq_append_iff.mp h with ⟨d, h1, h2⟩ | ⟨d, h1, h2⟩
  · -- b = a ++ d
    cases d with
    | nil => simpa using h1.symm
    | cons y d =>
      exfalso
      have : y = c!"<" := by simpa using (congrArg List.head? h2).symm
      subst this
      simp only [List.cons_append, List.cons.injEq, true_and] at h2
      rcases List.append_eq_append_iff.mp h2 with ⟨q, k1, k2⟩ | ⟨q, k1, k2⟩
      · exact hb ⟨a, q, by rw [h1, k1]; simp⟩
      · cases q with
        | nil => exact hb ⟨a, [], by simp at k1; rw [h1, k1]; simp⟩
        | cons y q =>
          have : y = c!"<" := by simpa using (congrArg List.head? k2).symm
          subst this
          exact hp (by rw [k1]; simp)
  · rw [h1] at hlen
    simp at hlen
    have : d = [] := List.length_eq_zero_iff.mp (by omega)
    rw [h1, this]; simp

theorem name_cut {m n x y : Bytes} (hm : ∀ c ∈ m, NameChar c) (hn : ∀ c ∈ n, NameChar c) (hx : ∀ c u, x = c :: u → ¬ NameChar c) (hy : ∀ c u, y = c :: u → ¬ NameChar c)
    (h : m ++ x = n ++ y) : m = n ∧ x = y := by
  induction m generalizing n with
  | nil =>
    cases n with
    | nil => exact ⟨rfl, h⟩
    | cons c n => exact absurd (hn c (by simp)) (hx c _ h)
  | cons c m ih =>
    cases n with
    | nil => exact absurd (hm c (by simp)) (hy c _ h.symm)
    | cons d n =>
      simp only [List.cons_append, List.cons.injEq] at h
      obtain ⟨h1, h2⟩ := ih (fun c hc => hm c (by simp [hc])) (fun c hc => hn c (by simp [hc])) h.2
      exact ⟨by rw [h.1, h1], h2⟩

/-- C44: but it does when the fragment has no end tag of the name used for the check: then the fragment is well-formed content. -/
theorem C44_precaution (n u : Bytes) (hn : IsName n) (hu : ¬ (b!"</" ++ n) <:+: u) (hv : valid (b!"<" ++ n ++ b!">" ++ u ++ (b!"</" ++ n ++ b!">")) = true) :
    ∃ g : Forest, g.Legal 1 ∧ g.render = u := by
  obtain ⟨-, f, hl, -, hr⟩ := (C02_valid_iff_document _).mp hv
  obtain ⟨⟨s, n', hs, hs1⟩, hn2, hn3⟩ := hn
  clear hv
  induction f with
  | nil => simp [Forest.render] at hr
  | text b next ih =>
    cases b with
    | nil => exact ih hl.2.2 hr
    | cons c b =>
      have : c = c!"<" := by simpa [Forest.render] using congrArg List.head? hr
      exact absurd (by rw [this]; simp) hl.1
  | misc m next ih =>
    exfalso
    have h2 := congrArg (fun l => l.tail.head?) hr
    have key : s ≠ c!"!" ∧ s ≠ c!"?" := by
      have := nameChar_ne (hn2 s (by rw [hs]; simp))
      exact ⟨this.2.1, this.1⟩
    rw [hs] at h2
    cases m <;> simp [Forest.render, Misc.render] at h2 <;> first | exact key.1 h2.symm | exact key.2 h2.symm
  | leaf m as ws next ih =>
    exfalso
    obtain ⟨⟨-, hm2, -⟩, ha, hw, -, -⟩ := hl
    simp only [Forest.render, openTag, List.append_assoc, List.cons_append, List.nil_append, List.cons.injEq, true_and] at hr
    have hh := attrs_head ha hw (t := c!"/" :: c!">" :: next.render) (by intro c u hc; rw [List.cons.injEq] at hc; rw [← hc.1]; exact fun h => (not_nameChar_gt h).2 rfl)
    obtain ⟨-, h2⟩ := name_cut hm2 hn2 (by simpa using hh) (headChar_gt _) hr
    cases as with
    | nil =>
      cases ws with
      | nil => simp at h2
      | cons w ws =>
        have : w = c!">" := by simpa using congrArg List.head? h2
        exact absurd (hw w (by simp)) (by rw [this]; unfold IsWs; decide)
    | cons a as =>
      cases hp : a.pre with
      | nil => exact ha.2.2 a rfl hp
      | cons w p =>
        have : w = c!">" := by simpa [Attr.render, hp] using congrArg List.head? h2
        exact absurd ((ha.2.1 a (by simp)).1 w (by rw [hp]; simp)) (by rw [this]; unfold IsWs; decide)
  | node m as ws kids cws next _ ih =>
    obtain ⟨⟨-, hm2, -⟩, ha, hw, -, hk, hc, -⟩ := hl
    simp only [Forest.render, openTag, List.append_assoc, List.cons_append, List.nil_append, List.cons.injEq, true_and] at hr
    have hh := attrs_head ha hw (t := c!">" :: (kids.render ++ (closeTag m cws ++ next.render))) (headChar_gt _)
    obtain ⟨h1, h2⟩ := name_cut hm2 hn2 (by simpa using hh) (headChar_gt _) hr
    subst h1
    have hempty : as = [] ∧ ws = [] := by
      cases as with
      | nil =>
        cases ws with
        | nil => exact ⟨rfl, rfl⟩
        | cons w ws =>
          have : w = c!">" := by simpa using congrArg List.head? h2
          exact absurd (hw w (by simp)) (by rw [this]; unfold IsWs; decide)
      | cons a as =>
        cases hp : a.pre with
        | nil => exact absurd hp (ha.2.2 a rfl)
        | cons w p =>
          have : w = c!">" := by simpa [Attr.render, hp] using congrArg List.head? h2
          exact absurd ((ha.2.1 a (by simp)).1 w (by rw [hp]; simp)) (by rw [this]; unfold IsWs; decide)
    obtain ⟨rfl, rfl⟩ := hempty
    simp only [List.flatMap_nil, List.nil_append, List.cons.injEq, true_and] at h2
    refine ⟨kids, hk, cut_unique (p := c!"/" :: m) (t := cws ++ b!">" ++ next.render) (z := c!">") ?_ hu ?_ (by simp)⟩
    · intro h
      rcases List.mem_cons.mp h with h | h
      · exact absurd h (by decide)
      · exact absurd (hm2 _ h) (by unfold NameChar NameStart Letter; decide)
    · simpa [closeTag] using h2

/-- The non-vacuous case: the fragment of the documentation's example. -/
example : valid (b!"<" ++ b!"root" ++ b!">" ++ b!"<name>John</name><!--x-->t" ++ (b!"</" ++ b!"root" ++ b!">")) = true ∧ ¬ (b!"</" ++ b!"root") <:+: b!"<name>John</name><!--x-->t" := by decide +kernel

theorem legal_at {d d' : Nat} {g : Forest} (h : g.Legal (d + 1)) (hd : g.info.depth + (d' + 1) ≤ 100) : g.Legal (d' + 1) := by
  induction g generalizing d d' with
  | nil => trivial
  | text b next ih => exact ⟨h.1, by simp, ih h.2.2 hd⟩
  | misc m next ih => exact ⟨h.1, ih h.2 hd⟩
  | leaf n as ws next ih =>
    simp only [Forest.info, Info.depth] at hd
    exact ⟨h.1, h.2.1, h.2.2.1, by omega, ih h.2.2.2.2 (by omega)⟩
  | node n as ws kids cws next ihk ih =>
    simp only [Forest.info, Info.depth] at hd
    exact ⟨h.1, h.2.1, h.2.2.1, by omega, ihk h.2.2.2.2.1 (by omega), h.2.2.2.2.2.1, ih h.2.2.2.2.2.2 (by omega)⟩

/-- C44: a fragment that passes this check and is accepted keeps the document valid, if the result is not too long and not too deeply nested. -/
theorem C44_checked (o : Ord) (ho : o.IsPerm) (ps : List Step) (parts : List Bytes) (hps : StepsText ps parts) (hpl : parts.length ≤ 100)
    (c : Ctx) (e : El) (hL : Leads ps c e.name) (h : Editable (c.plug (e.cons .nil))) (hb : e.body ≠ none)
    (n u : Bytes) (hn : IsName n) (hu : ¬ (b!"</" ++ n) <:+: u) (hv : valid (b!"<" ++ n ++ b!">" ++ u ++ (b!"</" ++ n ++ b!">")) = true)
    (hr : validateRawXML u = true) (hw : u.length ≤ 5242880) :
    ∃ g : Forest, g.render = u ∧
      setRaw o (c.plug (e.cons .nil)).render (pathOf parts) u = .ret ((c.plug ((e.refill e.attrs e.ws g).cons .nil)).render, none) ∧
      ((c.plug ((e.refill e.attrs e.ws g).cons .nil)).render.length ≤ 10485760 → g.info.depth + (c.depth + 1) ≤ 100 →
        valid (c.plug ((e.refill e.attrs e.ws g).cons .nil)).render = true) := by
  obtain ⟨g, hg, rfl⟩ := C44_precaution n u hn hu hv
  refine ⟨g, rfl, ?_, fun hsz hd => ?_⟩
  · rw [setRaw, if_pos hr, set_existing ho hps hpl hL h (by simp) rfl hw]
    congr 2
    have hgood := editable_el h
    rw [plug_el_render]
    obtain ⟨nm, as, ws, body⟩ := e
    rcases body with _ | ⟨k0, cws⟩
    · exact absurd rfl hb
    · have : cws = [] := hgood.stable.1
      subst this
      simp [El.refill, El.start, El.inner, El.stop]
  · refine (C02_valid_iff_document _).mpr ⟨hsz, _, ?_, plug_hasElem_of (cons_hasElem _ _), rfl⟩
    obtain ⟨h1, h2⟩ := plug_legal h.2.1
    refine h2 _ ?_
    obtain ⟨nm, as, ws, body⟩ := e
    rcases body with _ | ⟨k0, cws⟩
    · exact absurd rfl hb
    · have := legal_at (d' := c.depth) hg hd
      simp only [El.cons, Forest.Legal, Nat.zero_add] at h1
      simp only [El.refill, El.cons, Forest.Legal, Nat.zero_add]
      exact ⟨h1.1, h1.2.1, h1.2.2.1, h1.2.2.2.1, this, by simp, trivial⟩

example : setRaw exEnv.ord b!"<user><x>1</x></user>" b!"user.x" b!"<name>John</name><!--x-->t" =
    .ret (b!"<user><x><name>John</name><!--x-->t</x></user>", none) := by decide +kernel

end Verif.Props
