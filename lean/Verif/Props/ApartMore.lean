import Verif.Props.AppendAny
import Verif.Lemmas.Keep
namespace Verif.Props
open Spec

/-! ## C90, further kinds of writes: removing and markup -/

/-- C90: ... or the content of the element as markup, ... -/
theorem C90_markup (opts : Options) {p : Bytes} {ss : List Bytes} (hp : PathSteps p ss) (a : List Nat) (e : El) (hb : e.body ≠ none) (k : Forest) (v : GoVal) (hv0 : v ≠ .nil) (hv : valueToXML v = some k.render)
    (hw : k.render.length ≤ 5242880) (hl : ∀ d ≤ ss.length, 0 < d → k.Legal d) (ht : k.Tame false) (he : k.Even) : DoesAny ⟨p, v, opts, ss, a, e, e.refill e.attrs e.ws k⟩ := by
  refine ⟨rfl, fun c hL h hsz => ?_⟩
  simp only [] at hL h hsz ⊢
  have hop : Opened e e.attrs e.ws := ⟨fun _ => ⟨rfl, rfl⟩, fun h => absurd h hb⟩
  have hdep : c.depth + 1 ≤ ss.length := by
    obtain ⟨hs, ht, hr⟩ := hL
    have h1 := reach_deep hr
    have h2 := trail_short ht _ rfl
    omega
  refine ⟨fun o ho => ?_, editable_swapEl h (refill_good (editable_el h) hop (hl _ hdep (by omega)) ht he) hsz⟩
  have hg := editable_el h
  rw [C79_set ho opts h hp hL hv0 hv hw, plug_el_render]
  obtain ⟨nm, eas, ews, bd⟩ := e
  rcases bd with _ | ⟨k0, cws⟩
  · exact absurd rfl hb
  · have : cws = [] := hg.stable.1
    subst this
    simp [El.refill, El.start, El.inner, El.stop]

/-- C90: ... removing one of its attributes (a Set of nil is Delete: C21), ... -/
theorem C90_delete_attribute (opts : Options) {p : Bytes} {qs : List Bytes} {k : Bytes} (hp : PathSteps p (qs ++ [c!"@" :: k])) (hbar : c!"|" ∉ k) (a : List Nat) (e : El)
    (hthere : ∃ j, sameKey opts.caseSensitive j k ∧ Spec.attrVal e.attrs j ≠ none) (as : List Attr) (hr : RetagBy opts.caseSensitive e k none as) : DoesAny ⟨p, .nil, opts, qs, a, e, e.retag as⟩ := by
  refine ⟨rfl, fun c hL h hsz => ?_⟩
  simp only [] at hL h hsz ⊢
  have hkb : beforeBar (c!"@" :: k) = c!"@" :: k := beforeBar_plain (by simp [hbar])
  have hg := editable_el h
  obtain ⟨l1, l2⟩ := el_attrs hg.legal hg.tame
  obtain ⟨f1, f2⟩ := retag_less hr l1 l2
  refine ⟨fun o ho => ?_, editable_retag h f1 f2 hr.neat hsz⟩
  obtain ⟨j, j1, j2⟩ := hthere
  obtain ⟨as', h1, h2⟩ := (C79_delete_attribute ho opts h hp ⟨k, rfl⟩ hL).2 j (by rw [hkb]; exact j1) j2
  rw [hkb, List.drop_one, List.tail_cons] at h1
  obtain rfl := retagBy_unique hr h1
  rw [C21_set_nil, h2, plug_el_render]; simp [El.render]

/-- Removing something inside it. -/
theorem delete_child_does (opts : Options) {p : Bytes} {ps rest : List Bytes} (hp : PathSteps p (ps ++ rest)) (a : List Nat) (e x : El) (hb : e.body ≠ none) (k1 k2 : Forest) (hk : e.kids = k1.append (x.cons k2))
    (hlead : ∀ c, LeadTo opts.caseSensitive ps c e.name → LeadTo opts.caseSensitive (ps ++ rest) (down c e.name e.attrs e.ws [] (.here k1 k2)) x.name) :
    DoesAny ⟨p, .nil, opts, ps, a, e, e.refill e.attrs e.ws (k1.append k2)⟩ := by
  refine ⟨rfl, fun c hL h hsz => ?_⟩
  simp only [] at hL h hsz ⊢
  have hop : Opened e e.attrs e.ws := ⟨fun _ => ⟨rfl, rfl⟩, fun h => absurd h hb⟩
  have hg := editable_el h
  obtain ⟨q1, q2, q3, -⟩ := el_kids_good hg
  have hx : x.cons k2 = (x.cons .nil).append k2 := by rw [cons_append]; rfl
  rw [hk, hx, append_legal, append_legal] at q1
  rw [hk, hx, append_tame, append_tame] at q2
  rw [hk, hx, append_even, append_even] at q3
  refine ⟨fun o ho => ?_, editable_swapEl h (refill_good hg hop ?_ ?_ ?_) hsz⟩
  · have e1 : c.plug (e.cons .nil) = (down c e.name e.attrs e.ws [] (.here k1 k2)).plug (x.cons .nil) := by
      rw [down_plug, ← refill_same h hb, Ctx.plug, cons_append, hk]
      rfl
    have hl := hlead c hL
    rw [e1] at h ⊢
    rw [C21_set_nil, C79_delete ho opts h hp hl, down_before, down_after]
    have e3 : c.before ++ (openTag e.name e.attrs e.ws ++ b!">") ++ (Ctx.here k1 k2).before ++ ((Ctx.here k1 k2).after ++ closeTag e.name [] ++ c.after) =
        (c.plug ((e.refill e.attrs e.ws (k1.append k2)).cons .nil)).render := by
      rw [plug_el_render]
      simp [Ctx.before, Ctx.after, El.refill, El.start, El.inner, El.stop, append_render]
    rw [e3, if_neg (by rw [← e3]; simp)]
  · rw [append_legal]; exact ⟨q1.1, q1.2.2⟩
  · rw [append_tame]; exact ⟨q2.1, q2.2.2⟩
  · rw [append_even]; exact ⟨q3.1, q3.2.2⟩

/-- C90: ... removing its first child of a name, ... -/
theorem C90_delete_child (opts : Options) {p : Bytes} {ps : List Bytes} {m : Bytes} (hp : PathSteps p (ps ++ [m])) (hm : IsName m) (a : List Nat) (e x : El) (hb : e.body ≠ none) (k1 k2 : Forest) (hk : e.kids = k1.append (x.cons k2))
    (hx : agrees opts.caseSensitive m x.name = true) (h1 : k1.info.count opts.caseSensitive (.name m) = 0) : DoesAny ⟨p, .nil, opts, ps, a, e, e.refill e.attrs e.ws (k1.append k2)⟩ :=
  delete_child_does opts hp a e x hb k1 k2 hk fun c hl => by
    obtain ⟨hs, ht, hr⟩ := hl
    exact ⟨_, trail_more ht (rest := [m]) (by simpa using hm) rfl, reach_down hr ⟨hx, h1⟩⟩

/-- C90: ... or the one with a certain number. -/
theorem C90_delete_nth (opts : Options) {p : Bytes} {ps : List Bytes} {m d : Bytes} {j : Nat} (hp : PathSteps p (ps ++ [m, d])) (hm : IsName m) (hd : Position d) (hj : Place (beforeBar d) (some j)) (a : List Nat) (e x : El) (hb : e.body ≠ none)
    (k1 k2 : Forest) (hk : e.kids = k1.append (x.cons k2)) (hx : agrees opts.caseSensitive m x.name = true) (h1 : k1.info.count opts.caseSensitive (.name m) = min j (2 ^ 63 - 1)) :
    DoesAny ⟨p, .nil, opts, ps, a, e, e.refill e.attrs e.ws (k1.append k2)⟩ :=
  delete_child_does opts hp a e x hb k1 k2 hk fun c hl => by
    obtain ⟨hs, ht, hr⟩ := hl
    obtain ⟨s1, s2, -⟩ := isName_step hm
    exact ⟨_, trail_snoc_nth ht s1 hd hj, reach_down hr ⟨by rw [s2]; exact hx, by rw [s2]; exact h1⟩⟩

/-! ### an example -/

def lessWrites : List Write :=
  [⟨b!"*.a", .raw b!"<x/>y", defaultOptions, [b!"*", b!"a"], [0, 0], mixA, mixA.refill mixA.attrs mixA.ws (.leaf b!"x" [] [] (.text b!"y" .nil))⟩,
   ⟨b!"R.B.@K", .nil, mixFold, [b!"R", b!"B"], [0, 1], mixB, mixB.retag []⟩,
   ⟨b!"r.*.2.d", .nil, defaultOptions, [b!"r", b!"*", b!"2"], [0, 2], mixC, mixC.refill mixC.attrs mixC.ws .nil⟩]

/-- All hypotheses of C90_any_order hold for them. -/
theorem lessWrites_ready : lessWrites.Pairwise (fun i j => Apart i.addr j.addr) ∧ (∀ j ∈ lessWrites, j.Fits mixDoc) ∧ (∀ j ∈ lessWrites, DoesAny j) ∧
    mixDoc.render.length + (lessWrites.map Write.cost).sum ≤ 10485760 := by
  refine ⟨by unfold Apart; decide +kernel, ?_, ?_, by decide +kernel⟩
  · simp only [lessWrites, List.mem_cons, List.not_mem_nil, or_false, forall_eq_or_imp, forall_eq]
    exact ⟨⟨mixRoot (.here .nil (mixKids [mixB, mixC, mixA2])), by decide +kernel, by decide +kernel, _, mix_any, by decide +kernel, by decide +kernel, by decide +kernel, by decide +kernel⟩,
      ⟨mixRoot (.here (mixKids [mixA]) (mixKids [mixC, mixA2])), by decide +kernel, by decide +kernel, _, mix_fold, by decide +kernel, by decide +kernel, by decide +kernel, by decide +kernel⟩,
      ⟨mixRoot (.here (mixKids [mixA, mixB]) (mixKids [mixA2])), by decide +kernel, by decide +kernel, _, mix_star2, by decide +kernel, by decide +kernel, by decide +kernel, by decide +kernel⟩⟩
  · simp only [lessWrites, List.mem_cons, List.not_mem_nil, or_false, forall_eq_or_imp, forall_eq]
    refine ⟨C90_markup _ (pathSteps_by (by decide) (by decide) (by decide +kernel) (by decide +kernel)) _ _ (by decide) _ _ (by simp) (by decide +kernel) (by decide +kernel) (by decide +kernel) (Forest.Tidy.tame (by decide +kernel)) (by decide +kernel),
      C90_delete_attribute _ (k := b!"K") (pathSteps_by (by decide) (by decide) (by decide +kernel) (by decide +kernel)) (by decide) _ _ ⟨b!"k", by decide +kernel, by decide +kernel⟩ _ ?_,
      C90_delete_child defaultOptions (m := b!"d") (pathSteps_by (by decide) (by decide) (by decide +kernel) (by decide +kernel)) (isName_of (by decide) (by decide)) _ _ ⟨b!"d", [], [], some (.text b!"2" .nil, [])⟩ (by decide) .nil .nil rfl
        (by decide +kernel) (by decide +kernel)⟩
    refine ⟨by simp [Neat], by simp, fun j _ _ => rfl, fun hn j h => ?_, fun j _ _ _ => rfl, fun j h => ?_⟩
    · exact absurd (hn b!"k" (by decide +kernel)) (by decide +kernel)
    · rw [show mixB.attrs = [⟨b!" ", b!"k", [], [], c!"\"", b!"v"⟩] from rfl, attrVal_cons_other (by rintro rfl; exact h (by decide +kernel))]

/-- So the three give one document, whatever the order. -/
example : ∃ f' : Forest, ∀ js : List Write, js.Perm lessWrites → WriteCalls b!"<r><a>1</a><b k=\"v\"/><c><d>2</d></c><a>3</a></r>" js f'.render := by
  obtain ⟨h2, h3, h4, h5⟩ := lessWrites_ready
  obtain ⟨f', -, -, -, h⟩ := C90_any_order mixDoc lessWrites mixWrites_ready.1 h2 h3 h4 h5
  rw [mixDoc_text] at h
  exact ⟨f', h⟩

/-- C90: that document, in two of the orders; and where the places are not apart the order matters. -/
theorem C90_less_witness :
    setWithOptions exEnv.ord b!"<r><a>1</a><b k=\"v\"/><c><d>2</d></c><a>3</a></r>" b!"*.a" (.raw b!"<x/>y") (some defaultOptions) = .ret (b!"<r><a><x/>y</a><b k=\"v\"/><c><d>2</d></c><a>3</a></r>", none) ∧
    setWithOptions exEnv.ord b!"<r><a><x/>y</a><b k=\"v\"/><c><d>2</d></c><a>3</a></r>" b!"R.B.@K" .nil (some mixFold) = .ret (b!"<r><a><x/>y</a><b/><c><d>2</d></c><a>3</a></r>", none) ∧
    setWithOptions exEnv.ord b!"<r><a>1</a><b k=\"v\"/><c><d>2</d></c><a>3</a></r>" b!"R.B.@K" .nil (some mixFold) = .ret (b!"<r><a>1</a><b/><c><d>2</d></c><a>3</a></r>", none) ∧
    setWithOptions exEnv.ord b!"<r><a>1</a><b/><c><d>2</d></c><a>3</a></r>" b!"*.a" (.raw b!"<x/>y") (some defaultOptions) = .ret (b!"<r><a><x/>y</a><b/><c><d>2</d></c><a>3</a></r>", none) ∧
    setWithOptions exEnv.ord b!"<r><a>1</a><b>2</b></r>" b!"r.a" .nil (some defaultOptions) = .ret (b!"<r><b>2</b></r>", none) ∧
    setWithOptions exEnv.ord b!"<r><b>2</b></r>" b!"*.*" (.str b!"x") (some defaultOptions) = .ret (b!"<r><b>x</b></r>", none) ∧
    setWithOptions exEnv.ord b!"<r><a>1</a><b>2</b></r>" b!"*.*" (.str b!"x") (some defaultOptions) = .ret (b!"<r><a>x</a><b>2</b></r>", none) := by
  refine ⟨?_, ?_, ?_, ?_, ?_, ?_, ?_⟩ <;> decide +kernel

end Verif.Props
