import Verif.Lemmas.Query
import Verif.Model.Builder
import Verif.Spec.Edit
/- Where findElementLocation points: positions in documents whose inner tags are in canonical layout. -/
namespace Verif
open Spec

/-! ### forests -/

theorem append_nil (f : Forest) : f.append .nil = f := by
  induction f <;> simp [Forest.append, *]

theorem append_assoc (f g h : Forest) : (f.append g).append h = f.append (g.append h) := by
  induction f <;> simp [Forest.append, *]

theorem append_render (f g : Forest) : (f.append g).render = f.render ++ g.render := by
  induction f <;> simp [Forest.append, Forest.render, *]

theorem append_legal (f g : Forest) (d : Nat) : (f.append g).Legal d ↔ f.Legal d ∧ g.Legal d := by
  induction f <;> simp [Forest.append, Forest.Legal, *, and_assoc]

theorem append_tame (f g : Forest) (t : Bool) : (f.append g).Tame t ↔ f.Tame t ∧ g.Tame t := by
  induction f <;> simp [Forest.append, Forest.Tame, *, and_assoc]

theorem append_canon (f g : Forest) : CanonF (f.append g) ↔ CanonF f ∧ CanonF g := by
  induction f <;> simp [Forest.append, CanonF, *, and_assoc]

theorem append_stable (f g : Forest) : (f.append g).Stable ↔ f.Stable ∧ g.Stable := by
  induction f <;> simp [Forest.append, Forest.Stable, *, and_assoc]

theorem append_hasElem (f g : Forest) : (f.append g).HasElem ↔ f.HasElem ∨ g.HasElem := by
  induction f <;> simp [Forest.append, Forest.HasElem, *]

theorem append_elems (f g : Forest) : (f.append g).info.elems = f.info.elems ++ g.info.elems := by
  induction f <;> simp [Forest.append, Forest.info, Info.elems, *]

theorem append_named (f g : Forest) (n : Bytes) : (f.append g).info.named n = f.info.named n ++ g.info.named n := by
  simp [Info.named, append_elems]

theorem cons_render (e : El) (a : Forest) : (e.cons a).render = e.render ++ a.render := by
  obtain ⟨n, as, ws, body⟩ := e
  rcases body with _ | ⟨k, cws⟩ <;> simp [El.cons, Forest.render, El.render, El.start, El.inner, El.stop]

theorem cons_append (e : El) (a x : Forest) : (e.cons a).append x = e.cons (a.append x) := by
  obtain ⟨n, as, ws, body⟩ := e
  rcases body with _ | ⟨k, cws⟩ <;> simp [El.cons, Forest.append]

theorem cons_elems (e : El) (a : Forest) : (e.cons a).info.elems = e.node :: a.info.elems := by
  obtain ⟨n, as, ws, body⟩ := e
  rcases body with _ | ⟨k, cws⟩ <;> simp [El.cons, Forest.info, Info.elems, El.node]

theorem plug_render (c : Ctx) (x : Forest) : (c.plug x).render = c.before ++ x.render ++ c.after := by
  induction c with
  | here b a => simp [Ctx.plug, Ctx.before, Ctx.after, append_render]
  | within b n as ws c cws a ih => simp [Ctx.plug, Ctx.before, Ctx.after, append_render, Forest.render, ih]

/-! ### neat = canonical -/

theorem neat_canon {as : List Attr} (h : Neat as) : CanonAttrs as := by
  refine ⟨as.map (fun a => (a.name, unescapeXML a.raw)), ?_, ?_⟩
  · simpa [Attrs.Uniq, Function.comp_def] using h.2
  · rw [List.map_map]
    refine ((List.map_congr_left ?_).trans (List.map_id as)).symm
    intro a ha
    obtain ⟨h1, h2, h3, h4, v, h5⟩ := h.1 a ha
    obtain ⟨pre, nm, m1, m2, q, raw⟩ := a
    simp only at h1 h2 h3 h4 h5
    subst h1 h2 h3 h4 h5
    simp [canonAttr, unescape_escape]

theorem canon_neat {as : List Attr} (h : CanonAttrs as) : Neat as := by
  obtain ⟨m, hu, rfl⟩ := h
  refine ⟨?_, by simpa [Attrs.Uniq, Function.comp_def, canonAttr] using hu⟩
  intro a ha
  obtain ⟨p, -, rfl⟩ := List.mem_map.mp ha
  exact ⟨rfl, rfl, rfl, rfl, p.2, rfl⟩

theorem neatF_canon {f : Forest} : f.Neat ↔ CanonF f := by
  induction f with
  | nil => simp [Forest.Neat, CanonF]
  | text b next ih => simpa [Forest.Neat, CanonF] using ih
  | misc m next ih => simpa [Forest.Neat, CanonF] using ih
  | leaf n as ws next ih => simp only [Forest.Neat, CanonF, ih]; constructor <;> rintro ⟨a, b⟩
                            · exact ⟨neat_canon a, b⟩
                            · exact ⟨canon_neat a, b⟩
  | node n as ws k cws next ihk ih => simp only [Forest.Neat, CanonF, ih, ihk]; constructor <;> rintro ⟨a, b⟩
                                      · exact ⟨neat_canon a, b⟩
                                      · exact ⟨canon_neat a, b⟩

theorem uniq_perm {m m' : Attrs} (hp : m'.Perm m) (hu : m.Uniq) : m'.Uniq := (hp.map Prod.fst).nodup_iff.mpr hu

theorem canon_inj {m m' : Attrs} (hu : m.Uniq) (hu' : m'.Uniq) (h : m.map canonAttr = m'.map canonAttr) : m = m' := by
  rw [← attrMap_canon m hu, ← attrMap_canon m' hu', h]

theorem neat_even {as : List Attr} (h : Neat as) : Even as [] := by
  have e : redoAttrs as = as := by
    have hl : ∀ as : List Attr, (as.map (·.name)).Nodup → lastOnly as = as := by
      intro as hn
      induction as with
      | nil => rfl
      | cons a as ih =>
        rw [List.map_cons, List.nodup_cons] at hn
        rw [lastOnly, if_neg hn.1, ih hn.2]
    rw [redoAttrs, hl as h.2]
    refine (List.map_congr_left ?_).trans (List.map_id as)
    intro a ha
    obtain ⟨h1, h2, h3, h4, v, h5⟩ := h.1 a ha
    obtain ⟨pre, nm, m1, m2, q, raw⟩ := a
    simp only at h1 h2 h3 h4 h5
    subst h1 h2 h3 h4 h5
    simp [Attr.rewritten, unescape_escape]
  rw [Even, e, List.append_nil]

theorem neatF_even {f : Forest} (h : f.Neat) : f.Even := by
  induction f with
  | nil => trivial
  | text b next ih => exact ih h
  | misc m next ih => exact ih h
  | leaf n as ws next ih => obtain ⟨h1, rfl, h3⟩ := h; exact ⟨neat_even h1, ih h3⟩
  | node n as ws k cws next ihk ih => obtain ⟨h1, rfl, h3, h4, h5⟩ := h; exact ⟨neat_even h1, h3, ihk h4, ih h5⟩

theorem Twin.canon_right {f g : Forest} (h : Twin f g) : CanonF g := by
  induction h with
  | nil => trivial
  | text _ ih => exact ih
  | misc _ ih => exact ih
  | leaf _ hp _ ih => exact ⟨⟨_, uniq_perm hp (attrMap_uniq _), rfl⟩, rfl, ih⟩
  | node _ hp _ _ ihk ih => exact ⟨⟨_, uniq_perm hp (attrMap_uniq _), rfl⟩, rfl, rfl, ihk, ih⟩

theorem Twin.even {f g : Forest} (h : Twin f g) : g.Even := neatF_even (neatF_canon.mpr h.canon_right)

theorem Twin.trans {f g h : Forest} (h1 : Twin f g) (h2 : Twin g h) : Twin f h := by
  induction h1 generalizing h with
  | nil => exact h2
  | text _ ih => cases h2 with | text h2 => exact .text (ih h2)
  | misc _ ih => cases h2 with | misc h2 => exact .misc (ih h2)
  | leaf hl hp _ ih =>
    cases h2 with
    | leaf hl2 hp2 h2 =>
      rw [attrMap_canon _ (uniq_perm hp (attrMap_uniq _))] at hp2
      exact .leaf (hl2.trans hl) (hp2.trans hp) (ih h2)
  | node hl hp _ _ ihk ih =>
    cases h2 with
    | node hl2 hp2 hk2 h2 =>
      rw [attrMap_canon _ (uniq_perm hp (attrMap_uniq _))] at hp2
      exact .node (hl2.trans hl) (hp2.trans hp) (ihk hk2) (ih h2)

theorem twin_of_even {f g : Forest} (he : f.Even) (h : Twin f.redo g) : Twin f g := by
  induction f generalizing g with
  | nil => exact h
  | text b next ih => cases h with | text h => exact .text (ih he h)
  | misc m next ih => cases h with | misc h => exact .misc (ih he h)
  | leaf n as ws next ih =>
    cases h with
    | leaf hl hp h =>
      refine .leaf (hl.trans ?_) (hp.trans (attrMap_redo_perm as)) (ih he.2 h)
      have := he.1
      simp only [Spec.Even, openTag, List.length_append, List.append_nil] at this ⊢
      omega
  | node n as ws k cws next ihk ih =>
    obtain ⟨h1, rfl, h3, h4⟩ := he
    cases h with
    | node hl hp hk h =>
      refine .node (hl.trans ?_) (hp.trans (attrMap_redo_perm as)) (ihk h3 hk) (ih h4 h)
      simp only [Spec.Even, openTag, List.length_append, List.append_nil] at h1 ⊢
      omega

/-- The data scanned (`g`) has the layout of the document (`f`): every tag is as long. -/
inductive Sim : Forest → Forest → Prop where
  | nil : Sim .nil .nil
  | text {b : Bytes} {f g : Forest} (h : Sim f g) : Sim (.text b f) (.text b g)
  | misc {m : Misc} {f g : Forest} (h : Sim f g) : Sim (.misc m f) (.misc m g)
  | leaf {n ws ws' : Bytes} {as as' : List Attr} {f g : Forest} (hl : (openTag n as' ws').length = (openTag n as ws).length)
      (hp : (attrMap as').Perm (attrMap as)) (h : Sim f g) : Sim (.leaf n as ws f) (.leaf n as' ws' g)
  | node {n ws ws' : Bytes} {as as' : List Attr} {k k' f g : Forest} (hl : (openTag n as' ws').length = (openTag n as ws).length)
      (hp : (attrMap as').Perm (attrMap as)) (hk : (k' = k ∧ k.Even) ∨ Twin k k') (h : Sim f g) : Sim (.node n as ws k [] f) (.node n as' ws' k' [] g)

theorem Twin.sim {f g : Forest} (h : Twin f g) : Sim f g := by
  induction h with
  | nil => exact .nil
  | text _ ih => exact .text ih
  | misc _ ih => exact .misc ih
  | leaf hl hp _ ih => exact .leaf hl (by rw [attrMap_canon _ (uniq_perm hp (attrMap_uniq _))]; exact hp) ih
  | node hl hp hk _ _ ih => exact .node hl (by rw [attrMap_canon _ (uniq_perm hp (attrMap_uniq _))]; exact hp) (.inr hk) ih

theorem Sim.refl {f : Forest} (h : f.Stable) : Sim f f := by
  induction f with
  | nil => exact .nil
  | text b next ih => exact .text (ih h)
  | misc m next ih => exact .misc (ih h)
  | leaf n as ws next ih => exact .leaf rfl (List.Perm.refl _) (ih h)
  | node n as ws k cws next _ ih =>
    obtain ⟨rfl, hk, h⟩ := h
    exact .node rfl (List.Perm.refl _) (.inl ⟨rfl, hk⟩) (ih h)

theorem Twin.length {f g : Forest} (h : Twin f g) : g.render.length = f.render.length := by
  induction h with
  | nil => rfl
  | text _ ih => simp [Forest.render, ih]
  | misc _ ih => simp [Forest.render, ih]
  | leaf hl hp _ ih => simp only [Forest.render, List.length_append, ih, hl]
  | node hl hp _ _ ihk ih => simp only [Forest.render, List.length_append, ih, ihk, hl]

theorem Sim.length {f g : Forest} (h : Sim f g) : g.render.length = f.render.length := by
  induction h with
  | nil => rfl
  | text _ ih => simp [Forest.render, ih]
  | misc _ ih => simp [Forest.render, ih]
  | leaf hl hp _ ih => simp only [Forest.render, List.length_append, ih, hl]
  | @node n ws ws' as as' k k' f g hl hp hk _ ih =>
    have : k'.render.length = k.render.length := hk.elim (fun e => by rw [e.1]) Twin.length
    simp only [Forest.render, List.length_append, ih, this, hl]

/-! ### the elements of one level with their surroundings -/

/-- The elements of the level with what is before and after each. -/
def tops : Forest → List (Forest × El × Forest)
  | .nil => []
  | .text b next => (tops next).map (fun t => (.text b t.1, t.2))
  | .misc m next => (tops next).map (fun t => (.misc m t.1, t.2))
  | .leaf n as ws next => (.nil, ⟨n, as, ws, none⟩, next) :: (tops next).map (fun t => (.leaf n as ws t.1, t.2))
  | .node n as ws k cws next =>
    (.nil, ⟨n, as, ws, some (k, cws)⟩, next) :: (tops next).map (fun t => (.node n as ws k cws t.1, t.2))

theorem tops_mem {f : Forest} {t : Forest × El × Forest} (h : t ∈ tops f) : f = t.1.append (t.2.1.cons t.2.2) := by
  induction f generalizing t with
  | nil => simp [tops] at h
  | text b next ih =>
    obtain ⟨s, hs, rfl⟩ := List.mem_map.mp h
    simp [Forest.append, ← ih hs]
  | misc m next ih =>
    obtain ⟨s, hs, rfl⟩ := List.mem_map.mp h
    simp [Forest.append, ← ih hs]
  | leaf n as ws next ih =>
    rcases List.mem_cons.mp h with rfl | h
    · simp [Forest.append, El.cons]
    · obtain ⟨s, hs, rfl⟩ := List.mem_map.mp h
      simp [Forest.append, ← ih hs]
  | node n as ws k cws next _ ih =>
    rcases List.mem_cons.mp h with rfl | h
    · simp [Forest.append, El.cons]
    · obtain ⟨s, hs, rfl⟩ := List.mem_map.mp h
      simp [Forest.append, ← ih hs]

theorem tops_elems (f : Forest) : (tops f).map (fun t => t.2.1.node) = f.info.elems := by
  induction f <;> simp_all [tops, Forest.info, Info.elems, El.node, Function.comp_def]

theorem tops_append (f g : Forest) : tops (f.append g) =
    (tops f).map (fun t => (t.1, t.2.1, t.2.2.append g)) ++ (tops g).map (fun t => (f.append t.1, t.2)) := by
  induction f <;> simp_all [tops, Forest.append, Function.comp_def]

theorem tops_cons (e : El) (a : Forest) : tops (e.cons a) = (.nil, e, a) :: (tops a).map (fun t => (e.cons t.1, t.2)) := by
  obtain ⟨n, as, ws, body⟩ := e
  rcases body with _ | ⟨k, cws⟩ <;> simp [El.cons, tops]

/-- The elements before the one with `j` matching ones before it. -/
theorem tops_get {n : Bytes} (b : Forest) (e : El) (a : Forest) (hn : nameMatches n e.name = true) :
    ((tops (b.append (e.cons a))).filter (fun t => nameMatches n t.2.1.name))[(b.info.named n).length]? = some (b, e, a) := by
  have hlen : (((tops b).map (fun t => (t.1, t.2.1, t.2.2.append (e.cons a)))).filter (fun t => nameMatches n t.2.1.name)).length = (b.info.named n).length := by
    rw [Info.named, ← tops_elems, List.filter_map, List.filter_map, List.length_map, List.length_map]; rfl
  rw [tops_append, List.filter_append, ← hlen, List.getElem?_append_right (Nat.le_refl _), Nat.sub_self, tops_cons]
  simp [hn, append_nil]

theorem tops_count {n : Bytes} {f : Forest} {j : Nat} {t : Forest × El × Forest}
    (h : ((tops f).filter (fun t => nameMatches n t.2.1.name))[j]? = some t) :
    f = t.1.append (t.2.1.cons t.2.2) ∧ nameMatches n t.2.1.name = true ∧ (t.1.info.named n).length = j := by
  have hm := List.mem_of_getElem? h
  obtain ⟨hm1, hm2⟩ := List.mem_filter.mp hm
  have hf := tops_mem hm1
  refine ⟨hf, hm2, ?_⟩
  clear hf hm hm1 hm2
  have push : ∀ {l : List (Forest × El × Forest)} {k : Forest → Forest} {j : Nat} {t : Forest × El × Forest},
      ((l.map (fun t => (k t.1, t.2))).filter (fun t => nameMatches n t.2.1.name))[j]? = some t →
      ∃ s, (l.filter (fun t => nameMatches n t.2.1.name))[j]? = some s ∧ t = (k s.1, s.2) := by
    intro l k j t h
    rw [List.filter_map, List.getElem?_map] at h
    change Option.map _ (l.filter (fun t => nameMatches n t.2.1.name))[j]? = _ at h
    cases hs : (l.filter (fun t => nameMatches n t.2.1.name))[j]? with
    | none => rw [hs] at h; simp at h
    | some s => rw [hs] at h; simp only [Option.map_some, Option.some.injEq] at h; exact ⟨s, rfl, h.symm⟩
  have head : ∀ {e : El} {a : Forest} {k : Forest → Forest} {l : List (Forest × El × Forest)} {j : Nat} {t : Forest × El × Forest},
      (∀ {j : Nat} {t : Forest × El × Forest}, (l.filter (fun t => nameMatches n t.2.1.name))[j]? = some t → (t.1.info.named n).length = j) →
      (∀ f, (k f).info.named n = if nameMatches n e.name then e.node :: f.info.named n else f.info.named n) →
      (((.nil, e, a) :: l.map (fun t => (k t.1, t.2))).filter (fun t => nameMatches n t.2.1.name))[j]? = some t → (t.1.info.named n).length = j := by
    intro e a k l j t ih hk h
    rw [List.filter_cons] at h
    by_cases hmn : nameMatches n e.name = true
    · rw [if_pos hmn] at h
      cases j with
      | zero => simp only [List.getElem?_cons_zero, Option.some.injEq] at h; subst h; rfl
      | succ j =>
        rw [List.getElem?_cons_succ] at h
        obtain ⟨s, hs, rfl⟩ := push h
        rw [hk, if_pos hmn, List.length_cons, ih hs]
    · rw [if_neg hmn] at h
      obtain ⟨s, hs, rfl⟩ := push h
      rw [hk, if_neg hmn, ih hs]
  induction f generalizing j t with
  | nil => simp [tops] at h
  | text b next ih => obtain ⟨s, hs, rfl⟩ := push (k := Forest.text b) h; exact (ih hs :)
  | misc m next ih => obtain ⟨s, hs, rfl⟩ := push (k := Forest.misc m) h; exact (ih hs :)
  | leaf nm as ws next ih =>
    refine head (k := Forest.leaf nm as ws) (fun h => ih h) (fun f => ?_) h
    simp only [Info.named, Forest.info, Info.elems, List.filter_cons, El.node]
  | node nm as ws kk cws next _ ih =>
    refine head (k := Forest.node nm as ws kk cws) (fun h => ih h) (fun f => ?_) h
    simp only [Info.named, Forest.info, Info.elems, List.filter_cons, El.node]

/-! ### what the scan knows about each element -/

/-- The scanned element `e` is the element `t.2.1`, with its positions counted from the end of the data. -/
structure Placed (e : Elem) (t : Forest × El × Forest) : Prop where
  name : e.name = t.2.1.name
  attrs : e.attrs.Perm (attrMap t.2.1.attrs)
  self : e.selfClosing = t.2.1.body.isNone
  start : e.startLen = t.2.1.render.length + t.2.2.render.length
  opn : e.openLen = t.2.1.inner.length + t.2.1.stop.length + t.2.2.render.length
  fin : e.endLen = t.2.2.render.length
  none : t.2.1.body = none → e.content = []
  some : ∀ k cws, t.2.1.body = some (k, cws) → cws = [] ∧ ∃ k' d, Twin k k' ∧ k'.Legal d ∧ k'.Tame false ∧ e.content = k'.render

theorem placed_push (k : Forest → Forest) {es : List Elem} {l : List (Forest × El × Forest)} (h : All2 Placed es l) :
    All2 Placed es (l.map (fun t => (k t.1, t.2))) := by
  induction h with
  | nil => exact .nil
  | cons h _ ih => exact .cons ⟨h.1, h.2, h.3, h.4, h.5, h.6, h.7, h.8⟩ ih

theorem topElems_placed {o : Ord} (ho : o.IsPerm) {f g : Forest} {d : Nat} {top : Bool} (hs : Sim f g) (hl : g.Legal d) (ht : g.Tame top) :
    All2 Placed (topElems o g.render) (tops f) := by
  induction hs with
  | nil => rw [Forest.render, topElems_none (by simp [skipToNext])]; exact .nil
  | text _ ih =>
    obtain ⟨hb, -, hl⟩ := hl
    rw [Forest.render, topElems_skip (skipToNext_text hb _)]
    exact placed_push _ (ih hl ht)
  | @misc m f g _ ih =>
    obtain ⟨hm, hl⟩ := hl
    obtain ⟨hi, ht⟩ := ht
    have hout : m.Outer := by
      cases top
      · exact Misc.inner_outer (by simpa using hi)
      · simpa using hi
    rw [Forest.render, topElems_skip (skipToNext_outer hm hout _)]
    exact placed_push _ (ih hl ht)
  | @leaf n ws ws' as as' f g hlen hp hs ih =>
    obtain ⟨hn, ha, hws, -, hl⟩ := hl
    obtain ⟨-, ht⟩ := ht
    have e : (Forest.leaf n as' ws' g).render = openTag n as' ws' ++ c!"/" :: c!">" :: g.render := by simp [Forest.render]
    rw [e, topElems_some (skipToNext_open hn.tag as' ws' _), elemAt_self hn.tag ha.loose hws]
    refine .cons ⟨rfl, hp, rfl, ?_, ?_, ?_, fun _ => rfl, fun k cws h => by simp at h⟩
      (placed_push _ (ih hl ht))
    · simp [El.render, El.start, El.inner, El.stop, hs.length, hlen]; omega
    · simp [El.inner, El.stop, hs.length]
    · simp [hs.length]
  | @node n ws ws' as as' k k' f g hlen hp hk hs ih =>
    obtain ⟨hn, ha, hws, -, hlk, hcws, hl⟩ := hl
    obtain ⟨-, hlen2, htk, ht⟩ := ht
    obtain ⟨g2, h1, h2, h3, h4, h6, h5⟩ := elemAt_open ho (r := g.render) hn.tag ha.loose hws hlk.loose htk (EndTail.ws hcws) hlen2
    have hkl : k'.render.length = k.render.length := hk.elim (fun e => by rw [e.1]) Twin.length
    have hk2 : Twin k g2 := by
      rcases hk with ⟨rfl, hk⟩ | hk
      · exact twin_of_even hk h6
      · exact hk.trans (twin_of_even hk.even h6)
    have e : (Forest.node n as' ws' k' [] g).render =
        openTag n as' ws' ++ c!">" :: (k'.render ++ (closeTag n [] ++ g.render)) := by simp [Forest.render]
    rw [e, topElems_some (skipToNext_open hn.tag as' ws' _), h5]
    refine .cons ⟨rfl, hp, rfl, ?_, ?_, ?_, fun h => by simp at h, fun k1 cws h => ?_⟩
      (placed_push _ (ih hl ht))
    · simp [El.render, El.start, El.inner, El.stop, hs.length, hlen, hkl]; omega
    · simp [El.inner, El.stop, hs.length, hkl]; omega
    · simp [hs.length]
    · simp only [Option.some.injEq, Prod.mk.injEq] at h
      obtain ⟨rfl, rfl⟩ := h
      exact ⟨rfl, g2, _, hk2, h2.2 _ hlk, h3, rfl⟩

/-! ### findElementLocation -/

/-- The segments of steps; whether a first index is written is irrelevant. -/
inductive StepSegs : List Step → List Seg → Prop where
  | nil : StepSegs [] []
  | name {n : Bytes} {ps : List Step} {ss : List Seg} (h : StepSegs ps ss) : StepSegs ((n, 0) :: ps) (nameSeg n :: ss)
  | index {n : Bytes} {j : Nat} {ps : List Step} {ss : List Seg} (h : StepSegs ps ss) :
      StepSegs ((n, j) :: ps) (nameSeg n :: ⟨.index j, []⟩ :: ss)

/-- The location points at the element `e` with `b` bytes before it. -/
structure LocOK (l : Loc) (b : Int) (e : El) : Prop where
  start : l.startPos = b
  cstart : l.contentStart = b + e.start.length
  cend : l.contentEnd = b + e.start.length + e.inner.length
  tend : l.endTagPos = b + e.start.length + e.inner.length
  name : l.name = e.name
  attrs : l.attrs.Perm (attrMap e.attrs)
  self : l.selfClosing = e.body.isNone

theorem El.render_length (e : El) : e.render.length = e.start.length + e.inner.length + e.stop.length := by
  simp [El.render]; omega

theorem locOf_ok {data : Bytes} {base : Int} {e : Elem} {t : Forest × El × Forest} (h : Placed e t)
    (hd : data.length = t.1.render.length + t.2.1.render.length + t.2.2.render.length) :
    LocOK (locOf data base e) (base + t.1.render.length) t.2.1 := by
  have h1 := h.start
  have h2 := h.opn
  have h3 := h.fin
  have h4 := h.self
  have h5 := El.render_length t.2.1
  have h6 : t.2.1.body.isNone = false → t.2.1.stop.length = e.name.length + 3 := by
    intro hb
    cases hbd : t.2.1.body with
    | none => rw [hbd] at hb; simp at hb
    | some p =>
      obtain ⟨k, cws⟩ := p
      obtain ⟨rfl, -⟩ := h.some k cws hbd
      rw [h.name]; simp [El.stop, hbd, closeTag]
  have h7 : t.2.1.body.isNone = true → t.2.1.stop.length = 0 ∧ t.2.1.inner.length = 0 := by
    intro hb
    cases hbd : t.2.1.body with
    | none => simp [El.stop, El.inner, hbd]
    | some p => rw [hbd] at hb; simp at hb
  constructor
  · simp only [locOf]; omega
  · simp only [locOf]; omega
  · simp only [locOf]
    cases hs : e.selfClosing with
    | true => have := h7 (h4.symm.trans hs); simp only [if_true]; omega
    | false => have := h6 (h4.symm.trans hs); simp only [Bool.false_eq_true, if_false]; omega
  · simp only [locOf]
    cases hs : e.selfClosing with
    | true => have := h7 (h4.symm.trans hs); simp only [if_true]; omega
    | false => have := h6 (h4.symm.trans hs); simp only [Bool.false_eq_true, if_false]; omega
  · exact h.name
  · exact h.attrs
  · exact h4

theorem matchesOpt_true (n x : Bytes) : (nameSeg n).matchesOpt x true = nameMatches n x := by
  simp [Seg.matchesOpt, nameSeg, nameMatchesOpt, nameMatches]

/-- What one step of findElementLocation does, whichever way the index is written. -/
theorem findLoc_step (o : Ord) {n : Bytes} {j : Nat} {ps : List Step} {ss : List Seg} (h : StepSegs ((n, j) :: ps) ss) :
    ∃ ss', StepSegs ps ss' ∧ ∀ (data : Bytes) (base : Int), base ≤ maxPositionOffset →
      findLoc o true ss data base =
        match ((topElems o data).filter (fun e => nameMatches n e.name))[j]? with
        | none => none
        | some e => if ps = [] then some (locOf data base e)
            else if offsetOk data base e then findLoc o true ss' e.content (base + ((data.length : Int) - e.openLen)) else none := by
  cases h with
  | @name _ _ ss' h =>
    refine ⟨ss', h, fun data base hb => ?_⟩
    rw [findLoc, if_neg (by omega)]
    simp only [matchesOpt_true]
    cases h with
    | nil =>
      cases ((topElems o data).filter (fun e => nameMatches n e.name)) <;> rfl
    | name h =>
      simp only [nameSeg, reduceCtorEq, if_false]
      cases ((topElems o data).filter (fun e => nameMatches n e.name)) <;> rfl
    | index h =>
      simp only [nameSeg, reduceCtorEq, if_false]
      cases ((topElems o data).filter (fun e => nameMatches n e.name)) <;> rfl
  | @index _ _ _ ss' h =>
    refine ⟨ss', h, fun data base hb => ?_⟩
    rw [findLoc, if_neg (by omega)]
    simp only [matchesOpt_true]
    rw [if_neg (by omega)]
    simp only [Int.toNat_natCast]
    cases ((topElems o data).filter (fun e => nameMatches n e.name))[j]? with
    | none => rfl
    | some e => cases h <;> simp

theorem All2.get_some {α β : Type} {R : α → β → Prop} {as : List α} {bs : List β} (h : All2 R as bs) {i : Nat} {b : β} (hb : bs[i]? = some b) :
    ∃ a, as[i]? = some a ∧ R a b := by
  induction h generalizing i with
  | nil => simp at hb
  | cons hab _ ih =>
    cases i with
    | zero => simp only [List.getElem?_cons_zero, Option.some.injEq] at hb ⊢; subst hb; exact ⟨_, rfl, hab⟩
    | succ i => simp only [List.getElem?_cons_succ] at hb ⊢; exact ih hb

theorem All2.get_some_left {α β : Type} {R : α → β → Prop} {as : List α} {bs : List β} (h : All2 R as bs) {i : Nat} {a : α} (ha : as[i]? = some a) :
    ∃ b, bs[i]? = some b ∧ R a b := by
  induction h generalizing i with
  | nil => simp at ha
  | cons hab _ ih =>
    cases i with
    | zero => simp only [List.getElem?_cons_zero, Option.some.injEq] at ha ⊢; subst ha; exact ⟨_, rfl, hab⟩
    | succ i => simp only [List.getElem?_cons_succ] at ha ⊢; exact ih ha

theorem placed_filter {es : List Elem} {l : List (Forest × El × Forest)} (h : All2 Placed es l) (n : Bytes) :
    All2 Placed (es.filter (fun e => nameMatches n e.name)) (l.filter (fun t => nameMatches n t.2.1.name)) :=
  h.filter (fun _ _ hr => by rw [hr.name])

theorem maxPos : maxPositionOffset = 1073741823 := rfl

/-- The location found is that of the element the path leads to. -/
theorem findLoc_leads {o : Ord} (ho : o.IsPerm) {ps : List Step} {ss : List Seg} (hss : StepSegs ps ss) {c : Ctx} {e : El}
    (hL : Leads ps c e.name) {f g : Forest} {d : Nat} {top : Bool} (hf : f = c.plug (e.cons .nil)) (hs : Sim f g) (hl : g.Legal d) (ht : g.Tame top)
    {base : Int} (hb0 : 0 ≤ base) (hb : base + f.render.length ≤ maxPositionOffset) :
    ∃ l, findLoc o true ss g.render base = some l ∧ LocOK l (base + c.before.length) e := by
  induction ps generalizing ss c f g d top base with
  | nil => simp [Leads] at hL
  | cons p ps ih =>
    obtain ⟨n, j⟩ := p
    obtain ⟨ss', hss', hstep⟩ := findLoc_step o hss
    rw [hstep g.render base (by omega)]
    have hpl := placed_filter (topElems_placed ho hs hl ht) n
    cases c with
    | here b a =>
      cases ps with
      | cons => simp [Leads] at hL
      | nil =>
        obtain ⟨hn, rfl⟩ := hL
        have hf' : f = b.append (e.cons a) := by rw [hf, Ctx.plug, cons_append]; rfl
        have := tops_get b e a hn
        rw [← hf'] at this
        obtain ⟨m, hm, hP⟩ := hpl.get_some this
        rw [hm]
        refine ⟨_, rfl, ?_⟩
        exact locOf_ok hP (by rw [hs.length, hf', append_render, cons_render]; simp; omega)
    | within b nm as ws c cws a =>
      cases ps with
      | nil => simp [Leads] at hL
      | cons p2 ps =>
        obtain ⟨hn, rfl, hL⟩ := hL
        have hf' : f = b.append ((⟨nm, as, ws, some (c.plug (e.cons .nil), cws)⟩ : El).cons a) := by rw [hf, Ctx.plug]; rfl
        have := tops_get b ⟨nm, as, ws, some (c.plug (e.cons .nil), cws)⟩ a hn
        rw [← hf'] at this
        obtain ⟨m, hm, hP⟩ := hpl.get_some this
        rw [hm]
        obtain ⟨rfl, k', d', htw, hl', ht', hcont⟩ := hP.some _ _ rfl
        have hopen := hP.opn
        simp only [El.inner, El.stop] at hopen
        have hlen : g.render.length = b.render.length + (openTag nm as ws).length + 1 + m.openLen := by
          rw [hs.length, hf', append_render, cons_render, hopen]
          simp [El.render, El.start, El.inner, El.stop]; omega
        have hbase : base + ((g.render.length : Int) - m.openLen) = base + (b.render.length + (openTag nm as ws).length + 1) := by omega
        simp only [reduceCtorEq, if_false]
        have hsz := hs.length
        rw [if_pos, hcont, hbase]
        · obtain ⟨l, hl1, hl2⟩ := ih (base := base + (b.render.length + (openTag nm as ws).length + 1)) hss' hL rfl htw.sim hl' ht' (by omega) (by omega)
          refine ⟨l, hl1, ?_⟩
          have e2 : base + ((Ctx.within b nm as ws c [] a).before.length : Int) = base + (b.render.length + (openTag nm as ws).length + 1) + c.before.length := by
            simp [Ctx.before]; omega
          rw [e2]; exact hl2
        · simp only [offsetOk, Bool.not_eq_true', Bool.or_eq_false_iff, decide_eq_false_iff_not]
          omega

/-- No location is found if the path leads nowhere. -/
theorem findLoc_none {o : Ord} (ho : o.IsPerm) {ps : List Step} {ss : List Seg} (hss : StepSegs ps ss) {f g : Forest} {d : Nat} {top : Bool}
    (hs : Sim f g) (hl : g.Legal d) (ht : g.Tame top) {base : Int} (hb : base ≤ maxPositionOffset)
    (hno : ∀ c e, f = c.plug (El.cons e .nil) → ¬ Leads ps c e.name) : findLoc o true ss g.render base = none := by
  induction ps generalizing ss f g d top base with
  | nil => cases hss; rfl
  | cons p ps ih =>
    obtain ⟨n, j⟩ := p
    obtain ⟨ss', hss', hstep⟩ := findLoc_step o hss
    rw [hstep g.render base hb]
    have hpl := placed_filter (topElems_placed ho hs hl ht) n
    cases hm : ((topElems o g.render).filter (fun e => nameMatches n e.name))[j]? with
    | none => rfl
    | some m =>
      obtain ⟨⟨b, e, a⟩, ht1, hP⟩ := hpl.get_some_left hm
      obtain ⟨hf, hn, hj⟩ := tops_count ht1
      simp only at hf hn hj
      cases ps with
      | nil =>
        exfalso
        exact hno (.here b a) e (by rw [hf, Ctx.plug, cons_append]; rfl) ⟨hn, hj⟩
      | cons p2 ps =>
        simp only [reduceCtorEq, if_false]
        split
        · rename_i hoff
          cases hbd : e.body with
          | none =>
            rw [hP.none hbd]
            refine ih (f := .nil) (g := .nil) (d := 0) (top := true) hss' .nil trivial trivial ?_ ?_
            · simp only [offsetOk, Bool.not_eq_true', Bool.or_eq_false_iff, decide_eq_false_iff_not] at hoff
              omega
            · intro c x hk
              exfalso
              have hk := congrArg Forest.render hk
              rw [plug_render, cons_render] at hk
              have := congrArg List.length hk
              simp [Forest.render, El.render, El.start, openTag] at this
          | some q =>
            obtain ⟨k, cws⟩ := q
            obtain ⟨rfl, k', d', htw, hl', ht', hcont⟩ := hP.some k cws hbd
            rw [hcont]
            refine ih hss' htw.sim hl' ht' ?_ ?_
            · simp only [offsetOk, Bool.not_eq_true', Bool.or_eq_false_iff, decide_eq_false_iff_not] at hoff
              omega
            · intro c x hk hL
              refine hno (.within b e.name e.attrs e.ws c [] a) x ?_ ⟨hn, hj, hL⟩
              rw [hf, Ctx.plug, ← hk, El.cons, hbd]
        · rfl

end Verif
