import Verif.Lemmas.Slots
import Verif.Lemmas.TripOpt
import Verif.Lemmas.AttrOpt
/- Attributes of elements that are created for them. -/
namespace Verif
open Spec

theorem chainFCtx_any (ind : Bytes) (d : Nat) (b : Forest) (ns : List Bytes) (n : Bytes) (X : Forest) :
    ((chainFCtx ind d b (ns ++ [n])).plug X).render = b.render ++ slotLines ind d (ns.map some) (newLine ind (d + ns.length) ++ X.render) := by
  induction ns generalizing d b with
  | nil => simp [chainFCtx, Ctx.plug, slotLines, append_render, Forest.render]
  | cons m ns ih =>
    have e : ∃ p q, ns ++ [n] = p :: q := by cases ns <;> simp
    obtain ⟨p, q, e⟩ := e
    rw [List.cons_append, e, chainFCtx, ← e, Ctx.plug, append_render, append_render]
    simp only [Forest.render, ih, List.map_cons, slotLines, List.length_cons]
    rw [show d + 1 + ns.length = d + (ns.length + 1) by omega]
    simp [openTag, closeTag]

theorem reach_down {cs : Bool} {hs ht : List Hop} {c c2 : Ctx} {n x : Bytes} {as : List Attr} {ws cws : Bytes} (h1 : Reach cs hs c n) (h2 : Reach cs ht c2 x) :
    Reach cs (hs ++ ht) (down c n as ws cws c2) x := by
  induction hs generalizing c with
  | nil => simp [Reach] at h1
  | cons p ps ih =>
    obtain ⟨k, j⟩ := p
    cases c with
    | here b a =>
      cases ps with
      | nil =>
        cases ht with
        | nil => cases c2 <;> simp [Reach] at h2
        | cons q ht => exact ⟨h1.1, h1.2, h2⟩
      | cons q ps => simp [Reach] at h1
    | within b m as' ws' c cws' a =>
      cases ps with
      | nil => cases c <;> simp [Reach] at h1
      | cons q ps => exact ⟨h1.1, h1.2.1, ih h1.2.2⟩

theorem count_text (cs : Bool) (b : Forest) (t : Bytes) (k : Pick) : (b.append (.text t .nil)).info.count cs k = b.info.count cs k := by
  have h : (b.append (.text t .nil)).info.elems = b.info.elems := by
    induction b with
    | nil => rfl
    | _ => simp_all [Forest.append, Forest.info, Info.elems]
  rw [Info.count, h, Info.count]

theorem chainFCtx_reach (cs : Bool) (ind : Bytes) (d : Nat) {b : Forest} {ns : List Bytes} {n : Bytes} (h : b.info.count cs (.name ((ns ++ [n]).head (by simp))) = 0) :
    Reach cs ((ns ++ [n]).map fun m => (Pick.name m, 0)) (chainFCtx ind d b ((ns ++ [n]).map (spelling cs))) (spelling cs n) := by
  induction ns generalizing b d with
  | nil => exact ⟨agrees_spelled cs n, by rw [count_text]; simpa using h⟩
  | cons m ns ih =>
    have e : ∃ p q, ns ++ [n] = p :: q := by cases ns <;> simp
    obtain ⟨p, q, e⟩ := e
    have ih := ih (d := d + 1) (b := .nil) rfl
    rw [e] at ih
    simp only [List.cons_append, e, List.map_cons, chainFCtx]
    exact ⟨agrees_spelled cs m, by rw [count_text]; simpa using h, ih⟩

/-- The text that an attribute of new elements gives. -/
theorem setElement_newAttr {o : Ord} (ho : o.IsPerm) {ind : Bytes} (hind : c!"<" ∉ ind) {cs : Bool} {c : Ctx} {e : El} (h : Editable (c.plug (e.cons .nil))) {hs : List Hop} {ss r : List Seg}
    (h1 : HopSegs cs hs ss) (r1 : Reach cs hs c e.name) {ns : List Bytes} {n : Bytes} (hr : HopSegs cs ((ns ++ [n]).map fun m => (Pick.name m, 0)) r)
    (hsl : r.map Seg.slot = (ns ++ [n]).map fun m => some (spelling cs m)) (hm : e.kids.info.count cs (.name ((ns ++ [n]).head (by simp))) = 0)
    (hnm : ∀ m ∈ ns ++ [n], IsName m) (hd : c.depth + 1 + (ns.length + 1) ≤ 100) (hn : ∀ t, 0 < t → findLoc o cs (ss ++ r.take t) (c.plug (e.cons .nil)).render 0 = none)
    {t : Seg} {k : Bytes} (ht : t.kind = .attr k) :
    ∃ as ws, Opened e as ws ∧ ∀ (v : GoVal) (w : Bytes), valueToXML v = some w → w.length ≤ 5242880 →
      setElement o cs ind (c.plug (e.cons .nil)).render (ss ++ r ++ [t]) v =
        if (c.before ++ (openTag e.name as ws ++ b!">" ++ e.inner ++ slotLines ind 0 ((ns ++ [n]).map fun m => some (spelling cs m)) [] ++ closeTag e.name []) ++ c.after).length > 10485760 then .err .malformed
        else .ok (c.before ++ (openTag e.name as ws ++ b!">" ++ e.inner ++ slotLines ind 0 (ns.map fun m => some (spelling cs m))
          (newLine ind ns.length ++ (b!"<" ++ spelling cs n ++ b!" " ++ k ++ b!"=\"" ++ w ++ b!"\"></" ++ spelling cs n ++ b!">")) ++ closeTag e.name []) ++ c.after) := by
  have hsnd := editable_sound h
  have h0 : hs ≠ [] := by rintro rfl; simp [Reach] at r1
  have hpl := hopSegs_plainly h1 h0
  have hplr := hopSegs_plainly hr (by simp)
  have hin : indexIntent r = none := by have := hplr.intent []; rwa [List.append_nil] at this
  obtain ⟨as, ws, ho1, ho2⟩ := setElement_slots ho ind h h1 r1 hplr.ne hn hin (fun s a hs => hplr.last s a hs)
  refine ⟨as, ws, ho1, fun v w hv hw => ?_⟩
  have hset := ho2 (.str []) [] rfl (by simp)
  rw [hsl] at hset
  have hd0 := docMax
  have hnr : findLoc o cs (ss ++ r) (c.plug (e.cons .nil)).render 0 = none := by
    have := hn r.length (List.length_pos_iff.mpr hplr.ne)
    rwa [List.take_length] at this
  have hints : indexIntent (ss ++ r) = none := by rw [hpl.intent, hin]
  have hintt : indexIntent (ss ++ r ++ [t]) = none := by
    rw [List.append_assoc, hpl.intent, hplr.intent]
    simp [indexIntent, ht]
  generalize hM : c.before ++ (openTag e.name as ws ++ b!">" ++ e.inner ++ slotLines ind 0 ((ns ++ [n]).map fun m => some (spelling cs m)) [] ++ closeTag e.name []) ++ c.after = M at hset ⊢
  have hcr : createElement o cs ind (c.plug (e.cons .nil)).render (ss ++ r) [] = .ok M := by
    rw [← hset]
    unfold setElement
    cases hz : (ss ++ r).getLast? with
    | none => have := List.getLast?_eq_none_iff.mp hz; simp [hplr.ne] at this
    | some z =>
      simp only [valueToXML, escapeXML, hints]
      rw [if_neg (by simp), if_neg (by have := h.1; omega), hnr]
      cases hk1 : z.kind with
      | attr a =>
        obtain ⟨r', z', hr'⟩ : ∃ r' z', r = r' ++ [z'] := ⟨r.dropLast, r.getLast hplr.ne, (List.dropLast_concat_getLast _).symm⟩
        have hzz : z' = z := by rw [hr', ← List.append_assoc, List.getLast?_concat] at hz; injection hz
        exact absurd hk1 (hplr.last z a (by rw [hr', List.getLast?_concat, hzz]))
      | _ => rfl
  unfold setElement
  rw [List.getLast?_concat]
  simp only [hv, hintt, ht, List.dropLast_concat]
  rw [if_neg (by simp [maxValueSize]; omega), if_neg (by have := h.1; omega), hnr]
  simp only
  unfold createElementForAttribute
  rw [hcr]
  simp only
  have hMne : M ≠ [] := by rw [← hM]; simp
  have hg : getResult (c.plug (e.cons .nil)).render M = M := by unfold getResult; simp [hMne]
  rw [hg, hd0]
  by_cases hbig : M.length > 10485760
  · rw [if_pos hbig, if_pos hbig]
  rw [if_neg hbig, if_neg hbig]
  have hns : (ns ++ [n]).map (spelling cs) = ns.map (spelling cs) ++ [spelling cs n] := by simp
  have hrend : (chainF ind 0 ((ns ++ [n]).map (spelling cs)) (.text [] .nil)).render = slotLines ind 0 ((ns ++ [n]).map fun m => some (spelling cs m)) [] := by
    rw [chainF_render, ← slotLines_names, List.map_map]; simp [Function.comp_def]
  have hMr : c.before ++ (e.refill as ws (e.kids.append (chainF ind 0 ((ns ++ [n]).map (spelling cs)) (.text [] .nil)))).render ++ c.after = M := by
    rw [← hM, ← hrend]
    obtain ⟨nm, eas, ews, bd⟩ := e
    cases bd <;> simp [El.refill, El.render, El.start, El.inner, El.stop, El.kids, append_render, Forest.render]
  have hed := editable_createdB hind h (ns := (ns ++ [n]).map (spelling cs)) (by simp) (fun m hm => by
    obtain ⟨m', h1, rfl⟩ := List.mem_map.mp hm; exact spelling_name (hnm m' h1)) (by simpa using hd) (w := []) (by simp) ho1 (by rw [hMr]; omega)
  have hc2 : ∀ X : Forest, ((down c e.name as ws [] (chainFCtx ind 0 e.kids ((ns ++ [n]).map (spelling cs)))).plug X).render =
      c.before ++ (openTag e.name as ws ++ b!">" ++ e.inner ++ slotLines ind 0 (ns.map fun m => some (spelling cs m)) (newLine ind ns.length ++ X.render) ++ closeTag e.name []) ++ c.after := by
    intro X
    rw [down_plug, plug_render]
    simp only [Forest.render, hns, chainFCtx_any]
    obtain ⟨nm, eas, ews, bd⟩ := e
    cases bd <;> simp [El.inner, El.kids, Forest.render, Function.comp_def]
  have e1 : (down c e.name as ws [] (chainFCtx ind 0 e.kids ((ns ++ [n]).map (spelling cs)))).plug ((⟨spelling cs n, [], [], some (.text [] .nil, [])⟩ : El).cons .nil) =
      c.plug ((e.refill as ws (e.kids.append (chainF ind 0 ((ns ++ [n]).map (spelling cs)) (.text [] .nil)))).cons .nil) := by
    rw [down_plug, hns, chainFCtx_plug]; rfl
  rw [← e1] at hed
  have hMr2 : ((down c e.name as ws [] (chainFCtx ind 0 e.kids ((ns ++ [n]).map (spelling cs)))).plug ((⟨spelling cs n, [], [], some (.text [] .nil, [])⟩ : El).cons .nil)).render = M := by
    rw [e1, plug_el_render, ← hMr]; simp [El.render]
  obtain ⟨l, hl, hok⟩ := editable_goto ho hed cs
  have hfl := findLoc_goto (hopSegs_append h1 hr) (reach_down r1 (chainFCtx_reach cs ind 0 hm)) (sound_along ho (editable_sound hed)) fresh_nil 0
  rw [List.append_nil, hl, hMr2] at hfl
  rw [hfl]
  simp only
  have hat : l.attrs = [] := by have := hok.attrs; exact List.Perm.eq_nil this
  have hw2 : writeSorted cs l.attrs k w (attrNamesWith cs l.attrs k) = [(⟨b!" ", k, [], [], c!"\"", w⟩ : Attr)].flatMap Attr.render := by
    rw [hat]
    have hs1 : attrNamesWith cs [] k = [k] := by simp [attrNamesWith, sortNames, insertName]
    rw [hs1]
    simp [writeSorted, Attr.render, sameAttr]
  rw [← hMr2, replaceAttribute_atB hok k w _ hw2]
  congr 1
  have := hc2 ((El.retag ⟨spelling cs n, [], [], some (.text [] .nil, [])⟩ [⟨b!" ", k, [], [], c!"\"", w⟩]).cons .nil)
  rw [plug_render, cons_render] at this
  simp only [Forest.render, List.append_nil] at this
  rw [this]
  simp [El.retag, El.render, El.start, El.inner, El.stop, Forest.render, openTag, closeTag, Attr.render]

end Verif
