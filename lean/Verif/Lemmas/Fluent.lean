import Verif.Lemmas.Map
import Verif.Lemmas.Fold
/- Queries on the content of a result. -/
namespace Verif
open Spec

theorem legal_lower {f : Forest} : ∀ {d k : Nat}, f.Legal (d + k + 1) → f.Legal (d + 1) := by
  induction f with
  | nil => intros; trivial
  | text b next ih => intro d k h; exact ⟨h.1, by omega, ih h.2.2⟩
  | misc m next ih => intro d k h; exact ⟨h.1, ih h.2⟩
  | leaf n as ws next ih => intro d k h; exact ⟨h.1, h.2.1, h.2.2.1, by have := h.2.2.2.1; omega, ih h.2.2.2.2⟩
  | node n as ws kids cws next ihk ih =>
    intro d k h
    obtain ⟨h1, h2, h3, h4, h5, h6, h7⟩ := h
    exact ⟨h1, h2, h3, by omega, ihk (k := k) (by rw [show d + 1 + k + 1 = d + k + 1 + 1 by omega]; exact h5), h6, ih h7⟩

theorem wrap_name : IsName b!"_xmldot_root" := by
  refine ⟨⟨_, _, rfl, Or.inr (Or.inl rfl)⟩, ?_, by decide⟩
  unfold NameChar NameStart Letter; decide

theorem wrap_plain : PlainName b!"_xmldot_root" :=
  ⟨by decide, by decide, by decide, by decide, by decide, by decide, by decide, c!"_", by decide, by decide⟩

/-- The wrapped content reads as one element with that content. -/
theorem wrap_reads {o : Ord} (ho : o.IsPerm) {c : Bytes} {i : Info} (h : Writes c i) :
    Reads o (b!"<_xmldot_root>" ++ c ++ b!"</_xmldot_root>") (.elem b!"_xmldot_root" (attrVal []) i .nil) := by
  obtain ⟨f, -, hl, ht, rfl, rfl⟩ := h
  obtain ⟨g, h1, h2, h3, h4, h5⟩ := contentLoop_wrap (o := o) ho hl ht wrap_name.tag []
  have e : b!"<_xmldot_root>" ++ f.render ++ b!"</_xmldot_root>" =
      openTag b!"_xmldot_root" [] [] ++ c!">" :: (f.render ++ (closeTag b!"_xmldot_root" [] ++ [])) := by
    simp [openTag, closeTag]
  obtain ⟨x, y, z, h6⟩ := elemAt_whole wrap_name.tag (as := []) (ws := []) ⟨by simp, by simp, by simp⟩ (by simp) h5
  unfold Reads
  rw [e, topElems_some (skipToNext_open wrap_name.tag [] [] _), h6]
  simp only [topElems_empty, Info.elems]
  exact .cons ⟨rfl, fun k => attrMap_get [] k, ⟨g, h1, h2, h3, h4, rfl⟩, fun h => by simp at h, attrMap_uniq []⟩ .nil

theorem wrap_path (m : Bytes) (ms : List Bytes) : b!"_xmldot_root." ++ pathOf (m :: ms) = pathOf (b!"_xmldot_root" :: m :: ms) := by
  simp only [pathOf, List.map_cons, joinDots]
  rfl

theorem wrap_matches (m : Bytes) (a : Bytes → Option Bytes) (i : Info) (h : nameMatches b!"_xmldot_root" m = true) :
    (Info.elem m a i .nil).named b!"_xmldot_root" = [⟨m, a, i⟩] := by
  simp [Info.named, Info.elems, h]

theorem wrap_reach (i : Info) (pre : List Bytes) :
    (Info.elem b!"_xmldot_root" (attrVal []) i .nil).reach (b!"_xmldot_root" :: pre) = i.reach pre := by
  rw [Info.reach, wrap_matches _ _ _ (by decide +kernel)]
  simp

/-- Get on the content of an element: the path is followed from the element, whether or not the content is wrapped. -/
theorem getFromRaw_path {α : Type} {Q : Result → α → Prop} {g : Info → Option α} (env : Env) (ho : env.ord.IsPerm)
    {c : Bytes} {i : Info} (h : Writes c i) (hlen : c.length + 29 ≤ 10485760) (pre : List Bytes) (n : Bytes) (parts : List Bytes) (hp : ∀ m ∈ pre ++ [n], PlainName m)
    (hl : pre.length + 2 + parts.length ≤ 100) (ss : List Seg) (hs : parseParts parts = .ok ss)
    (hg : ∀ root, (pre ≠ [] → root = false) → ∀ c k, Reads env.ord c k → Yields Q (execQ env (evalFilter env) (nameSeg n :: fuseFields ss) root c) (g k)) :
    ∃ r, getFromRaw env c (pathOf (pre ++ [n] ++ parts)) = .ret r ∧ Yields Q r ((i.reach pre).findSome? g) := by
  unfold getFromRaw
  split
  · obtain ⟨r, h1, h2⟩ := get_path_reads (Q := Q) (g := g) env ho (xml := b!"<_xmldot_root>" ++ c ++ b!"</_xmldot_root>") (by simp; omega) (wrap_reads ho h)
      (b!"_xmldot_root" :: pre) n parts (by
        intro m hm
        rcases List.mem_cons.mp (show m ∈ b!"_xmldot_root" :: (pre ++ [n]) from hm) with rfl | hm
        · exact wrap_plain
        · exact hp m hm) (by simp; omega) ss hs (fun c k hc => hg false (fun _ => rfl) c k hc)
    rw [wrap_reach] at h2
    refine ⟨r, ?_, h2⟩
    obtain ⟨m, ms, hm⟩ : ∃ m ms, pre ++ [n] ++ parts = m :: ms := by cases pre <;> simp
    have e : (b!"_xmldot_root" :: pre) ++ [n] ++ parts = b!"_xmldot_root" :: m :: ms := by rw [← hm]; rfl
    rw [hm, wrap_path, ← h1, e]
  · exact get_path_reads env ho (by omega) (writes_reads ho h) pre n parts hp (by omega) ss hs
      (fun c k hc => hg pre.isEmpty (fun hne => by cases pre <;> simp_all) c k hc)

theorem wrap_reachFold (i : Info) (pre : List Bytes) :
    (Info.elem b!"_xmldot_root" (attrVal []) i .nil).reachFold (b!"_xmldot_root" :: pre) = i.reachFold pre := by
  rw [Info.reachFold]
  simp only [Info.namedFold, Info.elems, List.filter_cons, List.filter_nil]
  rw [if_pos (by decide +kernel)]
  simp

/-- GetWithOptions without case, on the content of an element. -/
theorem getFromRawOpt_path {α : Type} {Q : Result → α → Prop} {g : Info → Option α} (env : Env) (ho : env.ord.IsPerm) {opts : Options} (hc : opts.caseSensitive = false)
    {c : Bytes} {i : Info} (h : Writes c i) (hlen : c.length + 29 ≤ 10485760) (pre : List Bytes) (n : Bytes) (parts : List Bytes) (hp : ∀ m ∈ pre ++ [n], PlainName m)
    (hl : pre.length + 2 + parts.length ≤ 100) (ss : List Seg) (hs : parseParts parts = .ok ss)
    (hg : ∀ root, (pre ≠ [] → root = false) → ∀ c k, Reads env.ord c k → Yields Q (execQOpt env (evalFilter env) false (lowName n :: (fuseFields ss).map lowerSeg) root c) (g k)) :
    ∃ r, getFromRawOpt env c (pathOf (pre ++ [n] ++ parts)) (some opts) = .ret r ∧ Yields Q r ((i.reachFold pre).findSome? g) := by
  unfold getFromRawOpt
  split
  · obtain ⟨r, h1, h2⟩ := getOpt_path_reads (Q := Q) (g := g) env ho hc (xml := b!"<_xmldot_root>" ++ c ++ b!"</_xmldot_root>") (by simp; omega) (wrap_reads ho h)
      (b!"_xmldot_root" :: pre) n parts (by
        intro m hm
        rcases List.mem_cons.mp (show m ∈ b!"_xmldot_root" :: (pre ++ [n]) from hm) with rfl | hm
        · exact wrap_plain
        · exact hp m hm) (by simp; omega) ss hs (fun c k hc => hg false (fun _ => rfl) c k hc)
    rw [wrap_reachFold] at h2
    refine ⟨r, ?_, h2⟩
    obtain ⟨m, ms, hm⟩ : ∃ m ms, pre ++ [n] ++ parts = m :: ms := by cases pre <;> simp
    have e : (b!"_xmldot_root" :: pre) ++ [n] ++ parts = b!"_xmldot_root" :: m :: ms := by rw [← hm]; rfl
    rw [hm, wrap_path, ← h1, e]
  · exact getOpt_path_reads env ho hc (by omega) (writes_reads ho h) pre n parts hp (by omega) ss hs
      (fun c k hc => hg pre.isEmpty (fun hne => by cases pre <;> simp_all) c k hc)

/-- What Get finds with a path of names, with its Raw written the canonical way. -/
theorem get_elementW (env : Env) (ho : env.ord.IsPerm) {xml : Bytes} {i : Info} (h : Says xml i) {pre : List Bytes} {n : Bytes}
    (hp : ∀ m ∈ pre ++ [n], PlainName m) (hl : pre.length < 100) {nd : Node} (hnd : (i.select pre n).head? = some nd) {r : Result}
    (hr : get env xml (pathOf (pre ++ [n])) = .ret r) : IsElementW r nd := by
  obtain ⟨r', h1, h2⟩ := get_path (Q := IsElementW) (g := fun k => (k.named n).head?) env ho h pre n [] hp (by simp; omega) [] rfl
    (fun c k hc => step_elem env _ n _ hc)
  rw [List.append_nil] at h1
  rw [Info.select, List.head?_flatMap] at hnd
  rw [hnd] at h2
  rw [hr] at h1
  cases h1
  exact h2.2

theorem Result.get_element (env : Env) (path : Bytes) {r : Result} (h : r.typ = .element) : r.get env path = getFromRaw env r.raw path := by
  obtain ⟨t, raw, s, n, l⟩ := r
  simp only [Result.typ] at h
  subst h
  rw [Result.get.eq_def]
  rfl

theorem Result.getWithOptions_element (env : Env) (path : Bytes) {opts : Option Options} (hd : isDefaultOptions opts = false) {r : Result} (h : r.typ = .element) :
    r.getWithOptions env path opts = getFromRawOpt env r.raw path opts := by
  obtain ⟨t, raw, s, n, l⟩ := r
  simp only [Result.typ] at h
  subst h
  rw [Result.getWithOptions.eq_def]
  simp [hd, Result.raw]

theorem Result.map_element (o : Ord) {r : Result} (h : r.typ = .element) : r.map o = parseMapChildren o id r.raw := by
  obtain ⟨t, raw, s, n, l⟩ := r
  simp only [Result.typ] at h
  subst h
  rw [Result.map.eq_def]
  rfl

theorem Result.mapWithOptions_element (o : Ord) (lower : Bytes → Bytes) {opts : Option Options} (hd : isDefaultOptions opts = false) {r : Result} (h : r.typ = .element) :
    r.mapWithOptions o lower opts = parseMapChildren o (if (opts.getD defaultOptions).caseSensitive then id else lower) r.raw := by
  obtain ⟨t, raw, s, n, l⟩ := r
  simp only [Result.typ] at h
  subst h
  rw [Result.mapWithOptions.eq_def]
  simp [hd, Result.raw]

theorem reach_append (i : Info) (a b : List Bytes) : i.reach (a ++ b) = (i.reach a).flatMap (fun k => k.reach b) := by
  induction a generalizing i with
  | nil => simp [Info.reach]
  | cons n a ih => simp only [List.cons_append, Info.reach, List.flatMap_assoc, ih]

theorem select_append (i : Info) (pre : List Bytes) (n : Bytes) (qs : List Bytes) (q : Bytes) :
    i.select (pre ++ [n] ++ qs) q = (i.select pre n).flatMap (fun nd => nd.kids.select qs q) := by
  simp only [Info.select, reach_append, List.flatMap_assoc, Info.reach, List.flatMap_cons, List.flatMap_nil, List.append_nil]

end Verif
