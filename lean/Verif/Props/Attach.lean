import Verif.Spec.Meaning
import Verif.Props.FirstAttr
/- Attributes of elements that are created with them, for C96. -/
namespace Verif.Props
open Verif Verif.Spec

/-- The beginning of a path is a path. -/
theorem parts_prefix {p : Bytes} {parts : List Bytes} (h : Parts p parts) : ∀ {pre post : List Bytes}, parts = pre ++ post → pre ≠ [] → ∃ q, Parts q pre := by
  induction h with
  | done | lone =>
    intro pre post e h0
    cases pre with
    | nil => exact absurd rfl h0
    | cons x pre =>
      simp only [List.cons_append, List.cons.injEq, List.nil_eq, List.append_eq_nil_iff] at e
      obtain ⟨rfl, rfl, -⟩ := e
      exact ⟨[], .done⟩
  | @dot r ps h ih =>
    intro pre post e h0
    cases pre with
    | nil => exact absurd rfl h0
    | cons x pre =>
      simp only [List.cons_append, List.cons.injEq] at e
      obtain ⟨rfl, e⟩ := e
      by_cases hp : pre = []
      · subst hp; exact ⟨[], .done⟩
      · obtain ⟨q, hq⟩ := ih e hp
        exact ⟨_, .dot hq⟩
  | @esc c r p ps h ih =>
    intro pre post e h0
    cases pre with
    | nil => exact absurd rfl h0
    | cons x pre =>
      simp only [List.cons_append, List.cons.injEq] at e
      obtain ⟨rfl, rfl⟩ := e
      obtain ⟨q, hq⟩ := ih (pre := p :: pre) (post := post) rfl (by simp)
      exact ⟨_, .esc c hq⟩
  | @plain c r p ps h1 h2 h ih =>
    intro pre post e h0
    cases pre with
    | nil => exact absurd rfl h0
    | cons x pre =>
      simp only [List.cons_append, List.cons.injEq] at e
      obtain ⟨rfl, rfl⟩ := e
      obtain ⟨q, hq⟩ := ih (pre := p :: pre) (post := post) rfl (by simp)
      exact ⟨_, .plain c h1 h2 hq⟩

theorem busy_prefix {parts ss : List Bytes} (h : Busy parts ss) : ∀ {a b : List Bytes}, ss = a ++ b → ∃ pre post, parts = pre ++ post ∧ Busy pre a := by
  induction h with
  | nil =>
    intro a b e
    obtain ⟨rfl, -⟩ := List.append_eq_nil_iff.mp e.symm
    exact ⟨[], [], rfl, .nil⟩
  | @idle p ps ss hp h ih =>
    intro a b e
    obtain ⟨pre, post, rfl, h2⟩ := ih e
    exact ⟨p :: pre, post, rfl, .idle hp h2⟩
  | @busy p ps ss hp h ih =>
    intro a b e
    cases a with
    | nil => exact ⟨[], p :: ps, rfl, .nil⟩
    | cons x a =>
      simp only [List.cons_append, List.cons.injEq] at e
      obtain ⟨rfl, e⟩ := e
      obtain ⟨pre, post, rfl, h2⟩ := ih e
      exact ⟨p :: pre, post, rfl, .busy hp h2⟩

theorem pathSteps_prefix {p : Bytes} {a b : List Bytes} (h : PathSteps p (a ++ b)) (h0 : a ≠ []) : ∃ q, PathSteps q a := by
  obtain ⟨parts, h1, h2, h3, h4⟩ := h
  obtain ⟨pre, post, rfl, h5⟩ := busy_prefix h4 rfl
  have hne : pre ≠ [] := by rintro rfl; cases h5; exact h0 rfl
  obtain ⟨q, hq⟩ := parts_prefix h1 rfl hne
  exact ⟨q, pre, hq, by simp at h2; omega, fun x hx => h3 x (by simp [hx]), h5⟩

theorem trail_nothing {ss : List Bytes} {hs : List Hop} (h : Trail ss (some hs)) (h0 : ss = []) : hs = [] := by
  subst h0
  have := trail_fun h .nil
  injection this

/-- As C79_attribute_missing; the document with the empty element is known only if it is not too large. -/
theorem attribute_missing {o : Ord} (ho : o.IsPerm) (opts : Options) {f : Forest} (h : Editable f) {qs : List Bytes} {x p q : Bytes} (hp : PathSteps p (qs ++ [x])) (hq : PathSteps q qs) (hx : AttrStep x)
    (hno : LeadNowhere opts.caseSensitive qs f) {r : Bytes} (hset : setWithOptions o f.render q (.str []) (some opts) = .ret (r, none)) {hs : List Hop} (ht : Trail qs (some hs)) (h0 : hs ≠ [])
    (hed : r.length ≤ 10485760 → ∃ (c : Ctx) (e : El), r = (c.plug (e.cons .nil)).render ∧ Editable (c.plug (e.cons .nil)) ∧ Reach opts.caseSensitive hs c e.name)
    {v : GoVal} {w : Bytes} (hv0 : v ≠ .nil) (hv : valueToXML v = some w) (hw : w.length ≤ 5242880) :
    setWithOptions o f.render p v (some opts) = if r.length ≤ 10485760 then setWithOptions o r p v (some opts) else .ret (f.render, some .malformed) := by
  have hd := docMax
  have hv2 := valMax
  have hsnd := editable_sound h
  have hne : qs ≠ [] := fun h => h0 (trail_nothing ht h)
  obtain ⟨segs, h1, h2⟩ := parseOpt_reads hp (by simp) opts.caseSensitive
  obtain ⟨segs', h3, h4⟩ := parseOpt_reads hq hne opts.caseSensitive
  obtain ⟨sa, rs, k1, k2, rfl, k3, k4⟩ := trail_split (cs := opts.caseSensitive) ht h2
  cases k2 with | @cons _ t _ rs k2 k5 =>
  cases k5
  have := all2_isSeg_one h4 k1
  subst this
  have hk := isSeg_attr (cs := opts.caseSensitive) k2 hx
  simp only [fuseFields, List.map_cons, List.map_nil] at k4
  rw [k4] at h1
  have hnone := nowhere_none ho (sound_says hsnd) hne hno k1
  have hfs : fuseFields segs' = segs' := by
    have := fuse_left segs' [] (trail_count ht (by simp) k1)
    simpa [fuseFields] using this
  rw [hfs] at h3 hnone
  have hpl := hopSegs_plainly k3 h0
  revert h1 h3 hnone hpl k3
  generalize hS : segs'.map (lowIf opts.caseSensitive) = ss
  generalize hT : lowIf opts.caseSensitive t = tt at hk
  intro h3 k3 h1 hnone hpl
  have hin0 : indexIntent ss = none := by have := hpl.intent []; rwa [List.append_nil] at this
  have hin : indexIntent (ss ++ [tt]) = none := by rw [hpl.intent]; simp [indexIntent, hk]
  have hcr : setElement o opts.caseSensitive opts.indent f.render ss (.str []) = createElement o opts.caseSensitive opts.indent f.render ss [] := by
    unfold setElement
    cases hz : ss.getLast? with
    | none => exact absurd (List.getLast?_eq_none_iff.mp hz) hpl.ne
    | some z =>
      simp only [valueToXML, escapeXML, hin0]
      rw [if_neg (by simp), if_neg (by have := h.1; omega), hnone]
      cases hkz : z.kind with
      | attr a => exact absurd hkz (hpl.last z a hz)
      | _ => rfl
  rw [set_parsed (sound_valid hsnd) (by simp) h3 hpl.ne, hcr] at hset
  have he : setElement o opts.caseSensitive opts.indent f.render (ss ++ [tt]) v = createElementForAttribute o opts.caseSensitive opts.indent f.render ss (spelling opts.caseSensitive ((beforeBar x).drop 1)) w := by
    unfold setElement
    rw [List.getLast?_concat]
    simp only [hv, hin, hk, List.dropLast_concat, hnone]
    rw [if_neg (by omega), if_neg (by have := h.1; omega)]
  rw [set_parsed (sound_valid hsnd) hv0 h1 (by simp), he]
  unfold createElementForAttribute
  cases hc : createElement o opts.caseSensitive opts.indent f.render ss [] with
  | panic => rw [hc] at hset; simp [finish] at hset
  | err er => rw [hc] at hset; simp [finish] at hset
  | ok r' =>
    rw [hc] at hset
    simp only [finish, Outcome.ret.injEq, Prod.mk.injEq, and_true] at hset
    simp only [hset]
    by_cases hsz : r.length ≤ 10485760
    · obtain ⟨c, e, rfl, hed, hr⟩ := hed hsz
      obtain ⟨l, hl2, hok⟩ := leadTo_found ho hed k3 hr
      have he2 : setElement o opts.caseSensitive opts.indent (c.plug (e.cons .nil)).render (ss ++ [tt]) v =
          replaceAttribute opts.caseSensitive (c.plug (e.cons .nil)).render l (spelling opts.caseSensitive ((beforeBar x).drop 1)) w := by
        unfold setElement
        rw [List.getLast?_concat]
        simp only [hv, hin, hk, List.dropLast_concat, hl2]
        rw [if_neg (by omega), if_neg (by omega)]
      rw [if_neg (by omega), if_pos hsz, hl2, set_parsed (sound_valid (editable_sound hed)) hv0 h1 (by simp), he2]
      simp only
      unfold replaceAttribute
      rw [plug_el_render]
      have e1 : ∀ z, c.before ++ e.start ++ e.inner ++ e.stop ++ z = c.before ++ e.start ++ (e.inner ++ e.stop ++ z) := by simp
      rw [e1, splice_at hok.start hok.cstart, finish_ok (by simp), finish_ok (by simp)]
    · rw [if_pos (by omega), if_neg hsz]
      rfl

/-- What the element in this place has become. -/
theorem atNth_elems (cs : Bool) (q : Pick) (t : Info → Info) (i : Info) (j : Nat) :
    ((i.atNth cs q (fun n a k next => .elem n a (t k) next) j).elems.filter (fun e => q.takes cs e.name))[j]? =
      ((i.elems.filter (fun e => q.takes cs e.name))[j]?).map fun nd => ⟨nd.name, nd.attr, t nd.kids⟩ := by
  induction i generalizing j with
  | nil => simp [Info.atNth, Info.elems]
  | text b next ih => simpa [Info.atNth, Info.elems] using ih j
  | misc m next ih => simpa [Info.atNth, Info.elems] using ih j
  | elem n a k next _ ih =>
    by_cases hq : q.takes cs n = true
    · cases j with
      | zero => simp [Info.atNth, Info.elems, hq]
      | succ j => simpa [Info.atNth, Info.elems, hq] using ih j
    · simpa [Info.atNth, Info.elems, hq] using ih j

theorem alter_spot (cs : Bool) (t : Info → Info) {hs : List Hop} (i : Info) :
    (i.alter cs (fun n a k next => .elem n a (t k) next) hs).spot cs hs = (i.spot cs hs).map fun nd => ⟨nd.name, nd.attr, t nd.kids⟩ := by
  induction hs generalizing i with
  | nil => simp [Info.spot]
  | cons hop hs ih =>
    obtain ⟨q, j⟩ := hop
    by_cases h0 : hs = []
    · subst h0
      simpa [Info.alter, Info.spot] using atNth_elems cs q t i j
    · rw [spot_cons _ _ _ _ h0, spot_cons _ _ _ _ h0, Info.alter, if_neg h0, atNth_elems cs q (fun k => k.alter cs _ hs) i j]
      cases (i.elems.filter (fun e => q.takes cs e.name))[j]? with
      | none => rfl
      | some nd => simpa using ih nd.kids

theorem takes_spelling (cs : Bool) (x : Bytes) : (Pick.name x).takes cs (spelling cs x) = true := agrees_spelled cs x

theorem plus_elems (i j : Info) : (i.plus j).elems = i.elems ++ j.elems := by
  induction i with
  | nil => rfl
  | text b next ih => simpa [Info.plus, Info.elems] using ih
  | misc m next ih => simpa [Info.plus, Info.elems] using ih
  | elem n a k next _ ih => simpa [Info.plus, Info.elems] using ih

theorem chain_spot (cs : Bool) (ind : Bytes) (w : Info) {xs : List Bytes} (h0 : xs ≠ []) (d : Nat) :
    ∃ nd, (Info.chain ind d (xs.map (spelling cs)) w).spot cs (xs.map fun x => (Pick.name x, 0)) = some nd ∧ nd.attr = fun _ => none := by
  induction xs generalizing d with
  | nil => exact absurd rfl h0
  | cons x xs ih =>
    by_cases h : xs = []
    · subst h
      simp [Info.chain, Info.spot, Info.elems, takes_spelling]
    · obtain ⟨nd, h1, h2⟩ := ih h (d + 1)
      refine ⟨nd, ?_, h2⟩
      rw [List.map_cons, List.map_cons, spot_cons _ _ _ _ (by simpa using h)]
      simpa [Info.chain, Info.elems, takes_spelling] using h1

theorem write_spot (cs : Bool) (ind : Bytes) (w : Info) {xs : List Bytes} (h0 : xs ≠ []) (i : Info) (hno : i.spot cs (xs.map fun x => (Pick.name x, 0)) = none) :
    ∃ nd, (Info.write cs ind w xs i).spot cs (xs.map fun x => (Pick.name x, 0)) = some nd ∧ nd.attr = fun _ => none := by
  induction xs generalizing i with
  | nil => exact absurd rfl h0
  | cons x xs ih =>
    by_cases hc : i.count cs (.name x) = 0
    · obtain ⟨nd, h1, h2⟩ := chain_spot cs ind w h0 0
      refine ⟨nd, ?_, h2⟩
      rw [Info.write, if_pos hc]
      have hn : i.elems.filter (fun e => (Pick.name x).takes cs e.name) = [] := List.length_eq_zero_iff.mp hc
      by_cases h : xs = []
      · subst h
        simpa [Info.spot, plus_elems, hn] using h1
      · rw [List.map_cons, spot_cons _ _ _ _ (by simpa using h)] at h1 ⊢
        simpa [plus_elems, hn] using h1
    · rw [Info.write, if_neg hc]
      by_cases h : xs = []
      · subst h
        have hn := List.getElem?_eq_none_iff.mp (show (i.elems.filter (fun e => (Pick.name x).takes cs e.name))[0]? = none from hno)
        exact absurd (Nat.le_zero.mp hn) hc
      · rw [List.map_cons, spot_cons _ _ _ _ (by simpa using h)] at hno ⊢
        rw [atNth_elems cs (.name x) (Info.write cs ind w xs) i 0]
        cases he : (i.elems.filter (fun e => (Pick.name x).takes cs e.name))[0]? with
        | none => exact absurd (List.getElem?_eq_none_iff.mp he) (by simpa [Info.count] using Nat.pos_of_ne_zero hc)
        | some nd =>
          rw [he] at hno
          simpa using ih h nd.kids (by simpa using hno)

/-- The element that was written is there, without attributes if it is new. -/
theorem inside_spot (cs : Bool) (ind : Bytes) (w : Info) {hs : List Hop} {xs : List Bytes} (h0 : xs ≠ []) (i : Info) (hs1 : hs = [] ∨ i.spot cs hs ≠ none)
    (hno : i.spot cs (hs ++ xs.map fun x => (Pick.name x, 0)) = none) :
    ∃ nd, (i.inside cs (Info.write cs ind w xs) hs).spot cs (hs ++ xs.map fun x => (Pick.name x, 0)) = some nd ∧ nd.attr = fun _ => none := by
  by_cases h : hs = []
  · subst h
    simpa [Info.inside] using write_spot cs ind w h0 i hno
  · rw [spot_append cs h (by simpa using h0)] at hno ⊢
    rw [Info.inside, if_neg h, alter_spot cs]
    cases hsp : i.spot cs hs with
    | none => rcases hs1 with h1 | h1
              · exact absurd h1 h
              · exact absurd hsp h1
    | some nd =>
      rw [hsp] at hno
      simpa using write_spot cs ind w h0 nd.kids (by simpa using hno)

end Verif.Props
