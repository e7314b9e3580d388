import Verif.Lemmas.PlaceOpt
import Verif.Lemmas.AttrOpt
import Verif.Lemmas.Effect
/- Set with options at a path of names: what the document is afterwards. As the end of Lemmas/Create and `set_names`. -/
namespace Verif
open Spec

theorem leads_downB {cs : Bool} {ps qs : List Step} {c c2 : Ctx} {n x : Bytes} {as : List Attr} {ws cws : Bytes} (h1 : LeadsBy cs ps c n) (h2 : LeadsBy cs qs c2 x) :
    LeadsBy cs (ps ++ qs) (down c n as ws cws c2) x := by
  induction ps generalizing c with
  | nil => simp [LeadsBy] at h1
  | cons p ps ih =>
    obtain ⟨m, j⟩ := p
    cases c with
    | here b a =>
      cases ps with
      | cons => simp [LeadsBy] at h1
      | nil =>
        cases qs with
        | nil => simp [LeadsBy] at h2
        | cons q qs => exact ⟨h1.1, h1.2, h2⟩
    | within b m' as' ws' c cws' a =>
      cases ps with
      | nil => simp [LeadsBy] at h1
      | cons p2 ps => exact ⟨h1.1, h1.2.1, ih h1.2.2⟩

theorem leads_depthB {cs : Bool} {ps : List Step} {c : Ctx} {x : Bytes} (h : LeadsBy cs ps c x) : ps.length = c.depth + 1 := by
  induction ps generalizing c with
  | nil => simp [LeadsBy] at h
  | cons p ps ih =>
    cases c with
    | here b a =>
      cases ps with
      | nil => rfl
      | cons => simp [LeadsBy] at h
    | within b m as ws c cws a =>
      cases ps with
      | nil => simp [LeadsBy] at h
      | cons p2 ps => rw [Ctx.depth, List.length_cons, ih h.2.2]

theorem locate_splitB (cs : Bool) (f : Forest) (ns : List Bytes) (n : Bytes) :
    (∃ c e, f = c.plug (El.cons e .nil) ∧ LeadsBy cs (firsts (ns ++ [n])) c e.name) ∨
    (∃ as bs c e, as ≠ [] ∧ ns = as ++ bs ∧ f = c.plug (El.cons e .nil) ∧ LeadsBy cs (firsts as) c e.name ∧ e.kids.info.namedBy cs ((bs ++ [n]).head (by simp)) = []) ∨
    f.info.namedBy cs ((ns ++ [n]).head (by simp)) = [] := by
  induction hlen : ns.length generalizing ns n with
  | zero =>
    have : ns = [] := List.length_eq_zero_iff.mp hlen
    subst this
    cases h : f.info.namedBy cs n with
    | nil => right; right; simpa using h
    | cons x xs =>
      left
      obtain ⟨c, e, h1, h2, -⟩ := follow_leadsB (cs := cs) (ps := firsts [n]) (f := f) (nd := x) (by simp [firsts, Info.followBy, h])
      exact ⟨c, e, h1, h2⟩
  | succ k ih =>
    obtain ⟨pre, m, rfl⟩ : ∃ pre m, ns = pre ++ [m] := ⟨ns.dropLast, ns.getLast (by intro h; rw [h] at hlen; simp at hlen), (List.dropLast_concat_getLast _).symm⟩
    rcases ih pre m (by simpa using hlen) with ⟨c, e, h1, h2⟩ | ⟨as, bs, c, e, h0, rfl, h1, h2, h3⟩ | h
    · cases hk : e.kids.info.namedBy cs n with
      | nil => exact .inr (.inl ⟨pre ++ [m], [], c, e, by simp, by simp, h1, h2, by simpa using hk⟩)
      | cons x xs =>
        left
        cases hb : e.body with
        | none => rw [El.kids, hb] at hk; simp [Forest.info, Info.namedBy, Info.elems] at hk
        | some q =>
          obtain ⟨kk, cws⟩ := q
          rw [El.kids, hb] at hk
          obtain ⟨c2, e2, h3, h4, -⟩ := follow_leadsB (cs := cs) (ps := firsts [n]) (f := kk) (nd := x) (by simp only [firsts, List.map_cons, List.map_nil, Info.followBy]; rw [hk]; rfl)
          refine ⟨down c e.name e.attrs e.ws cws c2, e2, ?_, ?_⟩
          · rw [down_plug, ← h3, h1, El.cons, hb]
          · rw [firsts, List.map_append]; exact leads_downB h2 h4
    · refine .inr (.inl ⟨as, bs ++ [m], c, e, h0, by simp, h1, h2, ?_⟩)
      rw [← h3]; congr 1
      cases bs <;> rfl
    · refine .inr (.inr ?_)
      rw [← h]; congr 1
      cases pre <;> rfl

/-! ### chains with line breaks as documents -/

/-- `chainLines` as a forest. -/
def chainF (indent : Bytes) : Nat → List Bytes → Forest → Forest
  | _, [], x => x
  | d, n :: ns, x => .text (newLine indent d) (.node n [] [] (chainF indent (d + 1) ns x) [] .nil)

theorem chainF_render (indent : Bytes) (d : Nat) (ns : List Bytes) (w : Bytes) : (chainF indent d ns (.text w .nil)).render = chainLines indent d ns w := by
  induction ns generalizing d with
  | nil => simp [chainF, chainLines, Forest.render]
  | cons n ns ih => simp [chainF, chainLines, Forest.render, ih, openTag, closeTag]

def chainFCtx (indent : Bytes) : Nat → Forest → List Bytes → Ctx
  | d, b, [] => .here (b.append (.text (newLine indent d) .nil)) .nil
  | d, b, [_] => .here (b.append (.text (newLine indent d) .nil)) .nil
  | d, b, n :: m :: ns => .within (b.append (.text (newLine indent d) .nil)) n [] [] (chainFCtx indent (d + 1) .nil (m :: ns)) [] .nil

theorem chainFCtx_plug (indent : Bytes) (d : Nat) (b : Forest) (ns : List Bytes) (n : Bytes) (x : Forest) :
    (chainFCtx indent d b (ns ++ [n])).plug ((⟨n, [], [], some (x, [])⟩ : El).cons .nil) = b.append (chainF indent d (ns ++ [n]) x) := by
  induction ns generalizing b d with
  | nil => simp [chainFCtx, Ctx.plug, chainF, El.cons, append_assoc, Forest.append]
  | cons m ns ih =>
    have e : ∃ p q, ns ++ [n] = p :: q := by cases ns <;> simp
    obtain ⟨p, q, e⟩ := e
    rw [List.cons_append, e, chainFCtx, Ctx.plug, ← e, ih, chainF, append_assoc]; rfl

theorem namedBy_text (cs : Bool) (b : Forest) (t n : Bytes) : (b.append (.text t .nil)).info.namedBy cs n = b.info.namedBy cs n := by
  rw [append_namedBy]; simp [Forest.info, Info.namedBy, Info.elems]

theorem agrees_spelled (cs : Bool) (n : Bytes) : agrees cs n (spelling cs n) = true := by
  rw [← agrees_spelling]; exact agrees_self _ _

theorem chainFCtx_leads (cs : Bool) (indent : Bytes) (d : Nat) {b : Forest} {ns : List Bytes} {n : Bytes} (h : b.info.namedBy cs ((ns ++ [n]).head (by simp)) = []) :
    LeadsBy cs (firsts (ns ++ [n])) (chainFCtx indent d b ((ns ++ [n]).map (spelling cs))) (spelling cs n) := by
  induction ns generalizing b d with
  | nil => exact ⟨agrees_spelled cs n, by rw [namedBy_text]; simpa using h⟩
  | cons m ns ih =>
    have e : ∃ p q, ns ++ [n] = p :: q := by cases ns <;> simp
    obtain ⟨p, q, e⟩ := e
    have ih := ih (d := d + 1) (b := .nil) rfl
    rw [List.cons_append, e, List.map_cons, List.map_cons, chainFCtx, firsts, List.map_cons, List.map_cons]
    rw [e] at ih
    exact ⟨agrees_spelled cs m, by rw [namedBy_text]; simpa using h, ih⟩

theorem newLine_legal {indent : Bytes} (hi : c!"<" ∉ indent) (d : Nat) : c!"<" ∉ newLine indent d ∧ (d = 0 → ∀ c ∈ newLine indent d, IsWs c) := by
  unfold newLine
  split
  · simp
  · constructor
    · intro h
      rw [List.mem_append] at h
      rcases h with h | h
      · revert h; decide
      · obtain ⟨l, h1, h2⟩ := List.mem_flatten.mp h
        rw [List.eq_of_mem_replicate h1] at h2
        exact hi h2
    · rintro rfl c hc
      simp at hc
      subst hc
      decide

/-- `k` is the depth in the document, `d` the depth in the chain. -/
theorem chainF_good {indent : Bytes} (hi : c!"<" ∉ indent) {ns : List Bytes} {x : Forest} {d k : Nat} {t : Bool} (hdk : k = 0 → d = 0) (hne : ns ≠ []) (hn : ∀ n ∈ ns, IsName n)
    (hd : k + ns.length ≤ 100) (hx : x.Legal (k + ns.length))
    (hxt : x.Tame false) (hxn : x.Even) : (chainF indent d ns x).Legal k ∧ (chainF indent d ns x).Tame t ∧ (chainF indent d ns x).Even := by
  induction ns generalizing d k t with
  | nil => exact absurd rfl hne
  | cons n ns ih =>
    simp only [List.length_cons] at hd hx
    have hin : (chainF indent (d + 1) ns x).Legal (k + 1) ∧ (chainF indent (d + 1) ns x).Tame false ∧ (chainF indent (d + 1) ns x).Even := by
      cases ns with
      | nil => exact ⟨by simpa [chainF] using hx, hxt, hxn⟩
      | cons m ns =>
        refine ih (by omega) (by simp) (fun k hk => hn k (by simp [hk])) (by omega) ?_
        rw [show k + 1 + (m :: ns).length = k + ((m :: ns).length + 1) by omega]; exact hx
    obtain ⟨h1, h2, h3⟩ := hin
    have h0 : AttrsLegal [] := ⟨by simp, by simp, by simp⟩
    obtain ⟨n1, n2⟩ := newLine_legal hi d
    refine ⟨⟨n1, fun hk => n2 (hdk hk), hn n (by simp), h0, by simp, by omega, h1, by simp, trivial⟩, ⟨?_, ?_, h2, trivial⟩, ⟨?_, rfl, h3, trivial⟩⟩
    · intro a ha; simp at ha
    · have := (hn n (by simp)).2.2; simpa using this
    · rfl

theorem chainF_hasElem {indent : Bytes} {d : Nat} {ns : List Bytes} (hne : ns ≠ []) (x : Forest) : (chainF indent d ns x).HasElem := by
  cases ns with
  | nil => exact absurd rfl hne
  | cons => trivial

theorem spelling_name {cs : Bool} {n : Bytes} (h : IsName n) : IsName (spelling cs n) := by
  cases cs
  · obtain ⟨⟨c, t, rfl, h1⟩, h2, h3⟩ := h
    have low : ∀ c : UInt8, (NameStart c → NameStart (lowerByte c)) ∧ (NameChar c → NameChar (lowerByte c)) := by
      intro c
      by_cases hc : 65 ≤ c ∧ c ≤ 90
      · have : NameStart (lowerByte c) := by
          unfold lowerByte
          rw [if_pos (by simpa using hc)]
          refine .inl (.inr ?_)
          simp only [UInt8.le_iff_toNat_le, UInt8.toNat_add] at *
          simp at *
          omega
        exact ⟨fun _ => this, fun _ => .inl this⟩
      · have : lowerByte c = c := by
          unfold lowerByte
          rw [if_neg (by simpa using hc)]
        rw [this]; exact ⟨id, id⟩
    refine ⟨⟨lowerByte c, t.map lowerByte, rfl, (low c).1 h1⟩, ?_, ?_⟩
    · intro x hx
      obtain ⟨y, hy, rfl⟩ := List.mem_map.mp (show x ∈ (c :: t).map lowerByte from hx)
      exact (low y).2 (h2 y hy)
    · simpa [spelling, foldCase_eq, toLowerASCII] using h3
  · exact h

theorem editable_createdB {indent : Bytes} (hi : c!"<" ∉ indent) {c : Ctx} {e : El} {as : List Attr} {ws : Bytes} (h : Editable (c.plug (e.cons .nil))) {ns : List Bytes} (hne : ns ≠ [])
    (hns : ∀ n ∈ ns, IsName n) (hd : c.depth + 1 + ns.length ≤ 100) {w : Bytes} (hw : c!"<" ∉ w) (hr : Opened e as ws)
    (hsz : (c.before ++ (e.refill as ws (e.kids.append (chainF indent 0 ns (.text w .nil)))).render ++ c.after).length ≤ 10485760) :
    Editable (c.plug ((e.refill as ws (e.kids.append (chainF indent 0 ns (.text w .nil)))).cons .nil)) := by
  have hg := editable_el h
  obtain ⟨k1, k2, k3, k4⟩ := el_kids_good hg
  obtain ⟨t1, t2, t3⟩ := plain_text (d := c.depth + 1 + ns.length) hw (by omega)
  obtain ⟨c1, c2, c3⟩ := chainF_good (d := 0) (t := false) hi (by omega) hne hns hd t1 t2 t3
  refine editable_swapEl h (refill_good hg hr ?_ ?_ ?_) ?_
  · rw [append_legal]; exact ⟨k1, c1⟩
  · rw [append_tame]; exact ⟨k2, c2⟩
  · rw [append_even]; exact ⟨k3, c3⟩
  · rw [plug_render, cons_render]; simpa [Forest.render] using hsz

theorem editable_newRootB {indent : Bytes} (hi : c!"<" ∉ indent) {f : Forest} (h : Editable f) {ns : List Bytes} (hne : ns ≠ []) (hns : ∀ n ∈ ns, IsName n)
    (hd : ns.length ≤ 100) {w : Bytes} (hw : c!"<" ∉ w) (hsz : (f.render ++ (chainF indent 0 ns (.text w .nil)).render).length ≤ 10485760) :
    Editable (f.append (chainF indent 0 ns (.text w .nil))) := by
  have hl : 0 < ns.length := List.length_pos_iff.mpr hne
  obtain ⟨t1, t2, t3⟩ := plain_text (d := 0 + ns.length) hw (by omega)
  obtain ⟨c1, c2, c3⟩ := chainF_good (d := 0) (k := 0) (t := true) hi (by omega) hne hns (by omega) t1 t2 t3
  refine ⟨by rw [append_render]; exact hsz, ?_, ?_, ?_, ?_⟩
  · rw [append_legal]; exact ⟨h.2.1, c1⟩
  · rw [append_tame]; exact ⟨h.2.2.1, c2⟩
  · rw [append_hasElem]; exact .inl h.2.2.2.1
  · rw [append_stable]; exact ⟨h.2.2.2.2, even_stable c3⟩

/-- What Set with options does at a path of names, in any case: the result is again a document in the layout, and the path now leads to an element
with the value as its only content. The places are the same for all values. -/
theorem set_namesB (opts : Options) (hi : c!"<" ∉ opts.indent) (o : Ord) (ho : o.IsPerm) (f : Forest) (h : Editable f) (ns : List Bytes) (n : Bytes) (hn : ∀ m ∈ ns ++ [n], IsName m)
    (hl : ns.length < 100) (hsc : ∀ c e, f = c.plug (El.cons e .nil) → LeadsBy opts.caseSensitive (firsts (ns ++ [n])) c e.name → e.body ≠ none) :
    ∃ (c : Ctx) (x : Bytes) (e : Bytes → El), LeadsBy opts.caseSensitive (firsts (ns ++ [n])) c x ∧
      (∀ w, (e w).name = x ∧ (e w).body = some (.text w .nil, []) ∧ ∀ w', (e w).fill w' = e w') ∧
      ∀ (v : GoVal) (w : Bytes), v ≠ .nil → valueToXML v = some w → w.length ≤ 5242880 →
        setWithOptions o f.render (pathOf (ns ++ [n])) v (some opts) = .ret ((c.plug ((e w).cons .nil)).render, none) ∧
        (c!"<" ∉ w → (c.plug ((e w).cons .nil)).render.length ≤ 10485760 → Editable (c.plug ((e w).cons .nil))) := by
  have hpn : ∀ m ∈ ns ++ [n], PlainName m := fun m hm => name_plain (hn m hm)
  rcases locate_splitB opts.caseSensitive f ns n with ⟨c, e, rfl, hL⟩ | ⟨as, bs, c, e, h0, rfl, rfl, hL, hm⟩ | hm
  · have hb := hsc c e rfl hL
    refine ⟨c, e.name, fun w => e.fill w, hL, fun w => ⟨rfl, ?_, fun w' => by simp [El.fill, Function.comp_def]⟩, fun v w hv0 hv hw => ⟨?_, fun hlt hsz => ?_⟩⟩
    · show (e.fill w).body = _
      rw [fill_refill h hb]; rfl
    · rw [set_existingB ho (stepsText_names hpn) (by simp; omega) hL h hv0 hv hw, fill_render hb]
    · exact editable_fill h hb hlt (by rw [← fill_render hb]; exact hsz)
  · obtain ⟨at', ws', hop, hset⟩ := set_missingB ho (stepsText_names (ns := as) (fun m hm => hpn m (by simp [hm]))) hL h
    have hd : c.depth + 1 = as.length := by have := leads_depthB hL; simp [firsts] at this; omega
    obtain ⟨m, ms, e1⟩ : ∃ m ms, bs ++ [n] = m :: ms := by cases bs <;> simp
    have hplug : ∀ w, (down c e.name at' ws' [] (chainFCtx opts.indent 0 e.kids ((bs ++ [n]).map (spelling opts.caseSensitive)))).plug ((tip (spelling opts.caseSensitive n) w).cons .nil) =
        c.plug ((e.refill at' ws' (e.kids.append (chainF opts.indent 0 ((bs ++ [n]).map (spelling opts.caseSensitive)) (.text w .nil)))).cons .nil) := by
      intro w
      rw [down_plug, tip, List.map_append, List.map_cons, List.map_nil, chainFCtx_plug, El.cons]; rfl
    have hren : ∀ w, (e.refill at' ws' (e.kids.append (chainF opts.indent 0 ((bs ++ [n]).map (spelling opts.caseSensitive)) (.text w .nil)))).render =
        openTag e.name at' ws' ++ b!">" ++ e.inner ++ chainLines opts.indent 0 ((bs ++ [n]).map (spelling opts.caseSensitive)) w ++ closeTag e.name [] := by
      intro w
      have : e.inner = e.kids.render := by
        obtain ⟨nm, as, ws, body⟩ := e
        rcases body with _ | ⟨k0, cws⟩ <;> rfl
      rw [this]
      simp [El.refill, El.render, El.start, El.inner, El.stop, append_render, chainF_render]
    refine ⟨down c e.name at' ws' [] (chainFCtx opts.indent 0 e.kids ((bs ++ [n]).map (spelling opts.caseSensitive))), spelling opts.caseSensitive n, tip (spelling opts.caseSensitive n), ?_,
      fun w => ⟨rfl, rfl, fun _ => rfl⟩, fun v w hv0 hv hw => ⟨?_, fun hlt hsz => ?_⟩⟩
    · rw [List.append_assoc, firsts, List.map_append]; exact leads_downB hL (chainFCtx_leads _ _ _ hm)
    · have hmem : ∀ k ∈ m :: ms, k ∈ as ++ bs ++ [n] := by rw [← e1]; intro k hk; simp at hk ⊢; right; exact hk
      have := hset m ms (fun k hk => hpn k (hmem k hk)) (by rw [← e1]; simp at hl ⊢; omega) (by simpa only [e1, List.head_cons] using hm) v w hv0 hv hw
      rw [List.append_assoc, e1, this, ← e1, hplug, plug_render, cons_render, hren]
      simp [Forest.render]
    · rw [hplug] at hsz ⊢
      have hmem : ∀ k ∈ bs ++ [n], k ∈ as ++ bs ++ [n] := by intro k hk; simp at hk ⊢; right; exact hk
      refine editable_createdB hi h (by simp) ?_ (by simp at hl ⊢; omega) hlt hop ?_
      · intro k hk
        obtain ⟨y, hy, rfl⟩ := List.mem_map.mp hk
        exact spelling_name (hn y (hmem y hy))
      · rw [plug_render, cons_render] at hsz
        simpa [Forest.render] using hsz
  · obtain ⟨m, ms, e1⟩ : ∃ m ms, ns ++ [n] = m :: ms := by cases ns <;> simp
    have hplug : ∀ w, (chainFCtx opts.indent 0 f ((ns ++ [n]).map (spelling opts.caseSensitive))).plug ((tip (spelling opts.caseSensitive n) w).cons .nil) =
        f.append (chainF opts.indent 0 ((ns ++ [n]).map (spelling opts.caseSensitive)) (.text w .nil)) := by
      intro w
      rw [tip, List.map_append, List.map_cons, List.map_nil, chainFCtx_plug]
    refine ⟨_, spelling opts.caseSensitive n, tip (spelling opts.caseSensitive n), chainFCtx_leads _ opts.indent 0 hm, fun w => ⟨rfl, rfl, fun _ => rfl⟩, fun v w hv0 hv hw => ⟨?_, fun hlt hsz => ?_⟩⟩
    · have := set_newRootSB ho (editable_sound h) (m := m) (ns := ms) (by rw [← e1]; exact hpn) (by rw [← e1]; simp; omega) (by simpa only [e1, List.head_cons] using hm) hv0 hv hw
      rw [hplug, e1, this, append_render, chainF_render]
    · rw [hplug] at hsz ⊢
      refine editable_newRootB hi h (by simp) ?_ (by simp; omega) hlt (by rw [← append_render]; exact hsz)
      intro k hk
      obtain ⟨y, hy, rfl⟩ := List.mem_map.mp hk
      exact spelling_name (hn y hy)

/-- The first element selected is the one `followBy` finds, if that finds one. -/
theorem follow_selectFold {pre : List Bytes} {n : Bytes} {i : Info} {nd : Node} (h : i.followBy false (firsts (pre ++ [n])) = some nd) :
    (i.selectFold pre n).head? = some nd := by
  have hnm : ∀ (i : Info) m, i.namedBy false m = i.namedFold m := fun _ _ => rfl
  induction pre generalizing i with
  | nil =>
    rw [Info.selectFold, Info.reachFold]
    simp only [firsts, List.nil_append, List.map_cons, List.map_nil, Info.followBy] at h
    rw [List.flatMap_cons, List.flatMap_nil, List.append_nil, List.head?_eq_getElem?]; exact h
  | cons m pre ih =>
    have e : firsts (m :: pre ++ [n]) = (m, 0) :: firsts (pre ++ [n]) := rfl
    rw [e, follow_consB _ _ _ (by simp [firsts]), hnm] at h
    cases hm : i.namedFold m with
    | nil => rw [hm] at h; simp at h
    | cons x xs =>
      rw [hm] at h
      have := ih (i := x.kids) (by simpa using h)
      rw [Info.selectFold, Info.reachFold, hm, List.flatMap_cons, List.flatMap_append, List.head?_append]
      rw [Info.selectFold] at this
      rw [this]; rfl

theorem leadsBy_true {ps : List Step} {c : Ctx} {x : Bytes} : LeadsBy true ps c x ↔ Leads ps c x := by
  induction ps generalizing c with
  | nil => simp [LeadsBy, Leads]
  | cons p ps ih =>
    obtain ⟨n, j⟩ := p
    have hnm : ∀ (i : Info) m, i.namedBy true m = i.named m := fun _ _ => rfl
    cases c with
    | here b a => cases ps <;> simp [LeadsBy, Leads, agrees, hnm]
    | within b m as ws c cws a =>
      cases ps with
      | nil => simp [LeadsBy, Leads]
      | cons p2 ps =>
        constructor
        · rintro ⟨h1, h2, h3⟩; exact ⟨h1, h2, ih.mp h3⟩
        · rintro ⟨h1, h2, h3⟩; exact ⟨h1, h2, ih.mpr h3⟩

/-- Selection by a list of names up to case. -/
def selectF : List Bytes → Info → List Node
  | [], _ => []
  | [n], i => i.namedFold n
  | n :: q, i => (i.namedFold n).flatMap (fun e => selectF q e.kids)

theorem selectF_cons (n : Bytes) (q : List Bytes) (hq : q ≠ []) (i : Info) : selectF (n :: q) i = (i.namedFold n).flatMap (fun e => selectF q e.kids) := by
  cases q with
  | nil => exact absurd rfl hq
  | cons => rfl

theorem selectFold_eq (pre : List Bytes) (n : Bytes) (i : Info) : i.selectFold pre n = selectF (pre ++ [n]) i := by
  induction pre generalizing i with
  | nil => simp [Info.selectFold, Info.reachFold, selectF]
  | cons m pre ih =>
    rw [List.cons_append, selectF_cons _ _ (by simp), Info.selectFold, Info.reachFold, List.flatMap_assoc]
    congr 1; funext e
    rw [← ih, Info.selectFold]

theorem append_namedFold (f g : Forest) (n : Bytes) : (f.append g).info.namedFold n = f.info.namedFold n ++ g.info.namedFold n := by
  simp [Info.namedFold, append_elems]

theorem selectF_append (q : List Bytes) (f g : Forest) : selectF q (f.append g).info = selectF q f.info ++ selectF q g.info := by
  cases q with
  | nil => rfl
  | cons n q =>
    cases q with
    | nil => exact append_namedFold f g n
    | cons m q => rw [selectF_cons _ _ (by simp), append_namedFold, List.flatMap_append]; rfl

theorem selectF_node (q : List Bytes) (hq : q ≠ []) (m n : Bytes) (as : List Attr) (ws cws : Bytes) (k a : Forest) :
    selectF (m :: q) (Forest.node n as ws k cws a).info = (if agrees false m n then selectF q k.info else []) ++ selectF (m :: q) a.info := by
  rw [selectF_cons _ _ hq, selectF_cons _ _ hq, Info.namedFold, Forest.info, Info.elems, List.filter_cons]
  simp only [agrees, Bool.false_eq_true, if_false]
  split <;> rfl

/-- Removing the element a path of names leads to up to case removes it from what the names select up to case. -/
theorem selectF_removed {q : List Bytes} {c : Ctx} {e : El} (h : LeadsBy false (firsts q) c e.name) :
    selectF q (c.plug (e.cons .nil)).info = e.node :: selectF q (c.plug .nil).info := by
  have hnm : ∀ (i : Info) m, i.namedBy false m = i.namedFold m := fun _ _ => rfl
  induction q generalizing c with
  | nil => simp [firsts, LeadsBy] at h
  | cons n q ih =>
    cases c with
    | here b a =>
      cases q with
      | cons m q => simp [firsts, LeadsBy] at h
      | nil =>
        obtain ⟨h1, h2⟩ := h
        have hb : b.info.namedFold n = [] := List.length_eq_zero_iff.mp h2
        have he : (e.cons .nil).info.namedFold n = [e.node] := by
          rw [← hnm, Info.namedBy, cons_elems, List.filter_cons, if_pos (by simpa [El.node] using h1)]; rfl
        simp only [selectF, Ctx.plug, append_namedFold, hb, he]
        rfl
    | within b m as ws c cws a =>
      cases q with
      | nil => simp [firsts, LeadsBy] at h
      | cons m2 q =>
        obtain ⟨h1, h2, h3⟩ := h
        have hb : b.info.namedFold n = [] := List.length_eq_zero_iff.mp h2
        have hb2 : selectF (n :: m2 :: q) b.info = [] := by rw [selectF_cons _ _ (by simp), hb]; rfl
        rw [Ctx.plug, Ctx.plug, selectF_append, selectF_append, hb2, selectF_node _ (by simp), selectF_node _ (by simp), if_pos h1, if_pos h1, ih h3]
        rfl

end Verif
