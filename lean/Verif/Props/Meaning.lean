import Verif.Spec.Meaning
import Verif.Props.Children
import Verif.Props.LabelsAny
import Verif.Props.CopyAny
import Verif.Props.SetTyped
import Verif.Props.Attach
/- C96: Set and Delete are functions on what documents say. -/
namespace Verif.Props
open Verif Verif.Spec

/-! ## C96 Set and Delete as functions on what documents say -/

theorem append_plus (f g : Forest) : (f.append g).info = f.info.plus g.info := by
  induction f <;> simp_all [Forest.append, Forest.info, Info.plus]

theorem append_regular (f g : Forest) : (f.append g).Regular ↔ f.Regular ∧ g.Regular := by
  induction f <;> simp_all [Forest.append, Forest.Regular, and_assoc]

theorem plug_regular {c : Ctx} {x : Forest} (h : (c.plug x).Regular) : x.Regular ∧ ∀ y : Forest, y.Regular → (c.plug y).Regular := by
  induction c with
  | here b a =>
    simp only [Ctx.plug, append_regular] at h ⊢
    exact ⟨h.2.1, fun y hy => ⟨h.1, hy, h.2.2⟩⟩
  | within b n as ws c cws a ih =>
    simp only [Ctx.plug, append_regular, Forest.Regular] at h ⊢
    obtain ⟨h1, h2, h3, h4⟩ := h
    exact ⟨(ih h3).1, fun y hy => ⟨h1, h2, (ih h3).2 y hy, h4⟩⟩

theorem cons_regular {e : El} {a : Forest} (h : (e.cons a).Regular) : (e.attrs.map (·.name)).Nodup ∧ e.kids.Regular ∧ e.body ≠ none ∧ a.Regular := by
  obtain ⟨n, as, ws, body⟩ := e
  rcases body with _ | ⟨k, cws⟩
  · exact h.elim
  · exact ⟨h.1, h.2.1, by simp, h.2.2⟩

theorem cons_says (e : El) (a : Forest) : (e.cons a).info = .elem e.name (Spec.attrVal e.attrs) e.kids.info a.info := by
  obtain ⟨n, as, ws, body⟩ := e
  rcases body with _ | ⟨k, cws⟩ <;> rfl

/-- The element of a level, found behind those that come before it. -/
theorem atNth_at (cs : Bool) (q : Pick) (g : Turn) (b : Forest) {n : Bytes} (a : Bytes → Option Bytes) (k next : Info) (hq : q.takes cs n = true) :
    (b.info.plus (.elem n a k next)).atNth cs q g (b.info.count cs q) = b.info.plus (g n a k next) := by
  induction b with
  | nil => simp [Forest.info, Info.plus, Info.atNth, hq, Info.count, Info.elems]
  | text t next' ih => simpa [Forest.info, Info.plus, Info.atNth, Info.count, Info.elems] using ih
  | misc t next' ih => simpa [Forest.info, Info.plus, Info.atNth, Info.count, Info.elems] using ih
  | leaf m as ws next' ih =>
    by_cases hm : q.takes cs m = true
    · simpa [Forest.info, Info.plus, Info.atNth, Info.count, Info.elems, hm] using ih
    · simpa [Forest.info, Info.plus, Info.atNth, Info.count, Info.elems, hm] using ih
  | node m as ws kk cws next' _ ih =>
    by_cases hm : q.takes cs m = true
    · simpa [Forest.info, Info.plus, Info.atNth, Info.count, Info.elems, hm] using ih
    · simpa [Forest.info, Info.plus, Info.atNth, Info.count, Info.elems, hm] using ih

/-- The element in its place, turned. -/
theorem alter_reach {cs : Bool} {hs : List Hop} {c : Ctx} {e : El} {g : Turn} {x : Forest} (h : Reach cs hs c e.name)
    (hx : ∀ a : Forest, (x.append a).info = g e.name (Spec.attrVal e.attrs) e.kids.info a.info) : (c.plug (e.cons .nil)).info.alter cs g hs = (c.plug x).info := by
  induction hs generalizing c with
  | nil => exact absurd rfl (reach_ne h)
  | cons p hs ih =>
    obtain ⟨q, j⟩ := p
    cases c with
    | here b a =>
      cases hs with
      | cons => simp [Reach] at h
      | nil =>
        obtain ⟨h1, rfl⟩ := h
        simp only [Info.alter, if_true, Ctx.plug, append_plus b, hx]
        rw [cons_append, show Forest.append .nil a = a from rfl, cons_says, atNth_at cs q g b _ _ _ h1]
    | within b m as ws c cws a =>
      cases hs with
      | nil => simp [Reach] at h
      | cons p2 hs =>
        obtain ⟨h1, rfl, h2⟩ := h
        rw [Info.alter, if_neg (by simp)]
        simp only [Ctx.plug, append_plus b, Forest.info]
        rw [atNth_at cs q _ b _ _ _ h1, ih h2]

theorem atNth_none {cs : Bool} {q : Pick} {g : Turn} {i : Info} {j : Nat} (h : (i.elems.filter fun e => q.takes cs e.name)[j]? = none) : i.atNth cs q g j = i := by
  induction i generalizing j with
  | nil => rfl
  | text b next ih => simp only [Info.atNth]; rw [ih h]
  | misc b next ih => simp only [Info.atNth]; rw [ih h]
  | elem n a k next _ ih =>
    simp only [Info.elems, List.filter_cons] at h
    simp only [Info.atNth]
    by_cases hn : q.takes cs n = true
    · rw [if_pos hn] at h ⊢
      cases j with
      | zero => simp at h
      | succ j => simp only [List.getElem?_cons_succ] at h; simp only; rw [ih h]
    · rw [if_neg hn] at h ⊢
      rw [ih h]

/-- Nothing changes where the steps lead nowhere. -/
theorem alter_nowhere {cs : Bool} {g : Turn} {hs : List Hop} {i : Info} (h : i.spot cs hs = none) : i.alter cs g hs = i := by
  induction hs generalizing i with
  | nil => rfl
  | cons p hs ih =>
    obtain ⟨q, j⟩ := p
    rw [Info.alter]
    cases hs with
    | nil => exact atNth_none h
    | cons p2 hs =>
      rw [if_neg (by simp)]
      rw [spot_cons _ _ _ _ (by simp)] at h
      cases hj : (i.elems.filter fun e => q.takes cs e.name)[j]? with
      | none => exact atNth_none hj
      | some nd =>
        rw [hj] at h
        have hk : nd.kids.alter cs g (p2 :: hs) = nd.kids := ih h
        clear ih h
        induction i generalizing j with
        | nil => rfl
        | text b next ih => simp only [Info.atNth]; rw [ih _ hj]
        | misc b next ih => simp only [Info.atNth]; rw [ih _ hj]
        | elem n a k next _ ih =>
          simp only [Info.elems, List.filter_cons] at hj
          simp only [Info.atNth]
          by_cases hn : q.takes cs n = true
          · rw [if_pos hn] at hj ⊢
            cases j with
            | zero => simp at hj; subst hj; simp only at hk; simp only; rw [hk]
            | succ j => simp only [List.getElem?_cons_succ] at hj; simp only; rw [ih _ hj]
          · rw [if_neg hn] at hj ⊢
            rw [ih _ hj]

/-- Names that are there are steps down. -/
theorem write_there {cs : Bool} {ind : Bytes} {w : Info} {r1 r2 : List Bytes} {f : Forest} {c : Ctx} {e : El} (hf : f = c.plug (e.cons .nil)) (h : Reach cs (r1.map fun n => (Pick.name n, 0)) c e.name) :
    Info.write cs ind w (r1 ++ r2) f.info = f.info.inside cs (Info.write cs ind w r2) (r1.map fun n => (Pick.name n, 0)) := by
  subst hf
  induction r1 generalizing c with
  | nil => exact absurd rfl (reach_ne h)
  | cons x r1 ih =>
    have hsp := reach_spot h
    have hc : (c.plug (e.cons .nil)).info.count cs (.name x) ≠ 0 := by
      intro h0
      have h0 : (c.plug (e.cons .nil)).info.elems.filter (fun e => (Pick.name x).takes cs e.name) = [] := List.eq_nil_of_length_eq_zero h0
      cases r1 with
      | nil => simp only [List.map_cons, List.map_nil, Info.spot] at hsp; rw [h0] at hsp; simp at hsp
      | cons y r1 => simp only [List.map_cons] at hsp; rw [spot_cons _ _ _ _ (by simp), h0] at hsp; simp at hsp
    rw [List.cons_append, Info.write, if_neg hc]
    cases c with
    | here b a =>
      cases r1 with
      | cons => simp [Reach] at h
      | nil => simp [Info.inside, Info.alter]
    | within b m as ws c cws a =>
      cases r1 with
      | nil => simp [Reach] at h
      | cons y r1 =>
        obtain ⟨h1, h3, h2⟩ := h
        have := ih h2
        simp only [List.map_cons, Info.inside, if_neg (List.cons_ne_nil _ _)] at this ⊢
        rw [Info.alter, if_neg (by simp)]
        simp only [Ctx.plug, append_plus b, Forest.info]
        have key := fun g => atNth_at cs (.name x) g b (Spec.attrVal as) (c.plug (e.cons .nil)).info a.info h1
        rw [h3] at key
        rw [key, key, this]

theorem chainF_info (ind : Bytes) (d : Nat) (ns : List Bytes) (g : Forest) : (chainF ind d ns g).info = Info.chain ind d ns g.info := by
  induction ns generalizing d with
  | nil => rfl
  | cons n ns ih => simp [chainF, Info.chain, Forest.info, ih]; funext k; simp [Spec.attrVal]

theorem chainF_regular (ind : Bytes) (d : Nat) (ns : List Bytes) {g : Forest} (hg : g.Regular) : (chainF ind d ns g).Regular := by
  induction ns generalizing d with
  | nil => exact hg
  | cons n ns ih => exact ⟨List.nodup_nil, ih _, trivial⟩

theorem inside_reach {cs : Bool} {g : Info → Info} {hs : List Hop} {c : Ctx} {e x : El} (h : Reach cs hs c e.name) (h1 : x.name = e.name) (h2 : Spec.attrVal x.attrs = Spec.attrVal e.attrs)
    (h3 : x.kids.info = g e.kids.info) : (c.plug (e.cons .nil)).info.inside cs g hs = (c.plug (x.cons .nil)).info := by
  rw [Info.inside, if_neg (reach_ne h)]
  refine alter_reach h fun a => ?_
  rw [cons_append, show Forest.append .nil a = a from rfl, cons_says, h1, h2, h3]

/-- The names of the path that are there are further steps down. -/
theorem inside_there {cs : Bool} {ind : Bytes} {w : Info} {r1 r2 : List Bytes} {hs : List Hop} {c : Ctx} {e : El} (h : Reach cs (hs ++ r1.map fun n => (Pick.name n, 0)) c e.name) :
    (c.plug (e.cons .nil)).info.inside cs (Info.write cs ind w (r1 ++ r2)) hs = (c.plug (e.cons .nil)).info.inside cs (Info.write cs ind w r2) (hs ++ r1.map fun n => (Pick.name n, 0)) := by
  induction hs generalizing c with
  | nil => rw [Info.inside, if_pos rfl]; exact write_there rfl h
  | cons p hs ih =>
    obtain ⟨q, j⟩ := p
    cases hr : hs ++ r1.map (fun n => (Pick.name n, 0)) with
    | nil =>
      obtain ⟨rfl, h1⟩ := List.append_eq_nil_iff.mp hr
      have : r1 = [] := by simpa using h1
      subst this
      simp
    | cons p2 hs2 =>
      rw [List.cons_append, hr] at h ⊢
      cases c with
      | here b a => simp [Reach] at h
      | within b m as ws c cws a =>
        obtain ⟨h1, h3, h2⟩ := h
        rw [Info.inside, if_neg (by simp), Info.inside, if_neg (by simp), Info.alter, Info.alter, if_neg (List.cons_ne_nil p2 hs2)]
        have key := fun g => atNth_at cs q g b (Spec.attrVal as) (c.plug (e.cons .nil)).info a.info h1
        rw [h3] at key
        simp only [Ctx.plug, append_plus b, Forest.info]
        rw [key, key]
        rw [← hr] at h2
        have h4 := ih h2
        rw [hr] at h4
        rw [Info.inside, Info.inside, if_neg (List.cons_ne_nil p2 hs2)] at h4
        by_cases h0 : hs = []
        · rw [if_pos h0] at h4 ⊢
          rw [h4]
        · rw [if_neg h0] at h4 ⊢
          rw [h4]

theorem elems_hasElem {f : Forest} (h : f.info.elems ≠ []) : f.HasElem := by
  induction f with
  | nil => exact absurd rfl h
  | text b next ih => exact ih h
  | misc b next ih => exact ih h
  | leaf => trivial
  | node => trivial

theorem append_elems (f g : Forest) : (f.append g).info.elems = f.info.elems ++ g.info.elems := by
  induction f <;> simp_all [Forest.append, Forest.info, Info.elems]

theorem asks_no_attr {p : Bytes} {k : Pick} (h : Asks p k) : ¬ AttrStep p := by
  cases h with
  | name h => exact h.2.2.1
  | any h =>
    rintro ⟨t, rfl⟩
    rcases h with h | h <;> simp [beforeBar] at h

theorem trail_last {ss : List Bytes} {t : Option (List Hop)} (h : Trail ss t) : ∀ {hs : List Hop}, t = some hs → ∀ x, ss.getLast? = some x → ¬ AttrStep x := by
  induction h with
  | nil => intro _ _ x hx; simp at hx
  | @nth p d k j ps t hp hd hj h ih =>
    intro hs e x hx
    cases t with
    | none => cases e
    | some t =>
      cases ps with
      | nil => simp at hx; subst hx; exact position_no_attr hd
      | cons q ps => exact ih rfl x (by simpa using hx)
  | negative => intro _ e; cases e
  | @first p k ps t hp hd h ih =>
    intro hs e x hx
    cases t with
    | none => cases e
    | some t =>
      cases ps with
      | nil => simp at hx; subst hx; exact asks_no_attr hp
      | cons q ps => exact ih rfl x (by simpa using hx)
  | lost => intro _ e; cases e

theorem trail_nil {ss : List Bytes} (h : Trail ss (some [])) : ss = [] := by
  generalize ht : some ([] : List Hop) = t at h
  cases h with
  | nil => rfl
  | nth hp hd hj h => rename_i t; cases t <;> cases ht
  | negative => cases ht
  | first hp hd h => rename_i t; cases t <;> cases ht
  | lost => cases ht

theorem created_any {indent : Bytes} (hi : c!"<" ∉ indent) {c : Ctx} {e : El} {as : List Attr} {ws : Bytes} (h : Editable (c.plug (e.cons .nil))) {ns : List Bytes} (hne : ns ≠ [])
    (hns : ∀ n ∈ ns, IsName n) (hd : c.depth + 1 + ns.length ≤ 100) {g : Forest} (g1 : g.Legal (c.depth + 1 + ns.length)) (g2 : g.Tame false) (g3 : g.Even) (hr : Opened e as ws)
    (hsz : (c.before ++ (e.refill as ws (e.kids.append (chainF indent 0 ns g))).render ++ c.after).length ≤ 10485760) :
    Editable (c.plug ((e.refill as ws (e.kids.append (chainF indent 0 ns g))).cons .nil)) := by
  have hg := editable_el h
  obtain ⟨k1, k2, k3, k4⟩ := el_kids_good hg
  obtain ⟨c1, c2, c3⟩ := chainF_good (d := 0) (t := false) hi (by omega) hne hns hd g1 g2 g3
  refine editable_swapEl h (refill_good hg hr ?_ ?_ ?_) ?_
  · rw [append_legal]; exact ⟨k1, c1⟩
  · rw [append_tame]; exact ⟨k2, c2⟩
  · rw [append_even]; exact ⟨k3, c3⟩
  · rw [plug_render, cons_render]; simpa [Forest.render] using hsz

theorem newRoot_any {indent : Bytes} (hi : c!"<" ∉ indent) {f : Forest} (h : Editable f) {ns : List Bytes} (hne : ns ≠ []) (hns : ∀ n ∈ ns, IsName n)
    (hd : ns.length ≤ 100) {g : Forest} (g1 : g.Legal ns.length) (g2 : g.Tame false) (g3 : g.Even) (hsz : (f.render ++ (chainF indent 0 ns g).render).length ≤ 10485760) :
    Editable (f.append (chainF indent 0 ns g)) := by
  obtain ⟨c1, c2, c3⟩ := chainF_good (d := 0) (k := 0) (t := true) hi (by omega) hne hns (by omega) (by simpa using g1) g2 g3
  refine ⟨by rw [append_render]; exact hsz, ?_, ?_, ?_, ?_⟩
  · rw [append_legal]; exact ⟨h.2.1, c1⟩
  · rw [append_tame]; exact ⟨h.2.2.1, c2⟩
  · rw [append_hasElem]; exact .inl h.2.2.2.1
  · rw [append_stable]; exact ⟨h.2.2.2.2, even_stable c3⟩

theorem doc_write {o : Ord} (ho : o.IsPerm) (opts : Options) (hi : c!"<" ∉ opts.indent) {f : Forest} (hf : Editable f) (hreg : f.Regular) {p : Bytes} {ps xs : List Bytes} (hp : PathSteps p (ps ++ xs)) (h0 : ps ++ xs ≠ [])
    {hs : List Hop} (ht : Trail ps (some hs)) (hxs : ∀ x ∈ xs, IsName x) (hsp : hs = [] ∨ f.info.spot opts.caseSensitive hs ≠ none) (hlen : hs.length + xs.length ≤ 100) 
    {v : GoVal} {g : Forest} (hv0 : v ≠ .nil) (hv : valueToXML v = some g.render) (hes : g.render.length ≤ 5242880) (g1 : g.Legal (hs.length + xs.length)) (g2 : g.Tame false) (g3 : g.Even) (g4 : g.Regular) :
    ∃ r, setWithOptions o f.render p v (some opts) = .ret (r, none) ∧
      (r.length ≤ 10485760 → Doc r (f.info.inside opts.caseSensitive (Info.write opts.caseSensitive opts.indent g.info xs) hs)) := by
  have hlead : hs ≠ [] → ∃ c e, f = c.plug (El.cons e .nil) ∧ LeadTo opts.caseSensitive ps c e.name := by
    intro hne
    cases h : f.info.spot opts.caseSensitive hs with
    | none => rcases hsp with h1 | h1
              · exact absurd h1 hne
              · exact absurd h h1
    | some nd =>
      obtain ⟨c, e, h1, h2, -⟩ := spot_reach h
      exact ⟨c, e, h1, hs, ht, h2⟩
  have hps0 : hs = [] → ps = [] := fun h => trail_nil (h ▸ ht)
  obtain ⟨x0, rest0, hx0⟩ : ∃ x r, ps ++ xs = x :: r := by
    cases h : ps ++ xs with
    | nil => exact absurd h h0
    | cons x r => exact ⟨x, r, rfl⟩
  have hapart := (C79_apart (cs := opts.caseSensitive) (f := f) (x := x0) (rest := rest0)).2.1
  have htop : LeadNowhere opts.caseSensitive [x0] f ∨ (∀ k, ¬ Asks x0 k) → ps = [] := by
    intro h
    by_cases hh : hs = []
    · exact hps0 hh
    · obtain ⟨c, e, h1, h2⟩ := hlead hh
      exact absurd h2 (hapart h c e h1 ps xs hx0.symm)
  rcases C79_cases opts.caseSensitive hf.2.2.2.1 x0 rest0 with ⟨c, e, rfl, hL⟩ | ⟨ps', rest', c, e, rfl, hD⟩ | ⟨hn, hno⟩ | ⟨hno, -⟩
  · -- the element is there
    rw [← hx0] at hL
    have hbody := (cons_regular (plug_regular hreg).1).2.2.1
    have hset := C79_set ho opts hf hp hL hv0 hv hes
    have hrend : c.before ++ e.start ++ g.render ++ e.stop ++ c.after = (c.plug ((e.refill e.attrs e.ws g).cons .nil)).render := by
      rw [plug_el_render]
      obtain ⟨n, as, ws, body⟩ := e
      rcases body with _ | ⟨k, cws⟩
      · exact absurd rfl hbody
      · have : cws = [] := (editable_el hf).stable.1
        subst this
        simp [El.refill, El.start, El.inner, El.stop]
    refine ⟨_, hset, fun hsz => ?_⟩
    rw [hrend]
    obtain ⟨hs', ht', hr⟩ := hL
    have := trail_fun ht' (trail_more ht hxs rfl)
    injection this with this
    subst this
    have hdeep := reach_deep hr
    simp only [List.length_append, List.length_map] at hdeep
    rw [hrend] at hsz
    refine ⟨_, editable_swapEl hf (refill_good (editable_el hf) (opened_kept hbody) (by rw [show c.depth + 1 = hs.length + xs.length by omega]; exact g1) g2 g3) hsz, ?_, rfl, ?_⟩
    · refine (plug_regular hreg).2 _ ?_
      have := cons_regular (plug_regular hreg).1
      obtain ⟨n, as, ws, body⟩ := e
      rcases body with _ | ⟨k, cws⟩
      · exact absurd rfl hbody
      · exact ⟨this.1, g4, trivial⟩
    · have h4 := inside_there (ind := opts.indent) (w := g.info) (r2 := []) hr
      rw [List.append_nil] at h4
      rw [h4]
      refine (inside_reach (x := e.refill e.attrs e.ws g) hr rfl rfl ?_).symm
      obtain ⟨n, as, ws, body⟩ := e
      rcases body with _ | ⟨k, cws⟩
      · exact absurd rfl hbody
      · rfl
  · -- some of the names are missing
    rw [← hx0] at hD
    obtain ⟨r1, rfl, rfl⟩ : ∃ r1, ps' = ps ++ r1 ∧ xs = r1 ++ rest' := by
      by_cases hh : hs = []
      · have := hps0 hh; subst this; exact ⟨ps', rfl, hD.split⟩
      · obtain ⟨c2, e2, h1, h2⟩ := hlead hh
        rcases List.append_eq_append_iff.mp hD.split with ⟨a, h3, h4⟩ | ⟨a, h3, h4⟩
        · exact ⟨a, h3, h4⟩
        · cases a with
          | nil => exact ⟨[], by simpa using h3.symm, by simpa using h4.symm⟩
          | cons y a => exact absurd h2 (hD.longest ps xs rfl (by rw [h3]; simp) c2 e2 h1)
    have hbody := (cons_regular (plug_regular hreg).1).2.2.1
    have hn2 : ∀ x ∈ rest', IsName x := fun x hx => hxs x (by simp [hx])
    have hn1 : ∀ x ∈ r1, IsName x := fun x hx => hxs x (by simp [hx])
    obtain ⟨ns, n, rfl⟩ : ∃ ns n, rest' = ns ++ [n] := ⟨rest'.dropLast, rest'.getLast hD.more, (List.dropLast_concat_getLast _).symm⟩
    obtain ⟨as, ws, ho1, ho2⟩ := C79_create ho opts hf hp hD (fun x hx => isName_negative (hn2 x hx)) (slots_isName hn2) (by simp)
    obtain ⟨rfl, rfl⟩ := ho1.kept hbody
    have hset := ho2 v g.render hv0 hv hes
    have hcnt : e.kids.info.count opts.caseSensitive (.name ((ns ++ [n]).head (by simp))) = 0 := by
      obtain ⟨y, r', hr'⟩ : ∃ y r', ns ++ [n] = y :: r' := by cases ns <;> exact ⟨_, _, rfl⟩
      simp only [hr', List.head_cons]
      have hss : ps ++ (r1 ++ (ns ++ [n])) = (ps ++ r1) ++ y :: r' := by rw [hr']; simp
      rw [hss, hr'] at hD
      exact deepest_count hD (hn2 y (by simp [hr']))
    have hrend : (chainF opts.indent 0 ((ns ++ [n]).map (spelling opts.caseSensitive)) g).render =
        slotLines opts.indent 0 ((ns ++ [n]).map fun m => some (spelling opts.caseSensitive m)) (g.render) := by
      rw [chainF_same (y := .text g.render .nil) (by simp [Forest.render]), chainF_render, ← slotLines_names, List.map_map]; simp [Function.comp_def]
    generalize hx : e.refill e.attrs e.ws (e.kids.append (chainF opts.indent 0 ((ns ++ [n]).map (spelling opts.caseSensitive)) g)) = x
    have hxr : c.before ++ x.render ++ c.after =
        c.before ++ (openTag e.name e.attrs e.ws ++ b!">" ++ e.inner ++ slotLines opts.indent 0 ((ns ++ [n]).map fun m => some (spelling opts.caseSensitive m)) (g.render) ++ closeTag e.name []) ++ c.after := by
      rw [← hrend, ← hx]
      obtain ⟨nm, eas, ews, bd⟩ := e
      cases bd <;> simp [El.refill, El.render, El.start, El.inner, El.stop, El.kids, append_render, Forest.render]
    have e2 : c.before ++ x.render ++ c.after = (c.plug (x.cons .nil)).render := by
      rw [plug_el_render]; simp [El.render]
    rw [← hxr] at hset
    obtain ⟨hs', ht', hr⟩ := hD.leads
    have := trail_fun ht' (trail_more ht hn1 rfl)
    injection this with this
    subst this
    have hdeep := reach_deep hr
    simp only [List.length_append, List.length_map] at hdeep hlen
    refine ⟨_, hset, fun hsz => ⟨c.plug (x.cons .nil), ?_, ?_, e2.symm, ?_⟩⟩
    · have := created_any hi hf (ns := (ns ++ [n]).map (spelling opts.caseSensitive)) (by simp) (fun m hm => by
        obtain ⟨m', h1, rfl⟩ := List.mem_map.mp hm; exact spelling_name (hn2 m' h1)) (by simp at hlen ⊢; omega) (g := g)
        (by
          rw [show c.depth + 1 + ((ns ++ [n]).map (spelling opts.caseSensitive)).length = hs.length + (r1 ++ (ns ++ [n])).length by simp at hdeep ⊢; omega]
          exact g1) g2 g3 ho1 (by rw [hx]; exact hsz)
      rwa [hx] at this
    · refine (plug_regular hreg).2 _ ?_
      have := cons_regular (plug_regular hreg).1
      rw [← hx]
      exact ⟨this.1, (append_regular _ _).mpr ⟨this.2.1, chainF_regular _ _ _ g4⟩, trivial⟩
    · rw [inside_there hr]
      refine (inside_reach hr (by rw [← hx]; rfl) (by rw [← hx]; rfl) ?_).symm
      rw [← hx, refill_kids, append_plus, chainF_info]
      obtain ⟨y, r', hr'⟩ : ∃ y r', ns ++ [n] = y :: r' := by cases ns <;> exact ⟨_, _, rfl⟩
      simp only [hr', List.head_cons] at hcnt ⊢
      rw [Info.write, if_pos hcnt]
  · -- no root element of the first name
    have := htop (.inl hno)
    subst this
    have hh : hs = [] := by
      have := trail_fun ht .nil
      injection this
    subst hh
    simp only [List.nil_append] at hx0 hp
    subst hx0
    have hset := C79_create_top ho opts (editable_sound hf) hp hn hno (fun y hy => isName_negative (hxs y hy)) (slots_isName hxs) (by
      rw [List.getLast?_map]; cases (x0 :: rest0).getLast? <;> simp) hv0 hv hes
    have hrend : (chainF opts.indent 0 ((x0 :: rest0).map (spelling opts.caseSensitive)) g).render =
        slotLines opts.indent 0 ((x0 :: rest0).map fun m => some (spelling opts.caseSensitive m)) (g.render) := by
      rw [chainF_same (y := .text g.render .nil) (by simp [Forest.render]), chainF_render, ← slotLines_names, List.map_map]; simp [Function.comp_def]
    have hcnt : f.info.count opts.caseSensitive (.name x0) = 0 := by
      cases hsp : f.info.spot opts.caseSensitive [(.name x0, 0)] with
      | none => simpa [Info.spot, Info.count] using hsp
      | some nd =>
        obtain ⟨c2, e2, g1, g2, -⟩ := spot_reach hsp
        exact absurd ⟨_, trail_names (rest := [x0]) (by simpa using hxs x0 (by simp)), g2⟩ (hno c2 e2 g1)
    rw [← hrend] at hset
    refine ⟨_, hset, fun hsz => ⟨_, newRoot_any hi hf (ns := (x0 :: rest0).map (spelling opts.caseSensitive)) (by simp) (fun m hm => by
      obtain ⟨m', h1, rfl⟩ := List.mem_map.mp hm; exact spelling_name (hxs m' h1)) (by simpa using hlen) (g := g) (by simpa using g1) g2 g3 hsz,
      (append_regular _ _).mpr ⟨hreg, chainF_regular _ _ _ g4⟩, append_render _ _, ?_⟩⟩
    rw [append_plus, chainF_info, Info.inside, if_pos rfl, Info.write, if_pos hcnt]
  · have := htop (.inr hno)
    subst this
    simp only [List.nil_append] at hx0
    subst hx0
    exact absurd (.name (isName_step (hxs x0 (by simp))).1) (hno _)

theorem doc_remove {o : Ord} (ho : o.IsPerm) (opts : Options) {f : Forest} (hf : Editable f) (hreg : f.Regular) {p : Bytes} {ss : List Bytes} (hp : PathSteps p ss) (h0 : ss ≠ [])
    {hs : List Hop} (ht : Trail ss (some hs)) (hmore : 2 ≤ hs.length ∨ f.info.spot opts.caseSensitive hs = none ∨ 2 ≤ f.info.elems.length) :
    ∃ r, deleteWithOptions o f.render p (some opts) = .ret (r, none) ∧ r.length ≤ 10485760 ∧ Doc r (f.info.alter opts.caseSensitive (fun _ _ _ next => next) hs) := by
  cases hsp : f.info.spot opts.caseSensitive hs with
  | none =>
    refine ⟨_, C79_delete_nowhere ho opts (editable_sound hf) hp h0 (nowhere_spot ht hsp) (trail_last ht rfl), hf.1, f, hf, hreg, rfl, ?_⟩
    rw [alter_nowhere hsp]
  | some nd =>
    obtain ⟨c, e, rfl, hr, -⟩ := spot_reach hsp
    have hdel := C79_delete ho opts hf hp ⟨hs, ht, hr⟩
    have hnil : c.before ++ c.after = (c.plug .nil).render := by rw [plug_render]; simp [Forest.render]
    have hel : (c.plug .nil).HasElem := by
      cases c with
      | within b n as ws c cws a => simp [Ctx.plug, append_hasElem, Forest.HasElem]
      | here b a =>
        rcases hmore with h | h | h
        · have := reach_deep hr; simp [Ctx.depth] at this; omega
        · rw [hsp] at h; cases h
        · refine elems_hasElem ?_
          simp only [Ctx.plug] at h ⊢
          rw [cons_append, append_elems, cons_says] at h
          rw [append_elems]
          intro hh
          obtain ⟨h1, h2⟩ := List.append_eq_nil_iff.mp hh
          simp only [Forest.append] at h2
          rw [h1] at h
          simp [Info.elems, Forest.append, h2] at h
    have hsz : (c.plug .nil).render.length ≤ 10485760 := by
      have := hf.1
      rw [plug_render] at this ⊢
      simp only [List.length_append, Forest.render, List.length_nil] at this ⊢
      omega
    rw [hnil, if_neg (render_ne hel)] at hdel
    refine ⟨_, hdel, hsz, c.plug .nil, editable_swap hf (y := .nil) trivial trivial trivial (fun _ => trivial) hel hsz, (plug_regular hreg).2 _ trivial, rfl, ?_⟩
    exact (alter_reach hr fun a => rfl).symm

theorem doc_label {f : Forest} (hf : Editable f) (hreg : f.Regular) {q : LabelCall} (ho : q.ord.IsPerm) (hfit : q.op.Fits) {ps : List Bytes} (hp : PathSteps q.path (ps ++ [c!"@" :: q.op.key]))
    {hs : List Hop} (ht : Trail ps (some hs)) {nd : Node} (hsp : f.info.spot q.opts.caseSensitive hs = some nd) {ks : List Bytes} (hks : ks.length ≤ 100) (hk : spelling q.opts.caseSensitive q.op.key ∈ ks)
    (hnames : ∀ j, nd.attr j ≠ none → j ∈ ks) :
    ∃ r, q.run f.render = .ret (r, none) ∧
      (r.length ≤ 10485760 → Doc r (f.info.alter q.opts.caseSensitive (fun n a k next => .elem n (q.op.onBy q.opts.caseSensitive a) k next) hs)) := by
  obtain ⟨c, e, rfl, hr, rfl⟩ := spot_reach hsp
  obtain ⟨g1, g2, g3, -⟩ := cons_regular (plug_regular hreg).1
  have hat : LabelsAt ks c e (Spec.attrVal e.attrs) := ⟨hf, g1, fun a ha => hnames a.name ((attrVal_iff _ _).mpr (List.mem_map_of_mem ha)), rfl⟩
  obtain ⟨e', h1, h2, h3, h4⟩ := C94_step hks hat (q := q) ⟨ho, hfit, hk, ps, ⟨hs, ht, hr⟩, hp⟩
  refine ⟨_, h3, fun hsz => ⟨_, (h4 hsz).doc, ?_, rfl, ?_⟩⟩
  · refine (plug_regular hreg).2 _ ?_
    have hon := (h4 hsz).once
    obtain ⟨n, as, ws, body⟩ := e
    obtain ⟨n', as', ws', body'⟩ := e'
    simp only at h2 hon
    subst h2
    rcases body' with _ | ⟨k, cws⟩
    · exact absurd rfl g3
    · exact ⟨hon, g2, trivial⟩
  · refine (alter_reach hr fun a => ?_).symm
    rw [cons_append, cons_says, h1, (h4 hsz).map]
    have : e'.kids = e.kids := by simp [El.kids, h2]
    rw [this]; rfl

/-- An element created with an attribute. -/
theorem doc_attach {o : Ord} (ho : o.IsPerm) (opts : Options) (hi : c!"<" ∉ opts.indent) {f : Forest} (hf : Editable f) (hreg : f.Regular) {p : Bytes} {ps xs : List Bytes} {k s : Bytes}
    (hp : PathSteps p (ps ++ xs ++ [c!"@" :: k])) {hs : List Hop} (ht : Trail ps (some hs)) (h0 : xs ≠ []) (hxs : ∀ x ∈ xs, IsName x) (hsp : hs = [] ∨ f.info.spot opts.caseSensitive hs ≠ none)
    (hno : f.info.spot opts.caseSensitive (hs ++ xs.map fun x => (.name x, 0)) = none) (hlen : hs.length + xs.length ≤ 100) (hfit : (MapOp.put k s).Fits) :
    (∃ r, setWithOptions o f.render p (.str s) (some opts) = .ret (r, none) ∧ (r.length ≤ 10485760 → Doc r ((DocOp.attach hs xs k s).on opts.caseSensitive opts.indent f.info))) ∨
      (∃ q r, PathSteps q (ps ++ xs) ∧ setWithOptions o f.render q (.str []) (some opts) = .ret (r, none) ∧ 10485760 < r.length) ∧
        setWithOptions o f.render p (.str s) (some opts) = .ret (f.render, some .malformed) := by
  obtain ⟨q, hq⟩ := pathSteps_prefix hp (by simp [h0])
  have ht2 := trail_more ht hxs rfl
  obtain ⟨r, h1, h2⟩ := doc_write ho opts hi hf hreg hq (by simp [h0]) ht hxs hsp hlen (v := .str []) (g := .nil) (by simp) rfl (by decide) trivial trivial trivial trivial
  obtain ⟨nd, n1, n2⟩ := inside_spot opts.caseSensitive opts.indent .nil h0 f.info hsp hno
  have hm := attribute_missing ho opts hf hp hq ⟨k, rfl⟩ (nowhere_spot ht2 hno) h1 ht2 (by simp [h0]) (fun hsz => by
    obtain ⟨f', k1, -, rfl, k4⟩ := h2 hsz
    rw [show Forest.nil.info = Info.nil from rfl] at k4
    rw [← k4] at n1
    obtain ⟨c, e, rfl, m2, -⟩ := spot_reach n1
    exact ⟨c, e, rfl, k1, m2⟩) (v := .str s) (by simp) rfl (by have := hfit.2; omega)
  by_cases hsz : r.length ≤ 10485760
  · rw [if_pos hsz] at hm
    obtain ⟨f', k1, k2, rfl, k4⟩ := h2 hsz
    rw [show Forest.nil.info = Info.nil from rfl] at k4
    rw [← k4] at n1
    obtain ⟨r2, r3, r4⟩ := doc_label k1 k2 (q := ⟨o, p, opts, .put k s⟩) ho hfit hp ht2 n1 (ks := [spelling opts.caseSensitive k]) (by simp) (by simp [MapOp.key]) (fun j hj => absurd (by rw [n2]) hj)
    refine .inl ⟨r2, hm.trans r3, fun hl => ?_⟩
    have := r4 hl
    rw [k4] at this
    exact this
  · rw [if_neg hsz] at hm
    exact .inr ⟨⟨q, r, hq, h1, by omega⟩, hm⟩

theorem misc_render_ne (m : Misc) : m.render ≠ [] := by cases m <;> simp [Misc.render]

theorem none_count {cs : Bool} {x : Bytes} {f g : Forest} (hf : f.info.count cs (.name x) = 0) : (f.append g).info.count cs (.name x) = g.info.count cs (.name x) := by
  simp only [Info.count, append_elems, List.filter_append, List.length_append] at hf ⊢
  omega

/-- Behind the last one, or at the end. -/
theorem add_at {cs : Bool} {x nl n : Bytes} {w : Info} {k1 k2 : Forest} (h : AfterLastBy cs x k1 k2) (pre : Bool) :
    Info.add cs x nl n w pre (k1.append k2).info = k1.info.plus (.text (if pre = true ∨ k1.render ≠ [] then nl else []) (.elem n (fun _ => none) w k2.info)) := by
  have hz : ∀ f : Forest, f.info.namedBy cs x = [] ↔ f.info.count cs (.name x) = 0 := fun f => List.length_eq_zero_iff.symm
  rcases h with ⟨b, e, rfl, hm, hn⟩ | ⟨hn, rfl⟩
  · rw [hz] at hn
    have hne : (b.append (e.cons .nil)).render ≠ [] := by rw [append_render, cons_render]; simp [El.render, El.start, openTag]
    rw [append_assoc, cons_append, if_pos (.inr hne)]
    have hc : ∀ (b : Forest), ((b.append (e.cons k2)).info.count cs (.name x)) ≠ 0 := by
      intro b
      simp only [Info.count, append_elems, List.filter_append, List.length_append, cons_says, Info.elems, List.filter_cons]
      rw [if_pos (by exact hm)]
      simp
    clear hne
    show (Info.add cs x nl n w pre (b.append (e.cons k2)).info) = _
    induction b generalizing pre with
    | nil =>
      simp only [Forest.append]
      rw [cons_says, cons_says, Info.add, if_pos ⟨hm, hn⟩]
      rfl
    | text t next ih => simp only [Forest.append, Forest.info, Info.add, Info.plus]; rw [ih]
    | misc t next ih => simp only [Forest.append, Forest.info, Info.add, Info.plus]; rw [ih]
    | leaf m as ws next ih => simp only [Forest.append, Forest.info, Info.add, Info.plus]; rw [if_neg (fun h => hc next h.2), ih]
    | node m as ws k cws next _ ih => simp only [Forest.append, Forest.info, Info.add, Info.plus]; rw [if_neg (fun h => hc next h.2), ih]
  · rw [hz] at hn
    rw [append_nil, show Forest.nil.info = .nil from rfl]
    induction k1 generalizing pre with
    | nil => cases pre <;> simp [Forest.info, Info.add, Info.plus, Forest.render]
    | text t next ih =>
      simp only [Forest.info, Info.add, Info.plus]
      rw [ih _ (by simpa [Forest.info, Info.count, Info.elems] using hn)]
      by_cases ht : t = [] <;> simp [Forest.render, ht]
    | misc t next ih =>
      simp only [Forest.info, Info.add, Info.plus]
      rw [ih _ (by simpa [Forest.info, Info.count, Info.elems] using hn)]
      simp [Forest.render, misc_render_ne]
    | leaf m as ws next ih =>
      have hm : agrees cs x m = false := by
        cases h : agrees cs x m with
        | false => rfl
        | true => simp [Forest.info, Info.count, Info.elems, Pick.takes, h] at hn
      simp only [Forest.info, Info.add, Info.plus]
      rw [if_neg (by simp [hm]), ih _ (by simpa [Forest.info, Info.count, Info.elems, Pick.takes, hm] using hn)]
      simp [Forest.render, openTag]
    | node m as ws k cws next _ ih =>
      have hm : agrees cs x m = false := by
        cases h : agrees cs x m with
        | false => rfl
        | true => simp [Forest.info, Info.count, Info.elems, Pick.takes, h] at hn
      simp only [Forest.info, Info.add, Info.plus]
      rw [if_neg (by simp [hm]), ih _ (by simpa [Forest.info, Info.count, Info.elems, Pick.takes, hm] using hn)]
      simp [Forest.render, openTag]

/-- The content after an append: the new element, with what comes before it on its line, between the two parts. -/
def added (nl n : Bytes) (g k1 k2 : Forest) : Forest := k1.append (.text nl (.node n [] [] g [] k2))

theorem added_good {k1 k2 g : Forest} {nl x : Bytes} {d : Nat} {t : Bool} (hnl : c!"<" ∉ nl) (hx : IsName x) (g1 : g.Legal (d + 1)) (g2 : g.Tame false) (g3 : g.Even) (h0 : 0 < d) (hd : d < 100)
    (hl : (k1.append k2).Legal d) (ht : (k1.append k2).Tame t) (he : (k1.append k2).Even) : (added nl x g k1 k2).Legal d ∧ (added nl x g k1 k2).Tame t ∧ (added nl x g k1 k2).Even := by
  rw [append_legal] at hl
  rw [append_tame] at ht
  rw [append_even] at he
  obtain ⟨p1, p2, p3⟩ := chain_good (ns := [x]) (x := g) (d := d) (t := t) (by simp) (by simpa using hx) (by simp; omega) g1 g2 g3
  have e : Forest.node x [] [] g [] k2 = (Forest.node x [] [] g [] .nil).append k2 := rfl
  rw [added, e]
  exact ⟨(append_legal _ _ _).mpr ⟨hl.1, hnl, by omega, (append_legal _ _ _).mpr ⟨p1, hl.2⟩⟩, (append_tame _ _ _).mpr ⟨ht.1, (append_tame _ _ _).mpr ⟨p2, ht.2⟩⟩,
    (append_even _ _).mpr ⟨he.1, (append_even _ _).mpr ⟨p3, he.2⟩⟩⟩

theorem doc_add {o : Ord} (ho : o.IsPerm) (opts : Options) (hi : c!"<" ∉ opts.indent) {f : Forest} (hf : Editable f) (hreg : f.Regular) {p : Bytes} {ps : List Bytes} {x y : Bytes} (hp : PathSteps p (ps ++ [x, y]))
    {hs : List Hop} (ht : Trail ps (some hs)) (hy : Negative y 1) (hx : IsName x) (hsp : f.info.spot opts.caseSensitive hs ≠ none)
    {v : GoVal} {g : Forest} (hv0 : v ≠ .nil) (hv : valueToXML v = some g.render) (hes : g.render.length ≤ 5242880) (t1 : g.Legal (hs.length + 1)) (t2 : g.Tame false) (t3 : g.Even) (t4 : g.Regular) :
    ∃ r, r.length ≤ 10485760 ∧ setWithOptions o f.render p v (some opts) = .ret (r, none) ∧
        Doc r (f.info.alter opts.caseSensitive (fun n a k next => .elem n a (Info.add opts.caseSensitive x (newLine opts.indent ps.length) (spelling opts.caseSensitive x) g.info false k) next) hs) ∨
      10485760 < f.render.length + (newLine opts.indent ps.length).length + 2 * x.length + 5 + g.render.length ∧ setWithOptions o f.render p v (some opts) = .ret (f.render, some .invalidValue) := by
  obtain ⟨c, e, rfl, hr⟩ : ∃ c e, f = c.plug (El.cons e .nil) ∧ Reach opts.caseSensitive hs c e.name := by
    cases h : f.info.spot opts.caseSensitive hs with
    | none => exact absurd h hsp
    | some nd => obtain ⟨c, e, h1, h2, -⟩ := spot_reach h; exact ⟨c, e, h1, h2⟩
  obtain ⟨g1, g2, g3, -⟩ := cons_regular (plug_regular hreg).1
  obtain ⟨s1, s2, -⟩ := isName_step hx
  have hL : LeadTo opts.caseSensitive ps c e.name := ⟨hs, ht, hr⟩
  obtain ⟨k1, k2, hk, hal⟩ := afterLast_existsB (cs := opts.caseSensitive) x e.kids
  obtain ⟨as, ws, h1, h2⟩ := C91_append ho opts hf hp s1 hy hL
  obtain ⟨rfl, rfl⟩ := h1.kept g3
  obtain ⟨r, r1, r2⟩ := h2 k1 k2 hk (by rw [s2]; exact hal) v g.render hv0 hv hes
  rw [s2] at r1
  have r3 : r = (c.plug ((e.refill e.attrs e.ws (added (leadIn opts.indent ps.length k1) (spelling opts.caseSensitive x) g k1 k2)).cons .nil)).render := by
    rw [r1, plug_el_render]
    simp [El.refill, El.start, El.inner, El.stop, added, append_render, Forest.render, plainEl, El.render, openTag, closeTag, leadIn]
  clear r1
  subst r3
  by_cases hsz : (c.plug ((e.refill e.attrs e.ws (added (leadIn opts.indent ps.length k1) (spelling opts.caseSensitive x) g k1 k2)).cons .nil)).render.length ≤ 10485760
  · have hgd := editable_el hf
    obtain ⟨q1, q2, q3, -⟩ := el_kids_good hgd
    have hdeep := reach_deep hr
    have hdep : c.depth + 1 < 100 := by
      have h2 := trail_short ht _ rfl
      have h3 := pathSteps_short hp
      simp only [List.length_append, List.length_cons, List.length_nil] at h3
      omega
    rw [hk] at q1 q2 q3
    obtain ⟨u1, u2, u3⟩ := added_good (leadIn_text hi ps.length k1) (spelling_name (cs := opts.caseSensitive) hx) (by rw [show c.depth + 1 + 1 = hs.length + 1 by omega]; exact t1) t2 t3 (by omega) hdep q1 q2 q3
    refine ⟨_, .inl ⟨hsz, r2.trans (if_neg (by omega)), _, editable_swapEl hf (refill_good hgd h1 u1 u2 u3) hsz, ?_, rfl, ?_⟩⟩
    · refine (plug_regular hreg).2 _ ⟨g1, ?_, trivial⟩
      rw [hk, append_regular] at g2
      exact (append_regular _ _).mpr ⟨g2.1, List.nodup_nil, t4, g2.2⟩
    · refine (alter_reach hr fun a => ?_).symm
      rw [cons_append, cons_says, refill_kids, hk, add_at hal, added, append_plus]
      have hat : Spec.attrVal ([] : List Attr) = fun _ => none := by funext k; simp [Spec.attrVal]
      have hnl : (if false = true ∨ k1.render ≠ [] then newLine opts.indent ps.length else []) = leadIn opts.indent ps.length k1 := by
        by_cases h : k1.render = [] <;> simp [leadIn, h]
      rw [hnl]
      simp [El.refill, Forest.info, hat, Forest.append]
  · refine ⟨[], .inr ⟨?_, r2.trans (if_pos ⟨g3, by omega⟩)⟩⟩
    have hl : (leadIn opts.indent ps.length k1).length ≤ (newLine opts.indent ps.length).length := by
      unfold leadIn; split
      · exact Nat.zero_le _
      · exact Nat.le_refl _
    have hx2 : (spelling opts.caseSensitive x).length = x.length := by
      cases opts.caseSensitive
      · exact lower_length x
      · rfl
    have hst := (editable_el hf).stable
    obtain ⟨n, as, ws, body⟩ := e
    rcases body with _ | ⟨k, cws⟩
    · exact absurd rfl g3
    · have : cws = [] := hst.1
      subst this
      simp only [El.kids] at hk
      rw [plug_el_render] at hsz ⊢
      simp only [El.refill, El.start, El.inner, El.stop, hk, added, append_render, Forest.render, openTag, closeTag, List.length_append, List.length_cons, List.length_nil, hx2, List.flatMap_nil, Option.isNone_some, Bool.false_eq_true, if_false] at hsz ⊢
      omega

/-- A text is stored as a text. -/
theorem stored_text {v : GoVal} {s : Bytes} (h : StoredText v s) {d : Nat} (hd : 0 < d) : StoredAs v d (.text (escapeXML s) .nil) := by
  obtain ⟨t1, t2, t3⟩ := plain_text (d := d) (C20_no_markup s) hd
  refine ⟨.text (escapeXML s) .nil, rfl, t1, t2, t3, trivial, h.1, ?_, ?_⟩
  · rw [h.2.1]; simp [Forest.render, valueToXML]
  · simp only [Forest.render, List.append_nil]
    rw [valueToXML_size (v := .str s) rfl]
    exact h.2.2

/-- C96: Set and Delete are functions on what documents say. The call succeeds, and the result is a document that says what the function gives for what the document said: content (a text, or
markup given as it is) written along the path, with new elements where names at the end of the path are missing; an element added with -1; an element removed, if it is there; an attribute of an
element set or removed; an element created with an attribute. (With -1, Set fails if the document and the new element are longer than 10 MiB, and for an attribute of a new element it
fails if the document with the empty element is.) -/
theorem C96_step {xml : Bytes} {i : Info} (h : Doc xml i) {q : DocCall} (hq : q.Meant i) :
    (∃ r, q.run xml = .ret (r, none) ∧ (r.length ≤ 10485760 → Doc r (q.on i))) ∨
      (q.run xml = .ret (xml, some .invalidValue) ∧ ∃ hs d x w b, q.op = .add hs d x w ∧ valueToXML q.val = some b ∧ 10485760 < xml.length + (newLine q.opts.indent d).length + 2 * x.length + 5 + b.length) ∨
      (q.run xml = .ret (xml, some .malformed) ∧ ∃ hs xs k s p ps r, q.op = .attach hs xs k s ∧ PathSteps q.path (ps ++ [c!"@" :: k]) ∧ PathSteps p ps ∧
        setWithOptions q.ord xml p (.str []) (some q.opts) = .ret (r, none) ∧ 10485760 < r.length) := by
  obtain ⟨f, hf, hreg, rfl, rfl⟩ := h
  obtain ⟨o, p, v, opts, op⟩ := q
  obtain ⟨ho, hi, ss, hp, hm⟩ := hq
  simp only at ho hi hp hm
  cases op with
  | write hs xs w =>
    obtain ⟨⟨ps, rfl, h0, ht⟩, h1, h2, h3, g, rfl, g1, g2, g3, g4, g5, g6, g7⟩ := hm
    exact .inl (doc_write ho opts hi hf hreg hp h0 ht h1 h2 h3 g5 g6 g7 g1 g2 g3 g4)
  | add hs d x w =>
    obtain ⟨⟨ps, y, rfl, rfl, ht, hy⟩, h1, h2, g, rfl, g1, g2, g3, g4, g5, g6, g7⟩ := hm
    obtain ⟨r, ⟨-, r1, r2⟩ | ⟨hbig, r1⟩⟩ := doc_add ho opts hi hf hreg hp ht hy h1 h2 g5 g6 g7 g1 g2 g3 g4
    · exact .inl ⟨r, r1, fun _ => r2⟩
    · exact .inr (.inl ⟨r1, _, _, _, _, _, rfl, g6, hbig⟩)
  | remove hs =>
    obtain ⟨ht, h0, h1⟩ := hm
    obtain ⟨r, r1, -, r3⟩ := doc_remove ho opts hf hreg hp h0 ht h1
    exact .inl ⟨r, r1, fun _ => r3⟩
  | label hs op =>
    obtain ⟨ps, nd, rfl, ht, h1, hv, h2, ks, h3, h4, h5⟩ := hm
    obtain ⟨r, r1, r2⟩ := doc_label hf hreg (q := ⟨o, p, opts, op⟩) ho h1 hp ht h2 h3 h4 h5
    refine .inl ⟨r, ?_, r2⟩
    cases op with
    | put k s =>
      obtain ⟨h6, h7, -⟩ := hv k s rfl
      exact (value_alike _ _ _ _ _ _ h7 h6 (by simp)).trans r1
    | drop k => exact r1
  | attach hs xs k s =>
    obtain ⟨⟨ps, rfl, ht⟩, h0, h1, h2, h3, h4, h5, h6, h7, -⟩ := hm
    have hal : setWithOptions o f.render p v (some opts) = setWithOptions o f.render p (.str s) (some opts) := value_alike _ _ _ _ _ _ h7 h6 (by simp)
    rcases doc_attach ho opts hi hf hreg hp ht h0 h1 h2 h3 h4 h5 with ⟨r, r1, r2⟩ | ⟨⟨p', r', m1, m2, m3⟩, r1⟩
    · exact .inl ⟨r, hal.trans r1, r2⟩
    · exact .inr (.inr ⟨hal.trans r1, _, _, _, _, p', _, r', rfl, hp, m1, m2, m3⟩)

/-- C96: any series of such calls. -/
theorem C96_run (qs : List DocCall) {xml : Bytes} {i : Info} (h : Doc xml i) (hq : DocCall.AllMeant qs i) {r : Bytes} (hr : DocCall.runAll xml qs = some r) : Doc r (DocCall.onAll qs i) := by
  induction qs generalizing xml i with
  | nil => simp only [DocCall.runAll, Option.some.injEq] at hr; subst hr; exact h
  | cons q qs ih =>
    obtain ⟨h1, h2⟩ := hq
    rcases C96_step h h1 with ⟨r1, k1, k2⟩ | ⟨k1, -⟩ | ⟨k1, -⟩
    · rw [DocCall.runAll, k1] at hr
      simp only at hr
      by_cases hsz : r1.length ≤ 10485760
      · rw [if_pos hsz] at hr
        exact ih (k2 hsz) h2 hr
      · rw [if_neg hsz] at hr; cases hr
    · rw [DocCall.runAll, k1] at hr; cases hr
    · rw [DocCall.runAll, k1] at hr; cases hr

theorem doc_says {xml : Bytes} {i : Info} (h : Doc xml i) : Says xml i := by
  obtain ⟨f, hf, -, rfl, rfl⟩ := h
  exact editable_says hf

/-- C96: Documents that say the same still say the same after the same calls, however they are written, and every Get gives the same answers on both, with any options.
(The calls may spell their paths differently and meet attributes in different orders. For a Get without regard to case, no element may have attributes that differ in case only.) -/
theorem C96_same (qs qs' : List DocCall) (hsame : qs'.map (fun q => (q.opts, q.op)) = qs.map (fun q => (q.opts, q.op))) {xml1 xml2 : Bytes} {i : Info} (h1 : Doc xml1 i) (h2 : Doc xml2 i)
    (hq : DocCall.AllMeant qs i) (hq' : DocCall.AllMeant qs' i) {r1 r2 : Bytes} (k1 : DocCall.runAll xml1 qs = some r1) (k2 : DocCall.runAll xml2 qs' = some r2) :
    (∃ j, Doc r1 j ∧ Doc r2 j) ∧ ∀ (o1 o2 : Ord) (mods : Bytes → Option (Result → Result)) (pf : Bytes → Option FVal) (path : Bytes) (opts : Option Options), o1.IsPerm → o2.IsPerm →
      (∀ n m, mods n = some m → RawBlind m) → ((opts.getD defaultOptions).caseSensitive = false → (DocCall.onAll qs i).CaseUnique) → SameOutcome (getWithOptions ⟨o1, mods, pf⟩ r1 path opts) (getWithOptions ⟨o2, mods, pf⟩ r2 path opts) := by
  have hon : ∀ (l l' : List DocCall) (i : Info), l'.map (fun q => (q.opts, q.op)) = l.map (fun q => (q.opts, q.op)) → DocCall.onAll l' i = DocCall.onAll l i := by
    intro l
    induction l with
    | nil => intro l' i h; simp at h; subst h; rfl
    | cons q l ih =>
      intro l' i h
      cases l' with
      | nil => simp at h
      | cons q' l' =>
        simp only [List.map_cons, List.cons.injEq, Prod.mk.injEq] at h
        obtain ⟨⟨e1, e2⟩, e3⟩ := h
        have hqq : ∀ i, q'.on i = q.on i := by intro i; simp only [DocCall.on, e1, e2]
        show DocCall.onAll l' (q'.on i) = DocCall.onAll l (q.on i)
        rw [hqq]
        exact ih l' _ e3
  have d1 := C96_run qs h1 hq k1
  have d2 := C96_run qs' h2 hq' k2
  rw [hon qs qs' i hsame] at d2
  exact ⟨⟨_, d1, d2⟩, fun o1 o2 mods pf path opts p1 p2 hm hu => C47_getWithOptions o1 o2 p1 p2 mods hm pf r1 r2 _ (doc_says d1) (doc_says d2) path opts hu⟩

/-! ### copies -/

theorem canon_regular {f g : Forest} (hr : f.Regular) (hc : CanonF g) (h : Twin f.redo g) : g.Regular := by
  induction f generalizing g with
  | nil => cases h; trivial
  | text b next ih => cases h with | text h => have h2 := fun hc => ih hr hc h; exact h2 hc
  | misc m next ih => cases h with | misc h => have h2 := fun hc => ih hr hc h; exact h2 hc
  | leaf n as ws next ih => exact hr.elim
  | node n as ws kids cws next ihk ihn =>
    cases h with
    | node hl hp hk h =>
      obtain ⟨⟨m, hm, he⟩, -, -, hck, hcn⟩ := hc
      refine ⟨?_, ihk hr.2.1 hck hk, ihn hr.2.2 hcn h⟩
      rw [he, List.map_map]
      exact hm

/-- Content that can be written into a document at depth 1, of fewer than `N` levels. -/
def RegContent (N : Nat) (c : Bytes) : Prop := ∃ g : Forest, CanonF g ∧ g.Legal 1 ∧ g.Tame false ∧ g.Regular ∧ g.levels < N ∧ g.render = c

theorem topElems_regular {o : Ord} (ho : o.IsPerm) {N : Nat} {f : Forest} {d : Nat} {top : Bool} (hl : f.Legal d) (ht : f.Tame top) (hreg : f.Regular) (hN : f.levels ≤ N) :
    ∀ e ∈ topElems o f.render, RegContent N e.content := by
  induction f with
  | nil => rw [Forest.render, topElems_empty]; simp
  | text b next ih =>
    obtain ⟨hb, -, hl⟩ := hl
    rw [Forest.render, topElems_skip (skipToNext_text hb _)]
    exact ih hl ht hreg hN
  | misc m next ih =>
    obtain ⟨hm, hl⟩ := hl
    obtain ⟨hi, ht⟩ := ht
    have hout : m.Outer := by
      cases top
      · exact Misc.inner_outer (by simpa using hi)
      · simpa using hi
    rw [Forest.render, topElems_skip (skipToNext_outer hm hout _)]
    exact ih hl ht hreg hN
  | leaf n as ws next ih => exact hreg.elim
  | node n as ws kids cws next ihk ihn =>
    have hlo := Forest.Legal.loose hl
    obtain ⟨hn, ha, hws, hlk, hcws, -⟩ := hlo
    obtain ⟨-, hlen, htk, ht⟩ := ht
    simp only [Forest.levels] at hN
    obtain ⟨g, h1, h2, h3, h4, h6, h5⟩ := elemAt_open ho (r := next.render) hn ha hws hlk htk hcws hlen
    have e : (Forest.node n as ws kids cws next).render = openTag n as ws ++ c!">" :: (kids.render ++ (closeTag n cws ++ next.render)) := by simp [Forest.render]
    rw [e, topElems_some (skipToNext_open hn as ws _), h5]
    intro x hx
    rcases List.mem_cons.mp hx with rfl | hx
    · refine ⟨g, h1, legal_lower (d := 0) (k := d) ?_, h3, canon_regular hreg.2.1 h1 h6, ?_, rfl⟩
      · have := h2.2 (d + 1) hl.2.2.2.2.1
        rw [show 0 + d + 1 = d + 1 by omega]; exact this
      · rw [← levels_info, h4, levels_info]; omega
    · exact ihn hl.2.2.2.2.2.2 ht hreg.2.2 (by omega) x hx

theorem closed_regular {o : Ord} (ho : o.IsPerm) (N : Nat) :
    Closed o (fun x => ∃ (f : Forest) (d : Nat) (top : Bool), f.Legal d ∧ f.Tame top ∧ f.Regular ∧ f.levels ≤ N ∧ f.render = x) (RegContent N) where
  step := by rintro x ⟨f, d, top, hl, ht, hne, hN, rfl⟩; exact topElems_regular ho hl ht hne hN
  again := by rintro x ⟨g, -, hl, ht, hne, hN, rfl⟩; exact ⟨g, 1, false, hl, ht, hne, by omega, rfl⟩

/-- C96: copies. The Raw of any element that Get finds in such a document, with any path without `|` and any options, is content that the calls above can write, and what is written says what
the result says. (So the document into which it is written by SetWithOptions, this one or another one, then says at that place what the element said; C96_step.) -/
theorem C96_copy (env : Env) (ho : env.ord.IsPerm) {xml : Bytes} {i : Info} (h : Doc xml i) (path : Bytes) (hp : c!"|" ∉ path) (opts : Option Options)
    (r : Result) (hr : getWithOptions env xml path opts = .ret r) (a : Result) (ha : a ∈ r.array) (hta : a.typ = .element) (hraw : a.raw.length ≤ 5242880) {d : Nat} (hd : 0 < d) (hlev : d + i.levels ≤ 101) :
    ∃ w, StoredAs (.raw a.raw) d w ∧ ∀ n as, IsElement a ⟨n, as, w⟩ := by
  obtain ⟨f, hf, hreg, rfl, rfl⟩ := h
  let C : Bytes → Bytes → Prop := fun c s => RegContent f.levels c ∧ s = unescapeXML (extractTextContent c)
  have : Atoms (RegContent f.levels) (ResultItem C) := item_atoms fun c hc => ⟨hc, rfl⟩
  have hflat : Flat (ResultItem C) r := getWithOptions_shape (closed_regular ho f.levels) (fun _ => ⟨f, 0, true, hf.2.1, hf.2.2.1, hreg, Nat.le_refl _, rfl⟩) path opts
    (fun ss hs => hs.elim (fun hs => keeps_none (parsePath_nobar hp hs)) (fun hs => keeps_none (parsePathWithOptions_nobar hp hs))) hr
  have hitem : ResultItem C a := by
    rcases hflat with ⟨h, -⟩ | h | ⟨h, -, h2⟩
    · simp [Result.array, h] at ha
    · have h3 := item_not_array r h
      have h4 : r.typ ≠ .null := by rcases h.typ with h | h | h | h <;> simp [h]
      simp only [Result.array, if_neg h3, if_neg h4, List.mem_singleton] at ha
      rw [ha]; exact h
    · simp only [Result.array, if_pos h] at ha; exact h2 a ha
  obtain ⟨⟨g, h1, h2, h3, h4, h5, h6⟩, hs⟩ := hitem.elem hta
  rw [levels_info] at hlev
  refine ⟨g.info, ⟨g, rfl, legal_deeper h2 (by omega) hd (by omega), h3, neatF_even (neatF_canon.mpr h1), h4, by simp, by rw [h6]; rfl, by rw [h6]; exact hraw⟩, fun n as => ⟨hta, ?_,
    ⟨.done g, h2.loose, h3, canonF_plain.mp h1, h6, rfl⟩, hitem.results⟩⟩
  have := stripTags_canon h1 (Forest.Legal.loose h2) h3 []
  simp only [List.append_nil, stripTags] at this
  rw [hs, ← h6, extractTextContent, this]; rfl

/-- The same said in two ways. -/
def exSay1 : Forest := .node b!"r" [] [] (.node b!"a" [⟨b!" ", b!"k", [], [], c!"'", b!"1"⟩, ⟨b!" ", b!"j", [], [], c!"\"", b!"2"⟩] [] (.text b!"x" .nil) [] (.node b!"b" [] [] (.text b!"y" .nil) [] .nil)) [] .nil
def exSay2 : Forest := .node b!"r" [] b!"  " (.node b!"a" [⟨b!"\t", b!"j", [], [], c!"'", b!"2"⟩, ⟨b!"\n", b!"k", [], [], c!"\"", b!"1"⟩] [] (.text b!"x" .nil) [] (.node b!"b" [] [] (.text b!"y" .nil) [] .nil)) [] .nil
/-- Seven calls: write `<` at `r.*.1.c.d`, remove `r.b.7` (which is not there), set `r.a.@k` to the number 9, add one more `r.a` around `<u w="1">v</u>`, remove `r.b`, write `<u w="1">v</u>` at `r.e`, and set `r.n.m.@k` (where nothing is) to 9. -/
def exFrag : Forest := .node b!"u" [⟨b!" ", b!"w", [], [], c!"\"", b!"1"⟩] [] (.text b!"v" .nil) [] .nil
def exSayCalls (o : Ord) : List DocCall :=
  [⟨o, b!"r.*.1.c.d", .str b!"<", inOpts, .write [(.name b!"r", 0), (.any, 1)] [b!"c", b!"d"] (.text b!"&lt;" .nil)⟩, ⟨o, b!"r.b.7", .nil, defaultOptions, .remove [(.name b!"r", 0), (.name b!"b", 7)]⟩,
    ⟨o, b!"r.a.@k", .int 9, defaultOptions, .label [(.name b!"r", 0), (.name b!"a", 0)] (.put b!"k" b!"9")⟩,
    ⟨o, b!"r.a.-1", .raw exFrag.render, inOpts, .add [(.name b!"r", 0)] 1 b!"a" exFrag.info⟩, ⟨o, b!"r.b", .nil, defaultOptions, .remove [(.name b!"r", 0), (.name b!"b", 0)]⟩,
    ⟨o, b!"r.e", .raw exFrag.render, defaultOptions, .write [(.name b!"r", 0)] [b!"e"] exFrag.info⟩,
    ⟨o, b!"r.n.m.@k", .int 9, defaultOptions, .attach [(.name b!"r", 0)] [b!"n", b!"m"] b!"k" b!"9"⟩]

/-- C96: the two documents after the calls; they differ only in how they are written. -/
theorem C96_witness :
    exSay1.render = b!"<r><a k='1' j=\"2\">x</a><b>y</b></r>" ∧ exSay2.render = b!"<r  ><a\tj='2'\nk=\"1\">x</a><b>y</b></r>" ∧
    DocCall.runAll exSay1.render (exSayCalls exEnv.ord) = some b!"<r><a j=\"2\" k=\"9\">x</a>\n  <a><u w=\"1\">v</u></a><e><u w=\"1\">v</u></e><n><m k=\"9\"></m></n></r>" ∧
    DocCall.runAll exSay1.render ((exSayCalls exEnv.ord).take 3) = some b!"<r><a j=\"2\" k=\"9\">x</a><b>y\n<c>\n  <d>&lt;</d></c></b></r>" ∧
    DocCall.runAll exSay2.render (exSayCalls exEnv.ord) = some b!"<r  ><a j=\"2\" k=\"9\">x</a>\n  <a><u w=\"1\">v</u></a><e><u w=\"1\">v</u></e><n><m k=\"9\"></m></n></r>" := by
  refine ⟨?_, ?_, ?_, ?_, ?_⟩ <;> decide +kernel

theorem exSay_same : exSay2.info = exSay1.info := by
  simp only [exSay1, exSay2, Forest.info, Info.elem.injEq, true_and, and_true]
  funext j
  by_cases h1 : j = b!"k"
  · subst h1; decide +kernel
  · by_cases h2 : j = b!"j"
    · subst h2; decide +kernel
    · simp [Spec.attrVal, Ne.symm h1, Ne.symm h2]

theorem exSay_docs : Doc exSay1.render exSay1.info ∧ Doc exSay2.render exSay1.info :=
  ⟨⟨_, editable_of (by decide +kernel), by simp [exSay1, Forest.Regular], rfl, rfl⟩, ⟨_, editable_of (by decide +kernel), by simp [exSay2, Forest.Regular], rfl, exSay_same⟩⟩

theorem exSay_meant (o : Ord) (ho : o.IsPerm) : DocCall.AllMeant (exSayCalls o) exSay1.info := by
  have hr : Asks b!"r" (.name b!"r") := .name (name_step (by decide))
  have ha : Asks b!"a" (.name b!"a") := .name (name_step (by decide))
  have hb : Asks b!"b" (.name b!"b") := .name (name_step (by decide))
  have hn : ∀ x : Bytes, x = b!"c" ∨ x = b!"d" ∨ x = b!"k" → IsName x := by rintro x (rfl | rfl | rfl) <;> exact isName_of (by decide) (by decide)
  have s1 : PathSteps b!"r.*.1.c.d" [b!"r", b!"*", b!"1", b!"c", b!"d"] := pathSteps_by (by decide) (by decide) (by decide +kernel) (by decide +kernel)
  have s2 : PathSteps b!"r.b.7" [b!"r", b!"b", b!"7"] := pathSteps_by (by decide) (by decide) (by decide +kernel) (by decide +kernel)
  have s3 : PathSteps b!"r.a.@k" [b!"r", b!"a", b!"@k"] := pathSteps_by (by decide) (by decide) (by decide +kernel) (by decide +kernel)
  have t1 : Trail [b!"r", b!"*", b!"1"] (some [(.name b!"r", 0), (.any, 1)]) :=
    .first (t := some _) hr (by intro d hd; simp at hd; subst hd; simp [Position, beforeBar]) (.nth (t := some []) (j := 1) (.any (.inl rfl)) (by simp [Position, beforeBar]) (.number (ds := b!"1") (rest := []) rfl (.digit 49 (by decide)) (.inl rfl)) .nil)
  have t2 : Trail [b!"r", b!"b", b!"7"] (some [(.name b!"r", 0), (.name b!"b", 7)]) :=
    .first (t := some _) hr (by intro d hd; simp at hd; subst hd; simp [Position, beforeBar]) (.nth (t := some []) (j := 7) hb (by simp [Position, beforeBar]) (.number (ds := b!"7") (rest := []) rfl (.digit 55 (by decide)) (.inl rfl)) .nil)
  have t3 : Trail [b!"r", b!"a"] (some [(.name b!"r", 0), (.name b!"a", 0)]) :=
    .first (t := some _) hr (by intro d hd; simp at hd; subst hd; simp [Position, beforeBar]) (.first (t := some []) ha (by simp) .nil)
  have s4 : PathSteps b!"r.a.-1" ([b!"r"] ++ [b!"a", b!"-1"]) := pathSteps_by (by decide) (by decide) (by decide +kernel) (by decide +kernel)
  have s5 : PathSteps b!"r.b" [b!"r", b!"b"] := pathSteps_by (by decide) (by decide) (by decide +kernel) (by decide +kernel)
  have t4 : Trail [b!"r"] (some [(.name b!"r", 0)]) := .first (t := some []) hr (by simp) .nil
  have t5 : Trail [b!"r", b!"b"] (some [(.name b!"r", 0), (.name b!"b", 0)]) :=
    .first (t := some _) hr (by intro d hd; simp at hd; subst hd; simp [Position, beforeBar]) (.first (t := some []) hb (by simp) .nil)
  have s6 : PathSteps b!"r.e" ([b!"r"] ++ [b!"e"]) := pathSteps_by (by decide) (by decide) (by decide +kernel) (by decide +kernel)
  have s7 : PathSteps b!"r.n.m.@k" ([b!"r"] ++ [b!"n", b!"m"] ++ [b!"@k"]) := pathSteps_by (by decide) (by decide) (by decide +kernel) (by decide +kernel)
  have v1 : StoredText (.str b!"<") b!"<" := ⟨by simp, rfl, by decide +kernel⟩
  have v2 : StoredText (.int 9) b!"9" := ⟨by simp, by decide +kernel, by decide +kernel⟩
  have v3 : StoredAs (.raw exFrag.render) 2 exFrag.info :=
    ⟨exFrag, rfl, by decide +kernel, ⟨by decide +kernel, by decide, trivial, trivial⟩, by decide +kernel, by simp [exFrag, Forest.Regular], by simp, rfl, by decide +kernel⟩
  refine ⟨⟨ho, ?_, _, s1, ⟨[b!"r", b!"*", b!"1"], rfl, by simp, t1⟩, fun x hx => hn x (by simp at hx; rcases hx with h | h <;> simp [h]), .inr (fun h => ?_), ?_, stored_text v1 (by simp)⟩,
    ⟨ho, ?_, _, s2, t2, by simp, .inl (Nat.le_refl 2)⟩,
    ⟨ho, ?_, _, s3, [b!"r", b!"a"], ⟨b!"a", Spec.attrVal [⟨b!" ", b!"k", [], [], c!"'", b!"1"⟩, ⟨b!" ", b!"j", [], [], c!"\"", b!"2"⟩], .text b!"x" .nil⟩, rfl, t3, ⟨hn _ (by simp), ?_⟩,
      fun k s h => by simp only [MapOp.put.injEq] at h; obtain ⟨-, rfl⟩ := h; exact v2, rfl, [b!"k", b!"j"], ?_, ?_, fun j hj => ?_⟩,
    ⟨ho, ?_, _, s4, ⟨_, _, rfl, rfl, t4, exNeg⟩, isName_of (by decide) (by decide), fun h => ?_, v3⟩, ⟨ho, ?_, _, s5, t5, by simp, .inl (Nat.le_refl 2)⟩,
    ⟨ho, ?_, _, s6, ⟨[b!"r"], rfl, by simp, t4⟩, fun x hx => ?_, .inr (fun h => ?_), ?_, v3⟩,
    ⟨ho, ?_, _, s7, ⟨[b!"r"], rfl, t4⟩, by simp, fun x hx => ?_, .inr (fun h => ?_), ?_, ?_, ⟨hn _ (by simp), ?_⟩, v2⟩, trivial⟩
  · show c!"<" ∉ inOpts.indent; decide
  · cases h
  · show 4 ≤ 100; decide
  · show c!"<" ∉ defaultOptions.indent; decide
  · show c!"<" ∉ defaultOptions.indent; decide
  · decide +kernel
  · decide
  · show b!"k" ∈ _; simp
  · have := (attrVal_iff _ _).mp hj
    simpa using this
  · show c!"<" ∉ inOpts.indent; decide
  · cases h
  · show c!"<" ∉ defaultOptions.indent; decide
  · show c!"<" ∉ defaultOptions.indent; decide
  · simp at hx; subst hx; exact isName_of (by decide) (by decide)
  · cases h
  · show 2 ≤ 100; decide
  · show c!"<" ∉ defaultOptions.indent; decide
  · simp at hx; rcases hx with rfl | rfl <;> exact isName_of (by decide) (by decide)
  · cases h
  · rfl
  · show 3 ≤ 100; decide
  · decide +kernel

/-- C96 for these documents and calls, whatever the orders in which attributes are met. -/
example (o1 o2 : Ord) (h1 : o1.IsPerm) (h2 : o2.IsPerm) {r1 r2 : Bytes} (k1 : DocCall.runAll exSay1.render (exSayCalls o1) = some r1) (k2 : DocCall.runAll exSay2.render (exSayCalls o2) = some r2) : ∃ j, Doc r1 j ∧ Doc r2 j :=
  (C96_same (exSayCalls o1) (exSayCalls o2) rfl exSay_docs.1 exSay_docs.2 (exSay_meant o1 h1) (exSay_meant o2 h2) k1 k2).1

/-- The content of `r.a` moved to `r.b`: Get, SetWithOptions with its Raw, Delete. -/
def exMove : Forest := .node b!"r" [] [] (.node b!"a" [] [] (.node b!"u" [⟨b!" ", b!"w", [], [], c!"'", b!"1"⟩] [] (.text b!"v" .nil) [] .nil) [] (.node b!"b" [] [] (.text b!"y" .nil) [] .nil)) [] .nil

/-- C96: the move. -/
theorem C96_move_witness :
    exMove.render = b!"<r><a><u w='1'>v</u></a><b>y</b></r>" ∧
    getWithOptions exEnv exMove.render b!"R.A" (some ciOpts) = .ret (.ofContent b!"<u w=\"1\">v</u>") ∧
    setWithOptions exEnv.ord exMove.render b!"r.b" (.raw b!"<u w=\"1\">v</u>") (some defaultOptions) = .ret (b!"<r><a><u w='1'>v</u></a><b><u w=\"1\">v</u></b></r>", none) ∧
    deleteWithOptions exEnv.ord b!"<r><a><u w='1'>v</u></a><b><u w=\"1\">v</u></b></r>" b!"r.a" (some defaultOptions) = .ret (b!"<r><b><u w=\"1\">v</u></b></r>", none) := by
  refine ⟨?_, ?_, ?_, ?_⟩ <;> decide +kernel

example : ∃ w, StoredAs (.raw b!"<u w=\"1\">v</u>") 2 w ∧ ∀ n as, IsElement (.ofContent b!"<u w=\"1\">v</u>") ⟨n, as, w⟩ :=
  C96_copy exEnv exEnv_perm (xml := exMove.render) (i := exMove.info) ⟨_, editable_of (by decide +kernel), by simp [exMove, Forest.Regular], rfl, rfl⟩ b!"R.A" (by decide) (some ciOpts) _ C96_move_witness.2.1
    (.ofContent b!"<u w=\"1\">v</u>") (by simp [Result.array, Result.ofContent]) rfl (by decide +kernel) (by decide) (by decide +kernel)

end Verif.Props
