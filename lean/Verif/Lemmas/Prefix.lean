import Verif.Spec.Prefix
import Verif.Lemmas.Step
/- What follows an element does not matter to a search that finds the element. -/
namespace Verif
open Spec

/-- Content is copied up to any place in it; nothing is known about what follows the place. -/
theorem contentLoop_ctx {o : Ord} (ho : o.IsPerm) {name : Bytes} (hq : name.head? ≠ some c!"?") {c : Ctx} (hc : c.Readable false) (d : Nat) (hd : 1 ≤ d) (R : Bytes) :
    ∃ (c' : Ctx) (d' : Nat), c'.Readable false ∧ 1 ≤ d' ∧ (∀ ps x, Leads ps c x → Leads ps c' x) ∧
      (contentLoop o name d (c.before ++ R)).1 = c'.before ++ (contentLoop o name d' R).1 := by
  induction c generalizing d R with
  | here b a =>
    obtain ⟨h1, h2⟩ := hc
    obtain ⟨g, -, k1, k2, k3, -, k4⟩ := contentLoop_forest ho hq h1 h2 d hd R
    refine ⟨.here g .nil, d, ⟨k1.1, k2⟩, hd, ?_, ?_⟩
    · intro ps x h
      match ps, h with
      | [(n, j)], h => exact ⟨h.1, by rw [k3]; exact h.2⟩
    · rw [Ctx.before, k4]; rfl
  | within b n as ws c cws a ih =>
    obtain ⟨h1, h2, h3, h4, h5, h6, h7⟩ := hc
    obtain ⟨g, -, k1, k2, k3, -, k4⟩ := contentLoop_forest ho hq h1 h2 d hd ((openTag n as ws ++ c!">" :: (c.before ++ R)))
    obtain ⟨c', d', m1, m2, m3, m4⟩ := ih h7 (if n = name then d + 1 else d) (by split <;> omega) R
    obtain ⟨c1, -, c2, -, -⟩ := canon_legal ho h4 h5 (c.before ++ R)
    refine ⟨.within g n ((o (c.before ++ R) (attrMap as)).map canonAttr) [] c' [] .nil, d', ⟨k1.1, k2, h3, c1, c2, by simp, m1⟩, m2, ?_, ?_⟩
    · intro ps x h
      match ps, h with
      | (q, j) :: p :: ps, h => exact ⟨h.1, by rw [k3]; exact h.2.1, m3 _ _ h.2.2⟩
      | [(q, j)], h => exact ⟨h.1, by rw [k3]; exact h.2.1, m3 _ _ h.2.2⟩
    · have e : (Ctx.within b n as ws c cws a).before ++ R = b.render ++ (openTag n as ws ++ c!">" :: (c.before ++ R)) := by simp [Ctx.before]
      rw [e, k4, contentLoop_open o name d h3 h4 h6]
      simp only [prepend]
      rw [m4]
      simp [Ctx.before]

theorem el_of_info {g : Forest} {nd : Node} (h : g.info = .elem nd.name nd.attr nd.kids .nil) : ∃ e : El, g = e.cons .nil ∧ e.node = nd := by
  have nil_of : ∀ {f : Forest}, f.info = .nil → f = .nil := by
    intro f hf
    cases f <;> simp [Forest.info] at hf
    rfl
  cases g with
  | nil => cases h
  | text => cases h
  | misc => cases h
  | leaf n as ws next =>
    simp only [Forest.info, Info.elem.injEq] at h
    obtain ⟨h1, h2, h3, h4⟩ := h
    rw [nil_of h4]
    refine ⟨⟨n, as, ws, none⟩, rfl, ?_⟩
    obtain ⟨a, b, c⟩ := nd
    simp only at h1 h2 h3
    subst h1 h2 h3
    rfl
  | node n as ws kids cws next =>
    simp only [Forest.info, Info.elem.injEq] at h
    obtain ⟨h1, h2, h3, h4⟩ := h
    rw [nil_of h4]
    refine ⟨⟨n, as, ws, some (kids, cws)⟩, rfl, ?_⟩
    obtain ⟨a, b, c⟩ := nd
    simp only at h1 h2 h3
    subst h1 h2 h3
    rfl

theorem el_info (e : El) : (e.cons .nil).info = .elem e.node.name e.node.attr e.node.kids .nil := by
  obtain ⟨n, as, ws, body⟩ := e
  cases body <;> rfl

theorem el_render (e : El) : (e.cons .nil).render = e.render := by
  obtain ⟨n, as, ws, body⟩ := e
  cases body <;> simp [El.cons, Forest.render, El.render, El.start, El.inner, El.stop]

/-- The text begins with an element that says `nd`. -/
def Begins (nd : Node) (R : Bytes) : Prop := ∃ (e : El) (t : Bytes), e.Readable ∧ e.node = nd ∧ R = e.render ++ t

theorem Begins.copied {o : Ord} (ho : o.IsPerm) {nd : Node} {name : Bytes} (hq : name.head? ≠ some c!"?") {d : Nat} (hd : 1 ≤ d) {R : Bytes} (h : Begins nd R) :
    Begins nd (contentLoop o name d R).1 := by
  obtain ⟨e, t, ⟨h1, h2⟩, rfl, rfl⟩ := h
  obtain ⟨g, -, k1, k2, k3, -, k4⟩ := contentLoop_forest ho hq h1 h2 d hd t
  rw [el_info] at k3
  obtain ⟨e', rfl, he⟩ := el_of_info k3
  rw [el_render] at k4
  refine ⟨e', (contentLoop o name d t).1, ⟨k1.1, k2⟩, he, ?_⟩
  rw [k4, ← el_render]; rfl

theorem Begins.top {o : Ord} (ho : o.IsPerm) {nd : Node} {R : Bytes} (h : Begins nd R) : ∃ m ms, topElems o R = m :: ms ∧ Rep m nd := by
  obtain ⟨e, t, ⟨h1, h2⟩, rfl, rfl⟩ := h
  obtain ⟨es, k1, k2⟩ := topElems_forest_go ho h1 h2 t
  rw [el_info] at k2
  rw [el_render] at k1
  cases k2 with
  | cons a b => cases b; exact ⟨_, _, k1, a⟩

/-- The text begins with a start tag of that name and attributes. -/
def BeginsTag (n : Bytes) (at' : Bytes → Option Bytes) (R : Bytes) : Prop :=
  ∃ (as : List Attr) (ws t : Bytes), TagName n ∧ AttrsLoose as ∧ AttrsFit as ∧ (∀ x ∈ ws, IsWs x) ∧ attrVal as = at' ∧ R = openTag n as ws ++ c!">" :: t

theorem BeginsTag.copied {o : Ord} (ho : o.IsPerm) {n : Bytes} {at' : Bytes → Option Bytes} {name : Bytes} {d : Nat} {R : Bytes} (h : BeginsTag n at' R) :
    BeginsTag n at' (contentLoop o name d R).1 := by
  obtain ⟨as, ws, t, h1, h2, h3, h4, h5, rfl⟩ := h
  obtain ⟨c1, -, c2, -, c4⟩ := canon_legal ho h2 h3 t
  rw [contentLoop_open o name d h1 h2 h4]
  exact ⟨_, [], _, h1, c1, c2, by simp, c4.trans h5, by simp only [prepend, List.append_assoc]; rfl⟩

theorem BeginsTag.top {o : Ord} {n : Bytes} {at' : Bytes → Option Bytes} {R : Bytes} (h : BeginsTag n at' R) :
    ∃ m ms, topElems o R = m :: ms ∧ m.name = n ∧ ∀ k, Attrs.get? k m.attrs = at' k := by
  obtain ⟨as, ws, t, h1, h2, h3, h4, rfl, rfl⟩ := h
  rw [topElems_some (skipToNext_open h1 as ws _)]
  refine ⟨_, _, rfl, ?_⟩
  have e : (openTag n as ws ++ c!">" :: t).drop 1 = n ++ as.flatMap Attr.render ++ ws ++ c!">" :: t := by simp [openTag]
  unfold elemAt
  rw [e, parseTag_open h1 h2 h4]
  exact ⟨rfl, fun k => attrMap_get as k⟩

theorem elemAt_content {o : Ord} {n : Bytes} {as : List Attr} {ws t : Bytes} (h1 : TagName n) (h2 : AttrsLoose as) (h4 : ∀ x ∈ ws, IsWs x) :
    (elemAt o (openTag n as ws ++ c!">" :: t)).1.name = n ∧ (elemAt o (openTag n as ws ++ c!">" :: t)).1.content = (contentLoop o n 1 t).1 := by
  have e : (openTag n as ws ++ c!">" :: t).drop 1 = n ++ as.flatMap Attr.render ++ ws ++ c!">" :: t := by simp [openTag]
  unfold elemAt
  rw [e, parseTag_open h1 h2 h4]
  exact ⟨rfl, rfl⟩

/-- The elements of a name: those before a place and those from the place on. -/
theorem namedE_from {o : Ord} (ho : o.IsPerm) {b : Forest} {top : Bool} (h1 : b.Loose) (h2 : b.Tame top) {n : Bytes} {j : Nat} (h0 : (b.info.named n).length = j) (R : Bytes) :
    ∃ es, es.length = j ∧ namedE o n (b.render ++ R) = es ++ namedE o n R := by
  obtain ⟨es, k1, k2⟩ := topElems_forest_go ho h1 h2 R
  have k3 : All2 Rep (es.filter (fun e => nameMatches n e.name)) (b.info.named n) := All2.filter k2 (fun _ _ hr => by simp only [hr.name])
  exact ⟨_, k3.length.trans h0, by rw [namedE, k1, List.filter_append]; rfl⟩

/-- The first content that names lead to is a copy up to the place. -/
theorem reachE_prefix {o : Ord} (ho : o.IsPerm) {S : Bytes → Prop}
    (hS : ∀ (name : Bytes) (d : Nat) (R : Bytes), name.head? ≠ some c!"?" → 1 ≤ d → S R → S (contentLoop o name d R).1)
    {pre : List Bytes} {n x : Bytes} {j : Nat} {c : Ctx} {top : Bool} (hc : c.Readable top) (hl : Leads (firsts pre ++ [(n, j)]) c x) {R : Bytes} (hR : S R) :
    nameMatches n x = true ∧ ∃ y ys R' es, reachE o pre (c.before ++ R) = y :: ys ∧ S R' ∧ es.length = j ∧ namedE o n y = es ++ namedE o n R' := by
  induction pre generalizing c R top with
  | nil =>
    cases c with
    | within b m as ws c cws a =>
      obtain ⟨-, -, h⟩ := hl
      exact absurd h (by simp [Leads])
    | here b a =>
      obtain ⟨h1, h2⟩ := hl
      obtain ⟨es, k1, k2⟩ := namedE_from ho hc.1 hc.2 h2 R
      exact ⟨h1, _, [], R, es, rfl, hR, k1, k2⟩
  | cons m pre ih =>
    cases c with
    | here b a =>
      obtain ⟨q, qs, hq⟩ := List.exists_cons_of_ne_nil (show firsts pre ++ [(n, j)] ≠ [] by simp)
      have : firsts (m :: pre) ++ [(n, j)] = (m, 0) :: q :: qs := by rw [← hq]; rfl
      rw [this] at hl
      simp only [Leads] at hl
    | within b k as ws c cws a =>
      obtain ⟨h1, h2, h3, h4, h5, h6, h7⟩ := hc
      have hl' : nameMatches m k = true ∧ (b.info.named m).length = 0 ∧ Leads (firsts pre ++ [(n, j)]) c x := by cases pre <;> exact hl
      obtain ⟨l1, l2, l3⟩ := hl'
      obtain ⟨c', d', m1, m2, m3, m4⟩ := contentLoop_ctx ho h3.2.2.2.1 h7 1 (by omega) R
      obtain ⟨i1, y, ys, R', es, i2, i3, i4⟩ := ih m1 (m3 _ _ l3) (hS k d' R h3.2.2.2.1 m2 hR)
      have e : (Ctx.within b k as ws c cws a).before ++ R = b.render ++ (openTag k as ws ++ c!">" :: (c.before ++ R)) := by simp [Ctx.before]
      obtain ⟨e1, e2⟩ := elemAt_content (o := o) (t := c.before ++ R) h3 h4 h6
      obtain ⟨es', k1, k2⟩ := namedE_from ho h1 h2 l2 (openTag k as ws ++ c!">" :: (c.before ++ R))
      rw [List.eq_nil_of_length_eq_zero k1, List.nil_append] at k2
      rw [reachE, e, k2, namedE, topElems_some (skipToNext_open h3 as ws _), List.filter_cons, e1, if_pos l1, List.flatMap_cons, e2, m4, i2]
      exact ⟨i1, y, _, R', es, rfl, i3, i4⟩

/-- A query by names, and what may follow at their end, is answered at the place. -/
theorem get_prefix (env : Env) (ho : env.ord.IsPerm) {S : Bytes → Prop}
    (hS : ∀ (name : Bytes) (d : Nat) (R : Bytes), name.head? ≠ some c!"?" → 1 ≤ d → S R → S (contentLoop env.ord name d R).1)
    {pre : List Bytes} {n x : Bytes} {j : Nat} {c : Ctx} (hc : c.Readable true) (hl : Leads (firsts pre ++ [(n, j)]) c x) {R : Bytes} (hR : S R)
    (hlen : (c.before ++ R).length ≤ 10485760) (hp : ∀ m ∈ pre ++ [n], PlainName m) (parts : List Bytes) (hpl : pre.length + 1 + parts.length ≤ 100)
    (ss : List Seg) (hs : parseParts parts = .ok ss) {Q : Result → Prop} (hQ : ∀ r, Q r → r.typ ≠ .null)
    (hfin : ∀ y R' es, S R' → es.length = j → namedE env.ord n y = es ++ namedE env.ord n R' → Q (execQ env (evalFilter env) (nameSeg n :: fuseFields ss) pre.isEmpty y)) :
    ∃ r, get env (c.before ++ R) (pathOf (pre ++ [n] ++ parts)) = .ret r ∧ Q r := by
  have hd : maxDocumentSize = 10485760 := rfl
  unfold get
  rw [if_neg (by omega), parsePath_names (pre ++ [n]) parts hp (by simp) (by simpa using hpl) ss hs]
  have e : (pre ++ [n]).map nameSeg ++ fuseFields ss = pre.map nameSeg ++ nameSeg n :: fuseFields ss := by simp
  rw [e]
  refine ⟨executeQuery env (pre.map nameSeg ++ nameSeg n :: fuseFields ss) (c.before ++ R), by cases pre <;> rfl, ?_⟩
  obtain ⟨-, y, ys, R', es, h1, h2, h3, h4⟩ := reachE_prefix ho hS hc hl hR
  cases pre with
  | nil =>
    simp only [reachE, List.cons.injEq] at h1
    obtain ⟨rfl, -⟩ := h1
    exact hfin _ R' es h2 h3 h4
  | cons m pre =>
    unfold executeQuery
    rw [exec_names env _ (m :: pre) (by simp) (nameSeg n) _ true _ rfl, h1, firstSome]
    have : Q (execQ env (evalFilter env) (nameSeg n :: fuseFields ss) false y) := hfin y R' es h2 h3 h4
    rw [if_neg (hQ _ this)]
    exact this

end Verif
