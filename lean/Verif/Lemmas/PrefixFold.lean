import Verif.Lemmas.Prefix
import Verif.Lemmas.AskBy
/- As Prefix.lean, with names compared without regard to case. -/
namespace Verif
open Spec

/-- Content is copied up to any place in it (`contentLoop_ctx` with any comparison of names). -/
theorem contentLoop_ctxBy {o : Ord} (ho : o.IsPerm) (cs : Bool) {name : Bytes} (hq : name.head? ≠ some c!"?") {c : Ctx} (hc : c.Readable false) (d : Nat) (hd : 1 ≤ d) (R : Bytes) :
    ∃ (c' : Ctx) (d' : Nat), c'.Readable false ∧ 1 ≤ d' ∧ (∀ ps x, LeadsBy cs ps c x → LeadsBy cs ps c' x) ∧
      (contentLoop o name d (c.before ++ R)).1 = c'.before ++ (contentLoop o name d' R).1 := by
  induction c generalizing d R with
  | here b a =>
    obtain ⟨h1, h2⟩ := hc
    obtain ⟨g, -, k1, k2, k3, -, k4⟩ := contentLoop_forest ho hq h1 h2 d hd R
    refine ⟨.here g .nil, d, ⟨k1.1, k2⟩, hd, ?_, ?_⟩
    · intro ps x h
      match ps, h with
      | [(n, j)], h => exact ⟨h.1, by rw [k3]; exact h.2⟩
    · rw [Ctx.before, k4]; rfl
  | within b n as ws c cws a ih =>
    obtain ⟨h1, h2, h3, h4, h5, h6, h7⟩ := hc
    obtain ⟨g, -, k1, k2, k3, -, k4⟩ := contentLoop_forest ho hq h1 h2 d hd ((openTag n as ws ++ c!">" :: (c.before ++ R)))
    obtain ⟨c', d', m1, m2, m3, m4⟩ := ih h7 (if n = name then d + 1 else d) (by split <;> omega) R
    obtain ⟨c1, -, c2, -, -⟩ := canon_legal ho h4 h5 (c.before ++ R)
    refine ⟨.within g n ((o (c.before ++ R) (attrMap as)).map canonAttr) [] c' [] .nil, d', ⟨k1.1, k2, h3, c1, c2, by simp, m1⟩, m2, ?_, ?_⟩
    · intro ps x h
      match ps, h with
      | (q, j) :: p :: ps, h => exact ⟨h.1, by rw [k3]; exact h.2.1, m3 _ _ h.2.2⟩
      | [(q, j)], h => exact ⟨h.1, by rw [k3]; exact h.2.1, m3 _ _ h.2.2⟩
    · have e : (Ctx.within b n as ws c cws a).before ++ R = b.render ++ (openTag n as ws ++ c!">" :: (c.before ++ R)) := by simp [Ctx.before]
      rw [e, k4, contentLoop_open o name d h3 h4 h6]
      simp only [prepend]
      rw [m4]
      simp [Ctx.before]

theorem namedF_from {o : Ord} (ho : o.IsPerm) {b : Forest} {top : Bool} (h1 : b.Loose) (h2 : b.Tame top) {n : Bytes} {j : Nat} (h0 : (b.info.namedBy false n).length = j) (R : Bytes) :
    ∃ es, es.length = j ∧ namedF o n (b.render ++ R) = es ++ namedF o n R := by
  obtain ⟨es, k1, k2⟩ := topElems_forest_go ho h1 h2 R
  have k3 : All2 Rep (es.filter (fun e => nameMatches (foldCase n) (foldCase e.name))) (b.info.namedBy false n) :=
    All2.filter k2 (fun _ _ hr => by simp only [hr.name, agrees]; rfl)
  exact ⟨_, k3.length.trans h0, by rw [namedF, k1, List.filter_append]; rfl⟩

theorem reachF_prefix {o : Ord} (ho : o.IsPerm) {S : Bytes → Prop}
    (hS : ∀ (name : Bytes) (d : Nat) (R : Bytes), name.head? ≠ some c!"?" → 1 ≤ d → S R → S (contentLoop o name d R).1)
    {pre : List Bytes} {n x : Bytes} {j : Nat} {c : Ctx} {top : Bool} (hc : c.Readable top) (hl : LeadsBy false (firsts pre ++ [(n, j)]) c x) {R : Bytes} (hR : S R) :
    agrees false n x = true ∧ ∃ y ys R' es, reachF o pre (c.before ++ R) = y :: ys ∧ S R' ∧ es.length = j ∧ namedF o n y = es ++ namedF o n R' := by
  induction pre generalizing c R top with
  | nil =>
    cases c with
    | within b m as ws c cws a =>
      obtain ⟨-, -, h⟩ := hl
      exact absurd h (by simp [LeadsBy])
    | here b a =>
      obtain ⟨h1, h2⟩ := hl
      obtain ⟨es, k1, k2⟩ := namedF_from ho hc.1 hc.2 h2 R
      exact ⟨h1, _, [], R, es, rfl, hR, k1, k2⟩
  | cons m pre ih =>
    cases c with
    | here b a =>
      obtain ⟨q, qs, hq⟩ := List.exists_cons_of_ne_nil (show firsts pre ++ [(n, j)] ≠ [] by simp)
      have : firsts (m :: pre) ++ [(n, j)] = (m, 0) :: q :: qs := by rw [← hq]; rfl
      rw [this] at hl
      simp only [LeadsBy] at hl
    | within b k as ws c cws a =>
      obtain ⟨h1, h2, h3, h4, h5, h6, h7⟩ := hc
      have hl' : agrees false m k = true ∧ (b.info.namedBy false m).length = 0 ∧ LeadsBy false (firsts pre ++ [(n, j)]) c x := by cases pre <;> exact hl
      obtain ⟨l1, l2, l3⟩ := hl'
      obtain ⟨c', d', m1, m2, m3, m4⟩ := contentLoop_ctxBy ho false h3.2.2.2.1 h7 1 (by omega) R
      obtain ⟨i1, y, ys, R', es, i2, i3, i4⟩ := ih m1 (m3 _ _ l3) (hS k d' R h3.2.2.2.1 m2 hR)
      have e : (Ctx.within b k as ws c cws a).before ++ R = b.render ++ (openTag k as ws ++ c!">" :: (c.before ++ R)) := by simp [Ctx.before]
      obtain ⟨e1, e2⟩ := elemAt_content (o := o) (t := c.before ++ R) h3 h4 h6
      obtain ⟨es', k1, k2⟩ := namedF_from ho h1 h2 l2 (openTag k as ws ++ c!">" :: (c.before ++ R))
      rw [List.eq_nil_of_length_eq_zero k1, List.nil_append] at k2
      have l1' : nameMatches (foldCase m) (foldCase k) = true := l1
      rw [reachF, e, k2, namedF, topElems_some (skipToNext_open h3 as ws _), List.filter_cons, e1, if_pos l1', List.flatMap_cons, e2, m4, i2]
      exact ⟨i1, y, _, R', es, rfl, i3, i4⟩

/-- A query by names without regard to case is answered at the place. -/
theorem getOpt_prefix (env : Env) (ho : env.ord.IsPerm) {opts : Options} (hcs : opts.caseSensitive = false) {S : Bytes → Prop}
    (hS : ∀ (name : Bytes) (d : Nat) (R : Bytes), name.head? ≠ some c!"?" → 1 ≤ d → S R → S (contentLoop env.ord name d R).1)
    {pre : List Bytes} {n x : Bytes} {j : Nat} {c : Ctx} (hc : c.Readable true) (hl : LeadsBy false (firsts pre ++ [(n, j)]) c x) {R : Bytes} (hR : S R)
    (hlen : (c.before ++ R).length ≤ 10485760) (hp : ∀ m ∈ pre ++ [n], PlainName m) (parts : List Bytes) (hpl : pre.length + 1 + parts.length ≤ 100)
    (ss : List Seg) (hs : parseParts parts = .ok ss) {Q : Result → Prop} (hQ : ∀ r, Q r → r.typ ≠ .null)
    (hfin : ∀ y R' es, S R' → es.length = j → namedF env.ord n y = es ++ namedF env.ord n R' →
      Q (execQOpt env (evalFilter env) false (lowName n :: (fuseFields ss).map lowerSeg) pre.isEmpty y)) :
    ∃ r, getWithOptions env (c.before ++ R) (pathOf (pre ++ [n] ++ parts)) (some opts) = .ret r ∧ Q r := by
  have hd : maxDocumentSize = 10485760 := rfl
  unfold getWithOptions
  have hdef : isDefaultOptions (some opts) = false := by simp [isDefaultOptions, hcs]
  rw [if_neg (by omega), hdef]
  simp only [Bool.false_eq_true, if_false, Option.getD_some, hcs, parsePathWithOptions]
  rw [parsePath_names (pre ++ [n]) parts hp (by simp) (by simpa using hpl) ss hs]
  simp only
  have e : ((pre ++ [n]).map nameSeg ++ fuseFields ss).map lowerSeg = pre.map lowName ++ lowName n :: (fuseFields ss).map lowerSeg := by
    have hln : (fun x => lowerSeg (nameSeg x)) = lowName := rfl
    simp only [List.map_append, List.map_map, List.map_cons, List.map_nil, Function.comp_def, hln, List.append_assoc, List.cons_append, List.nil_append]
    rfl
  rw [e]
  refine ⟨execQOpt env (evalFilter env) false (pre.map lowName ++ lowName n :: (fuseFields ss).map lowerSeg) true (c.before ++ R), by cases pre <;> rfl, ?_⟩
  obtain ⟨-, y, ys, R', es, h1, h2, h3, h4⟩ := reachF_prefix ho hS hc hl hR
  cases pre with
  | nil =>
    simp only [reachF, List.cons.injEq] at h1
    obtain ⟨rfl, -⟩ := h1
    exact hfin _ R' es h2 h3 h4
  | cons m pre =>
    rw [execOpt_names env _ (m :: pre) (by simp) n _ true _, h1, firstSome]
    have : Q (execQOpt env (evalFilter env) false (lowName n :: (fuseFields ss).map lowerSeg) false y) := hfin y R' es h2 h3 h4
    rw [if_neg (hQ _ this)]
    exact this

/-- `attrsOpt_by` for an element of whose content nothing is known. -/
theorem attrsOpt_tag {o : Ord} (ho : o.IsPerm) {e : Elem} {at' : Bytes → Option Bytes} (hu : e.attrs.Uniq) (ha : ∀ k, Attrs.get? k e.attrs = at' k) (hl : CU at') {k j v : Bytes}
    (hj : foldCase j = foldCase k) (hv : at' j = some v) : attrsOpt o false (toLowerASCII k) e = [v] := by
  have h0 : attrsOpt o false (toLowerASCII k) e = attrsOpt (fun _ => o e.content) false (spelling false k) { e with content := [] } := rfl
  have hr : Rep { e with content := [] } ⟨e.name, at', .nil⟩ := ⟨rfl, ha, Writes.nil, fun _ => rfl, hu⟩
  rw [h0, attrsOpt_by (o := fun _ => o e.content) (fun _ => ho e.content) hr (fun _ => hl) k,
    (attrBy_some (nd := ⟨e.name, at', .nil⟩) (fun _ => hl) k v).mpr ⟨j, by simpa [sameKey] using hj, hv⟩]
  rfl

end Verif
