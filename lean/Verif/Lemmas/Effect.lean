import Verif.Lemmas.Create
import Verif.Lemmas.Trim
import Verif.Spec.Decide
/- What a modification means for later queries. -/
namespace Verif
open Spec

/-- Selection by a list of names. -/
def selectL : List Bytes → Info → List Node
  | [], _ => []
  | [n], i => i.named n
  | n :: q, i => (i.named n).flatMap (fun e => selectL q e.kids)

theorem selectL_cons (n : Bytes) (q : List Bytes) (hq : q ≠ []) (i : Info) : selectL (n :: q) i = (i.named n).flatMap (fun e => selectL q e.kids) := by
  cases q with
  | nil => exact absurd rfl hq
  | cons => rfl

theorem select_eq (pre : List Bytes) (n : Bytes) (i : Info) : i.select pre n = selectL (pre ++ [n]) i := by
  induction pre generalizing i with
  | nil => simp [Info.select, Info.reach, selectL]
  | cons m pre ih =>
    rw [List.cons_append, selectL_cons _ _ (by simp), Info.select, Info.reach, List.flatMap_assoc]
    congr 1; funext e
    rw [← ih, Info.select]

theorem selectL_append (q : List Bytes) (f g : Forest) : selectL q (f.append g).info = selectL q f.info ++ selectL q g.info := by
  cases q with
  | nil => rfl
  | cons n q =>
    cases q with
    | nil => exact append_named f g n
    | cons m q => rw [selectL_cons _ _ (by simp), append_named, List.flatMap_append]; rfl

theorem selectL_node (q : List Bytes) (hq : q ≠ []) (m n : Bytes) (as : List Attr) (ws cws : Bytes) (k a : Forest) :
    selectL (m :: q) (Forest.node n as ws k cws a).info = (if nameMatches m n then selectL q k.info else []) ++ selectL (m :: q) a.info := by
  rw [selectL_cons _ _ hq, selectL_cons _ _ hq, Info.named, Forest.info, Info.elems, List.filter_cons]
  split <;> rfl

theorem misses_cons {m n : Bytes} {q ns : List Bytes} (h : Misses (m :: q) (n :: ns)) : nameMatches m n = false ∨ (nameMatches m n = true ∧ Misses q ns) := by
  obtain ⟨i, a, b, h1, h2, h3⟩ := h
  cases i with
  | zero => simp at h1 h2; subst h1 h2; exact .inl h3
  | succ i =>
    cases hm : nameMatches m n with
    | false => exact .inl rfl
    | true => exact .inr ⟨rfl, i, a, b, by simpa using h1, by simpa using h2, h3⟩

/-- Queries that do not go through the hole do not see what is in it. -/
theorem selectL_congr {c : Ctx} {x y : Forest} {q : List Bytes}
    (h : Misses q c.names ∨ (c.depth < q.length ∧ selectL (q.drop c.depth) x.info = selectL (q.drop c.depth) y.info)) :
    selectL q (c.plug x).info = selectL q (c.plug y).info := by
  induction c generalizing q with
  | here b a =>
    rcases h with ⟨i, a, b, -, h, -⟩ | ⟨-, h⟩
    · simp [Ctx.names] at h
    · simp only [Ctx.depth, List.drop_zero] at h
      rw [Ctx.plug, Ctx.plug, selectL_append, selectL_append, selectL_append, selectL_append, h]
  | within b n as ws c cws a ih =>
    rw [Ctx.plug, Ctx.plug, selectL_append, selectL_append]
    congr 1
    cases q with
    | nil => rfl
    | cons m q =>
      cases q with
      | nil =>
        have hm : nameMatches m n = false := by
          rcases h with h | ⟨h, -⟩
          · rcases misses_cons h with h | ⟨-, i, x, y, h, -⟩
            · exact h
            · simp at h
          · simp [Ctx.depth] at h
        simp [selectL, Info.named, Forest.info, Info.elems, hm]
      | cons m2 q =>
        rw [selectL_node _ (by simp), selectL_node _ (by simp)]
        congr 1
        cases hm : nameMatches m n with
        | false => rfl
        | true =>
          simp only [if_true]
          apply ih
          rcases h with h | ⟨h1, h2⟩
          · rcases misses_cons h with h | ⟨-, h⟩
            · rw [hm] at h; simp at h
            · exact .inl h
          · refine .inr ⟨?_, ?_⟩
            · simp only [Ctx.depth, List.length_cons] at h1 ⊢; omega
            · simpa only [Ctx.depth, List.drop_succ_cons] using h2

theorem depth_names (c : Ctx) : c.names.length = c.depth := by
  induction c with
  | here => rfl
  | within b n as ws c cws a ih => simp [Ctx.names, Ctx.depth, ih]

theorem cons_named_miss {e : El} {m : Bytes} (h : nameMatches m e.name = false) (a : Forest) : (e.cons a).info.named m = a.info.named m := by
  rw [Info.named, cons_elems, List.filter_cons, if_neg (by simpa [El.node] using h)]; rfl

theorem selectL_miss {e : El} {m : Bytes} {q : List Bytes} (h : nameMatches m e.name = false) : selectL (m :: q) (e.cons .nil).info = [] := by
  cases q with
  | nil => exact cons_named_miss h .nil
  | cons n q => rw [selectL_cons _ _ (by simp), cons_named_miss h]; rfl

/-- A query that misses the element and the elements around it. -/
theorem selectL_outside {c : Ctx} {e : El} {y : Forest} {q : List Bytes} (h : Misses q (c.names ++ [e.name]))
    (hy : ∀ m q', nameMatches m e.name = false → selectL (m :: q') y.info = []) :
    selectL q (c.plug y).info = selectL q (c.plug (e.cons .nil)).info := by
  apply selectL_congr
  obtain ⟨i, a, b, h1, h2, h3⟩ := h
  by_cases hi : i < c.depth
  · exact .inl ⟨i, a, b, h1, by rw [List.getElem?_append_left (by rw [depth_names]; exact hi)] at h2; exact h2, h3⟩
  · have hlt := (List.getElem?_eq_some_iff.mp h2).1
    simp only [List.length_append, depth_names, List.length_cons, List.length_nil] at hlt
    have hi2 : i = c.depth := by omega
    subst hi2
    rw [List.getElem?_append_right (by rw [depth_names]; exact Nat.le_refl _), depth_names, Nat.sub_self] at h2
    simp only [List.getElem?_cons_zero, Option.some.injEq] at h2
    subst h2
    obtain ⟨hq, hqa⟩ := List.getElem?_eq_some_iff.mp h1
    refine .inr ⟨hq, ?_⟩
    rw [List.drop_eq_getElem_cons hq, hqa, selectL_miss h3, hy _ _ h3]

/-- Removing the element a path of names leads to removes it from what the names select. -/
theorem selectL_removed {q : List Bytes} {c : Ctx} {e : El} (h : Leads (firsts q) c e.name) :
    selectL q (c.plug (e.cons .nil)).info = e.node :: selectL q (c.plug .nil).info := by
  induction q generalizing c with
  | nil => simp [firsts, Leads] at h
  | cons n q ih =>
    cases c with
    | here b a =>
      cases q with
      | cons m q => simp [firsts, Leads] at h
      | nil =>
        obtain ⟨h1, h2⟩ := h
        have hb : b.info.named n = [] := List.length_eq_zero_iff.mp h2
        have he : (e.cons .nil).info.named n = [e.node] := by
          rw [Info.named, cons_elems, List.filter_cons, if_pos (by simpa [El.node] using h1)]; rfl
        simp only [selectL, Ctx.plug, append_named, hb, he]
        rfl
    | within b m as ws c cws a =>
      cases q with
      | nil => simp [firsts, Leads] at h
      | cons m2 q =>
        obtain ⟨h1, h2, h3⟩ := h
        have hb : b.info.named n = [] := List.length_eq_zero_iff.mp h2
        have hb2 : selectL (n :: m2 :: q) b.info = [] := by rw [selectL_cons _ _ (by simp), hb]; rfl
        rw [Ctx.plug, Ctx.plug, selectL_append, selectL_append, hb2, selectL_node _ (by simp), selectL_node _ (by simp), if_pos h1, if_pos h1, ih h3]
        rfl

/-! ### paths that lead nowhere -/

theorem findLoc_follow_none {o : Ord} (ho : o.IsPerm) {ps : List Step} {ss : List Seg} (hss : StepSegs ps ss) {data : Bytes} {i : Info} (h : Reads o data i)
    (base : Int) (hn : i.follow ps = none) : findLoc o true ss data base = none := by
  induction ps generalizing ss data i base with
  | nil => cases hss; rfl
  | cons p ps ih =>
    obtain ⟨n, j⟩ := p
    by_cases hb : base ≤ maxPositionOffset
    · obtain ⟨ss', hss', hstep⟩ := findLoc_step o hss
      rw [hstep data base hb]
      have hr := namedE_rep (n := n) h
      cases hm : ((topElems o data).filter (fun e => nameMatches n e.name))[j]? with
      | none => rfl
      | some e =>
        obtain ⟨nd, h1, hrep⟩ := hr.get_some_left hm
        cases ps with
        | nil => rw [Info.follow, h1] at hn; simp at hn
        | cons p2 ps =>
          simp only [reduceCtorEq, if_false]
          split
          · rw [follow_cons _ _ _ (by simp), h1] at hn
            exact ih hss' (writes_reads ho hrep.content) _ (by simpa using hn)
          · rfl
    · cases hss <;> rw [findLoc, if_pos (by omega)]

theorem follow_none_of_select {pre : List Bytes} {n : Bytes} {i : Info} (h : i.select pre n = []) : i.follow (firsts (pre ++ [n])) = none := by
  cases hf : i.follow (firsts (pre ++ [n])) with
  | none => rfl
  | some nd => have := follow_select hf; rw [h] at this; simp at this

theorem delete_entry_valid {o : Ord} {xml : Bytes} (hs : xml.length ≤ 10485760) (hv : valid xml = true) {path : Bytes} {ss : List Seg}
    (hp : parsePath path = .ok ss) (hne : ss ≠ []) : delete o xml path = finish xml (deleteElement o true xml ss) := by
  have hd := docMax
  unfold delete deleteWithOptions
  rw [if_neg (by omega), if_neg (by rw [hv]; simp)]
  have e : (effOpts (some defaultOptions)).caseSensitive = true := rfl
  rw [e, parseOpt_true hp]
  cases ss with
  | nil => exact absurd rfl hne
  | cons => rfl

theorem delete_missing {o : Ord} (ho : o.IsPerm) {xml : Bytes} {i : Info} (h : Says xml i) (hv : valid xml = true) {ps : List Step} {parts : List Bytes}
    (hps : StepsText ps parts) (hne : ps ≠ []) (hpl : parts.length ≤ 100) (hn : i.follow ps = none) :
    delete o xml (pathOf parts) = .ret (xml, none) := by
  obtain ⟨ss, hss, hp⟩ := parsePath_steps hps hne [] [] rfl (by simpa using hpl)
  simp only [List.append_nil, fuseFields] at hp
  rw [delete_entry_valid h.1 hv hp (stepSegs_ne hss hne), deleteElement_steps hss hne h.1, findLoc_follow_none ho hss (says_reads ho h) 0 hn]
  simp only [finish, getResult]
  split <;> simp_all

/-! ### names -/

theorem name_plain {n : Bytes} (h : IsName n) : PlainName n := by
  obtain ⟨⟨c, cs, rfl, hc⟩, hall, -⟩ := h
  have hcc : c ≠ c!"@" ∧ c ≠ c!"#" ∧ c ≠ c!"%" ∧ c ≠ c!"*" ∧ ¬ (48 ≤ c ∧ c ≤ 57) ∧ c ≠ c!"-" := by
    refine ⟨?_, ?_, ?_, ?_, ?_, ?_⟩
    · rintro rfl; revert hc; decide
    · rintro rfl; revert hc; decide
    · rintro rfl; revert hc; decide
    · rintro rfl; revert hc; decide
    · rintro ⟨h1, h2⟩
      rcases hc with (⟨a, b⟩ | ⟨a, b⟩) | rfl | rfl
      · simp only [UInt8.le_iff_toNat_le, UInt8.toNat_ofNat] at *; omega
      · simp only [UInt8.le_iff_toNat_le, UInt8.toNat_ofNat] at *; omega
      · revert h2; decide
      · revert h2; decide
    · rintro rfl; revert hc; decide
  refine ⟨by simp, ?_, by simp [hcc.1], by simp [hcc.2.1], by simp [hcc.2.2.1], by simp [hcc.2.2.2.1], by simp [hcc.2.2.2.1], c, by simp, ?_⟩
  · intro hb
    have := hall _ hb
    revert this; decide
  · rintro (h | ⟨h, -⟩)
    · exact hcc.2.2.2.2.1 h
    · exact hcc.2.2.2.2.2 h

end Verif
