import Verif.Lemmas.Order
import Verif.Lemmas.Fold
/- Two runs of the query engine with options, side by side. -/
namespace Verif
open Spec

/-- No two attributes differ only in the case of their names. -/
def CU (a : Bytes → Option Bytes) : Prop := ∀ x y v w, a x = some v → a y = some w → foldCase x = foldCase y → x = y

/-- Two contents that say the same; case-insensitively, with no ambiguous attributes. -/
def WU (cs : Bool) (c1 c2 : Bytes) : Prop := ∃ i, Writes c1 i ∧ Writes c2 i ∧ (cs = false → i.CaseUnique)

/-- Two elements that say the same. -/
def EU (cs : Bool) (e1 e2 : Elem) : Prop := ∃ nd, Rep e1 nd ∧ Rep e2 nd ∧ (cs = false → CU nd.attr ∧ nd.kids.CaseUnique)

/-- Two texts read as the same, under two orders. -/
def RU (cs : Bool) (o1 o2 : Ord) (x1 x2 : Bytes) : Prop := ∃ i, Reads o1 x1 i ∧ Reads o2 x2 i ∧ (cs = false → i.CaseUnique)

theorem caseUnique_elems {i : Info} (h : i.CaseUnique) : ∀ nd ∈ i.elems, CU nd.attr ∧ nd.kids.CaseUnique := by
  induction i with
  | nil => intro nd h; cases h
  | text b next ih => exact ih h
  | misc b next ih => exact ih h
  | elem n a k next _ ih =>
    obtain ⟨h1, h2, h3⟩ := h
    intro nd hm
    simp only [Info.elems, List.mem_cons] at hm
    rcases hm with rfl | hm
    · exact ⟨h1, h2⟩
    · exact ih h3 nd hm

theorem all2_join_mem {α β γ : Type} {R : α → γ → Prop} {S : β → γ → Prop} {as : List α} {bs : List β} {cs : List γ} (h1 : All2 R as cs) (h2 : All2 S bs cs) :
    All2 (fun a b => ∃ c ∈ cs, R a c ∧ S b c) as bs := by
  induction h1 generalizing bs with
  | nil => cases h2; exact .nil
  | cons hab _ ih => cases h2 with
    | cons h h2 => exact .cons ⟨_, by simp, hab, h⟩ ((ih h2).imp (fun _ _ ⟨c, hc, hr⟩ => ⟨c, by simp [hc], hr⟩))

theorem RU.tops {cs : Bool} {o1 o2 : Ord} {x1 x2 : Bytes} (h : RU cs o1 o2 x1 x2) : All2 (EU cs) (topElems o1 x1) (topElems o2 x2) := by
  obtain ⟨i, h1, h2, h3⟩ := h
  exact (all2_join_mem h1 h2).imp (fun _ _ ⟨nd, hm, ha, hb⟩ => ⟨nd, ha, hb, fun hcs => caseUnique_elems (h3 hcs) nd hm⟩)

theorem WU.ru {cs : Bool} {o1 o2 : Ord} (h1 : o1.IsPerm) (h2 : o2.IsPerm) {c1 c2 : Bytes} (h : WU cs c1 c2) : RU cs o1 o2 c1 c2 := by
  obtain ⟨i, ha, hb, hc⟩ := h
  exact ⟨i, writes_reads h1 ha, writes_reads h2 hb, hc⟩

theorem WU.wa {cs : Bool} {c1 c2 : Bytes} (h : WU cs c1 c2) : WA c1 c2 := by obtain ⟨i, ha, hb, -⟩ := h; exact ⟨i, ha, hb⟩
theorem EU.ea {cs : Bool} {e1 e2 : Elem} (h : EU cs e1 e2) : EA e1 e2 := by obtain ⟨i, ha, hb, -⟩ := h; exact ⟨i, ha, hb⟩
theorem EU.content {cs : Bool} {e1 e2 : Elem} (h : EU cs e1 e2) : WU cs e1.content e2.content := by
  obtain ⟨nd, h1, h2, h3⟩ := h; exact ⟨_, h1.content, h2.content, fun hcs => (h3 hcs).2⟩

theorem short_eq {l1 l2 : List (Bytes × Bytes)} (h1 : (l1.map Prod.fst).Nodup) (h2 : (l2.map Prod.fst).Nodup) (hmem : ∀ p, p ∈ l1 ↔ p ∈ l2)
    (hk : ∀ p ∈ l1, ∀ q ∈ l1, p.1 = q.1) : l1 = l2 := by
  have short : ∀ l : List (Bytes × Bytes), (l.map Prod.fst).Nodup → (∀ p ∈ l, ∀ q ∈ l, p.1 = q.1) → ∀ p ∈ l, l = [p] := by
    intro l hn hl p hp
    match l, hn, hl, hp with
    | [a], _, _, hp => simp at hp; rw [hp]
    | a :: b :: r, hn, hl, _ =>
      have := hl a (by simp) b (by simp)
      simp [this] at hn
  cases l1 with
  | nil =>
    cases l2 with
    | nil => rfl
    | cons q l2 => have := (hmem q).mpr (by simp); simp at this
  | cons p l1 =>
    have hp2 : p ∈ l2 := (hmem p).mp (by simp)
    rw [short _ h1 hk p (by simp), short _ h2 (fun a ha b hb => hk a ((hmem a).mpr ha) b ((hmem b).mpr hb)) p hp2]

theorem attrsOpt_alike {e1 e2 : Env} (he : Envs e1 e2) {cs : Bool} (a : Bytes) {m1 m2 : Elem} (h : EU cs m1 m2) :
    attrsOpt e1.ord cs a m1 = attrsOpt e2.ord cs a m2 := by
  unfold attrsOpt
  cases cs with
  | true => simp only [if_true, h.ea.attr]
  | false =>
    obtain ⟨nd, h1, h2, h3⟩ := h
    obtain ⟨h3, -⟩ := h3 rfl
    simp only [Bool.false_eq_true, if_false]
    congr 1
    have mem : ∀ (o : Ord) (_ : o.IsPerm) (m : Elem) (_ : Rep m nd) (p : Bytes × Bytes),
        p ∈ (o m.content m.attrs).filter (fun kv => toLowerASCII kv.1 = a) ↔ nd.attr p.1 = some p.2 ∧ toLowerASCII p.1 = a := by
      intro o ho m hm p
      rw [List.mem_filter, (ho _ _).mem_iff, ← hm.attr, Attrs.get?_eq_some hm.uniq]
      simp
    have nod : ∀ (o : Ord) (_ : o.IsPerm) (m : Elem) (_ : Rep m nd),
        (((o m.content m.attrs).filter (fun kv => toLowerASCII kv.1 = a)).map Prod.fst).Nodup := by
      intro o ho m hm
      have := ((ho m.content m.attrs).map Prod.fst).nodup_iff.mpr hm.uniq
      exact List.Nodup.sublist (List.Sublist.map _ List.filter_sublist) this
    refine short_eq (nod _ he.p1 _ h1) (nod _ he.p2 _ h2) (fun p => by rw [mem _ he.p1 _ h1, mem _ he.p2 _ h2]) (fun p hp q hq => ?_)
    rw [mem _ he.p1 _ h1] at hp hq
    exact h3 _ _ _ _ hp.1 hq.1 (by rw [foldCase_eq, foldCase_eq, hp.2, hq.2])

theorem all2_map_attr (l : List Bytes) : All2 Alike (l.map .ofAttr) (l.map .ofAttr) := by
  induction l with
  | nil => exact .nil
  | cons a l ih => exact .cons (alike_attr a) ih

section
variable {e1 e2 : Env} (he : Envs e1 e2) {cs : Bool}
include he

theorem fieldValuesOpt_alike (f : Bytes) {m1 m2 : Elem} (h : EU cs m1 m2) :
    All2 Alike (fieldValuesOpt e1.ord cs f m1) (fieldValuesOpt e2.ord cs f m2) := by
  unfold fieldValuesOpt
  split
  · rw [attrsOpt_alike he _ h]
    exact all2_map_attr _
  · split
    · simp only [h.content.wa.direct]
      split
      · exact .nil
      · exact .cons (.leaf _ _ _ _ _) .nil
    · refine All2.map (All2.filter (h.content.wa.ra he.p1 he.p2).tops (fun a b hab => by rw [hab.name])) (fun a b hab => hab.content.element)

theorem fieldExtractionOpt_alike (f : Bytes) (mods : List Bytes) {ms1 ms2 : List Elem} (h : All2 (EU cs) ms1 ms2) :
    Alike (fieldExtractionOpt e1 cs ms1 f mods) (fieldExtractionOpt e2 cs ms2 f mods) := by
  unfold fieldExtractionOpt
  split
  · exact alike_null
  · have := (All2.flatMap h (fun a b hab => fieldValuesOpt_alike he f hab)).take maxWildcardResults
    simp only [this.isEmpty]
    split
    · exact alike_array .nil
    · exact he.apply _ (alike_array this)

theorem pack_alike {ms1 ms2 : List Elem} (h : All2 (EU cs) ms1 ms2) (mods : List Bytes) (g1 g2 : Elem → List Result)
    (hg : ∀ a b, EU cs a b → All2 Alike (g1 a) (g2 b)) :
    Alike (if (ms1.flatMap g1).isEmpty then .null else applyModifiers e1.mods (packResults (ms1.flatMap g1)) mods)
      (if (ms2.flatMap g2).isEmpty then .null else applyModifiers e2.mods (packResults (ms2.flatMap g2)) mods) := by
  have := All2.flatMap h hg
  rw [this.isEmpty]
  split
  · exact alike_null
  · exact he.apply _ (alike_pack this)

theorem handleWildcardOpt_alike {ms1 ms2 : List Elem} (h : All2 (EU cs) ms1 ms2) (rest : List Seg) {k1 k2 : Bytes → Result}
    (hk : ∀ c1 c2, WU cs c1 c2 → Alike (k1 c1) (k2 c2)) : Alike (handleWildcardOpt e1 cs ms1 rest k1) (handleWildcardOpt e2 cs ms2 rest k2) := by
  unfold handleWildcardOpt
  cases rest with
  | nil => exact alike_pack (All2.map h (fun a b hab => hab.content.wa.element))
  | cons nxt rest2 =>
    refine pack_alike he h _ _ _ (fun a b hab => ?_)
    cases nxt.kind <;> simp only [attrsOpt_alike he _ hab] <;> try exact alike_asList (hk _ _ hab.content)
    · split
      · exact all2_map_attr _
      · exact .nil
    · exact .cons hab.content.wa.text .nil

theorem recEmitOpt_alike (rest : List Seg) {k1 k2 : Bytes → Result}
    (hk : ∀ c1 c2, WU cs c1 c2 → Alike (k1 c1) (k2 c2)) {m1 m2 : Elem} (h : EU cs m1 m2) :
    All2 Alike (recEmitOpt e1 cs rest k1 m1) (recEmitOpt e2 cs rest k2 m2) := by
  unfold recEmitOpt
  cases rest with
  | nil => exact .cons h.content.wa.element .nil
  | cons nxt rest2 =>
    simp only
    cases nxt.kind <;> simp only [attrsOpt_alike he _ h] <;> try exact alike_asList (hk _ _ h.content)
    · split
      · exact all2_map_attr _
      · exact .nil
    · exact .cons h.content.wa.text .nil

omit he in
theorem recLoop_alikeU {inner1 inner2 : Bytes → SearchSt → SearchSt} {tgt : Elem → Bool} {emit1 emit2 : Elem → List Result}
    (hi : ∀ c1 c2 s1 s2, WU cs c1 c2 → StA s1 s2 → StA (inner1 c1 s1) (inner2 c2 s2))
    (htgt : ∀ a b, EU cs a b → tgt a = tgt b) (hemit : ∀ a b, EU cs a b → All2 Alike (emit1 a) (emit2 b))
    {l1 l2 : List Elem} (h : All2 (EU cs) l1 l2) {s1 s2 : SearchSt} (hs : StA s1 s2) :
    StA (recLoop inner1 tgt emit1 l1 s1) (recLoop inner2 tgt emit2 l2 s2) := by
  induction h generalizing s1 s2 with
  | nil => exact hs
  | @cons a b l1 l2 hab h ih =>
    simp only [recLoop, hab.ea.deep, htgt a b hab]
    have h1 : StA (if (!b.selfClosing && !b.content.isEmpty) = true then inner1 a.content s1 else s1)
        (if (!b.selfClosing && !b.content.isEmpty) = true then inner2 b.content s2 else s2) := by
      split
      · exact hi _ _ _ _ hab.content hs
      · exact hs
    generalize (if (!b.selfClosing && !b.content.isEmpty) = true then inner1 a.content s1 else s1) = t1 at h1 ⊢
    generalize (if (!b.selfClosing && !b.content.isEmpty) = true then inner2 b.content s2 else s2) = t2 at h1 ⊢
    rw [h1.1, h1.2.length]
    split
    · exact h1
    · split
      · split
        · exact h1
        · exact ih ⟨rfl, h1.2.append (hemit a b hab)⟩
      · exact ih h1

theorem recSearch_alikeU {tgt : Elem → Bool} {emit1 emit2 : Elem → List Result}
    (htgt : ∀ a b, EU cs a b → tgt a = tgt b) (hemit : ∀ a b, EU cs a b → All2 Alike (emit1 a) (emit2 b)) (n : Nat)
    {x1 x2 : Bytes} (h : RU cs e1.ord e2.ord x1 x2) {s1 s2 : SearchSt} (hs : StA s1 s2) :
    StA (recSearch e1.ord tgt emit1 n x1 s1) (recSearch e2.ord tgt emit2 n x2 s2) := by
  induction n generalizing x1 x2 s1 s2 with
  | zero => exact ⟨by simp [recSearch, hs.1], hs.2⟩
  | succ n ih =>
    simp only [recSearch, hs.1, hs.2.length]
    split
    · exact ⟨rfl, hs.2⟩
    · exact recLoop_alikeU (fun c1 c2 t1 t2 hc ht => ih (hc.ru he.p1 he.p2) ht) htgt hemit h.tops ⟨rfl, hs.2⟩

theorem handleRecursiveOpt_alike (rest : List Seg) {k1 k2 : Bytes → Result}
    (hk : ∀ c1 c2, WU cs c1 c2 → Alike (k1 c1) (k2 c2)) {x1 x2 : Bytes} (h : RU cs e1.ord e2.ord x1 x2) :
    Alike (handleRecursiveOpt e1 cs rest k1 x1) (handleRecursiveOpt e2 cs rest k2 x2) := by
  unfold handleRecursiveOpt
  cases rest with
  | nil => exact alike_null
  | cons tgt rest2 =>
    have := (recSearch_alikeU he (tgt := fun e => tgt.matchesOpt e.name cs) (fun a b hab => by simp only [hab.ea.name])
      (fun a b hab => recEmitOpt_alike he rest2 hk hab) (maxNestingDepth + 1) h (s1 := ⟨0, []⟩) (s2 := ⟨0, []⟩) ⟨rfl, .nil⟩).2
    simp only
    generalize (recSearch e1.ord _ _ _ _ _).res = l1 at this ⊢
    generalize (recSearch e2.ord _ _ _ _ _).res = l2 at this ⊢
    cases this with
    | nil => exact alike_null
    | cons hab h => exact alike_pack (.cons hab h)

theorem processFirstOpt_alike {m1 m2 : Elem} (h : EU cs m1 m2) (seg : Seg) (rest : List Seg) {k1 k2 : Bytes → Result}
    (hk : ∀ c1 c2, WU cs c1 c2 → Alike (k1 c1) (k2 c2)) : Alike (processFirstOpt e1 cs m1 seg rest k1) (processFirstOpt e2 cs m2 seg rest k2) := by
  unfold processFirstOpt
  cases rest with
  | nil => exact he.apply _ h.content.wa.element
  | cons nxt rest2 =>
    simp only
    cases nxt.kind <;> simp only [attrsOpt_alike he _ h] <;> try exact hk _ _ h.content
    · split
      · exact he.apply _ (alike_attr _)
      · exact alike_null
    · exact he.apply _ h.content.wa.text
    · exact fieldExtractionOpt_alike he _ _ (.cons h .nil)

theorem processAllOpt_alike {ms1 ms2 : List Elem} (h : All2 (EU cs) ms1 ms2) (seg : Seg) (rest : List Seg) {k1 k2 : Bytes → Result}
    (hk : ∀ c1 c2, WU cs c1 c2 → Alike (k1 c1) (k2 c2)) : Alike (processAllOpt e1 cs ms1 seg rest k1) (processAllOpt e2 cs ms2 seg rest k2) := by
  unfold processAllOpt
  cases rest with
  | nil => exact he.apply _ (alike_array (All2.map h (fun a b hab => hab.content.wa.element)))
  | cons nxt rest2 =>
    simp only
    cases nxt.kind <;> simp only <;> first
      | exact fieldExtractionOpt_alike he _ _ h
      | skip
    all_goals refine pack_alike he h _ _ _ (fun a b hab => ?_)
    all_goals try simp only [attrsOpt_alike he _ hab]
    all_goals try exact alike_asList (hk _ _ hab.content)
    · exact all2_map_attr _
    · exact .cons hab.content.wa.text .nil

theorem routeFilterOpt_alike {ms1 ms2 : List Elem} (h : All2 (EU cs) ms1 ms2) (seg : Seg) (all : Bool) (rest : List Seg)
    {k1 k2 : Bytes → Result} (hk : ∀ c1 c2, WU cs c1 c2 → Alike (k1 c1) (k2 c2)) :
    Alike (routeFilterOpt e1 cs ms1 seg all rest k1) (routeFilterOpt e2 cs ms2 seg all rest k2) := by
  unfold routeFilterOpt
  cases h with
  | nil => exact alike_null
  | cons hab h =>
    simp only
    split
    · exact processAllOpt_alike he (.cons hab h) seg rest hk
    · exact processFirstOpt_alike he hab seg rest hk

theorem fragmentRootsOpt_alike {ms1 ms2 : List Elem} (h : All2 (EU true) ms1 ms2) (nxt : Seg) (rest2 : List Seg)
    {k1 k2 : Bytes → Result} (hk : ∀ c1 c2, WU true c1 c2 → Alike (k1 c1) (k2 c2)) :
    Alike (fragmentRootsOpt e1 ms1 nxt rest2 k1) (fragmentRootsOpt e2 ms2 nxt rest2 k2) := by
  unfold fragmentRootsOpt
  rw [h.isEmpty]
  split
  · exact alike_null
  · cases nxt.kind <;> simp only <;> try exact alike_null
    · rename_i i
      split
      · exact alike_null
      · rcases h.get i.toNat with ⟨h1, h2⟩ | ⟨a, b, h1, h2, hab⟩
        · rw [h1, h2]; exact alike_null
        · rw [h1, h2]
          simp only
          cases rest2 with
          | nil => exact hab.content.wa.element
          | cons s rest3 =>
            simp only
            cases s.kind <;> simp only [hab.ea.attr] <;> try exact hk _ _ hab.content
            · split
              · exact alike_attr _
              · exact alike_null
            · exact hab.content.wa.text
    · rw [h.length]; exact alike_count _
    · exact fieldExtractionOpt_alike he _ _ h

theorem arrayOpOpt_alike {ms1 ms2 : List Elem} (h : All2 (EU cs) ms1 ms2) (nxt : Seg) (rest2 : List Seg)
    {k1 k2 : Bytes → Result} (hk : ∀ c1 c2, WU cs c1 c2 → Alike (k1 c1) (k2 c2)) :
    Alike (arrayOpOpt e1 cs ms1 nxt rest2 k1) (arrayOpOpt e2 cs ms2 nxt rest2 k2) := by
  unfold arrayOpOpt
  rw [h.isEmpty]
  split
  · exact alike_null
  · cases nxt.kind <;> simp only <;> try exact alike_null
    · rename_i i
      split
      · exact alike_null
      · rcases h.get i.toNat with ⟨h1, h2⟩ | ⟨a, b, h1, h2, hab⟩
        · rw [h1, h2]; exact alike_null
        · rw [h1, h2]
          simp only
          cases rest2 with
          | nil => exact hab.content.wa.element
          | cons s rest3 =>
            simp only
            cases s.kind <;> simp only [attrsOpt_alike he _ hab] <;> try exact hk _ _ hab.content
            · split
              · exact alike_attr _
              · exact alike_null
    · rw [h.length]; exact alike_count _

theorem firstMatchOpt_alike (rest : List Seg)
    {k1 k2 : Bytes → Result} (hk : ∀ c1 c2, WU cs c1 c2 → Alike (k1 c1) (k2 c2)) {ms1 ms2 : List Elem} (h : All2 (EU cs) ms1 ms2) :
    Alike (firstMatchOpt e1 cs rest k1 ms1) (firstMatchOpt e2 cs rest k2 ms2) := by
  induction h with
  | nil => exact alike_null
  | @cons a b l1 l2 hab h ih =>
    simp only [firstMatchOpt]
    cases rest with
    | nil => exact hab.content.wa.element
    | cons nxt rest2 =>
      simp only
      have hh := hk _ _ hab.content
      have hdef : Alike (if (k1 a.content).typ = .null then firstMatchOpt e1 cs (nxt :: rest2) k1 l1 else k1 a.content)
          (if (k2 b.content).typ = .null then firstMatchOpt e2 cs (nxt :: rest2) k2 l2 else k2 b.content) := by
        rw [hh.typ]
        split
        · exact ih
        · exact hh
      cases nxt.kind <;> simp only [attrsOpt_alike he _ hab] <;> try exact hdef
      · split
        · split
          · exact alike_attr _
          · exact alike_null
        · exact alike_null
      · exact hab.content.wa.text

theorem execElemOpt_alike {ev1 ev2 : Filter → Elem → Bool} (hev : ∀ f a b, EA a b → ev1 f a = ev2 f b) (cur : Seg) (rest : List Seg)
    {k1 k2 k1' k2' : Bytes → Result} (hk : ∀ c1 c2, WU cs c1 c2 → Alike (k1 c1) (k2 c2)) (hk' : ∀ c1 c2, WU cs c1 c2 → Alike (k1' c1) (k2' c2))
    {x1 x2 : Bytes} (h : RU cs e1.ord e2.ord x1 x2) :
    Alike (execElemOpt e1 ev1 cs cur rest k1 k1' x1) (execElemOpt e2 ev2 cs cur rest k2 k2' x2) := by
  have hms : All2 (EU cs) ((topElems e1.ord x1).filter (fun e => cur.matchesOpt e.name cs)) ((topElems e2.ord x2).filter (fun e => cur.matchesOpt e.name cs)) :=
    All2.filter h.tops (fun a b hab => by rw [hab.ea.name])
  unfold execElemOpt
  cases rest with
  | nil => exact firstMatchOpt_alike he [] hk hms
  | cons nxt rest2 =>
    simp only
    cases nxt.kind <;> simp only <;> try exact firstMatchOpt_alike he (nxt :: rest2) hk hms
    · exact arrayOpOpt_alike he (hms.take _) nxt rest2 hk'
    · exact routeFilterOpt_alike he (All2.filter (hms.take _) (fun a b hab => hev _ a b hab.ea)) nxt _ rest2 hk'
    · exact arrayOpOpt_alike he (hms.take _) nxt rest2 hk'
    · exact fieldExtractionOpt_alike he _ _ (hms.take _)

theorem execBodyOpt_alike {ev1 ev2 : Filter → Elem → Bool} (hev : ∀ f a b, EA a b → ev1 f a = ev2 f b) (root : Bool) (cur : Seg) (rest : List Seg)
    {k1 k2 k1' k2' : Bytes → Result} (hk : ∀ c1 c2, WU cs c1 c2 → Alike (k1 c1) (k2 c2)) (hk' : ∀ c1 c2, WU cs c1 c2 → Alike (k1' c1) (k2' c2))
    {x1 x2 : Bytes} (h : RU cs e1.ord e2.ord x1 x2) :
    Alike (execBodyOpt e1 ev1 cs root cur rest k1 k1' x1) (execBodyOpt e2 ev2 cs root cur rest k2 k2' x2) := by
  unfold execBodyOpt
  cases cur.kind with
  | elem v =>
    simp only
    split
    · rename_i hc
      simp only [Bool.and_eq_true] at hc
      obtain ⟨-, rfl⟩ := hc
      cases rest with
      | nil => exact alike_null
      | cons nxt rest2 =>
        exact fragmentRootsOpt_alike he (All2.take (All2.filter h.tops (fun a b hab => by rw [hab.ea.name])) _) nxt rest2 hk'
    · exact execElemOpt_alike he hev cur rest hk hk' h
  | filter f all => exact routeFilterOpt_alike he (All2.take (All2.filter h.tops (fun a b hab => hev _ a b hab.ea)) _) cur all rest hk
  | field _ => exact alike_array .nil
  | index _ => exact alike_null
  | count => exact alike_null
  | text => exact alike_null
  | attr _ => exact alike_null
  | wild rec =>
    cases rec with
    | true => exact handleRecursiveOpt_alike he rest hk' h
    | false =>
      have hms := h.tops.take maxWildcardResults
      simp only [hms.isEmpty]
      split
      · exact alike_null
      · exact handleWildcardOpt_alike he hms rest hk

end

theorem execQOpt_alike {e1 e2 : Env} (he : Envs e1 e2) {cs : Bool} {ev1 ev2 : Filter → Elem → Bool} (hev : ∀ f a b, EA a b → ev1 f a = ev2 f b) :
    ∀ (ss : List Seg) (root : Bool) (x1 x2 : Bytes), RU cs e1.ord e2.ord x1 x2 → Alike (execQOpt e1 ev1 cs ss root x1) (execQOpt e2 ev2 cs ss root x2)
  | [], _, _, _, _ => alike_null
  | [cur], root, x1, x2, h => by
    rw [execQOpt, execQOpt]
    exact execBodyOpt_alike he hev root cur [] (fun _ _ _ => alike_null) (fun _ _ _ => alike_null) h
  | cur :: nxt :: rest, root, x1, x2, h => by
    rw [execQOpt, execQOpt]
    exact execBodyOpt_alike he hev root cur (nxt :: rest) (fun c1 c2 hc => execQOpt_alike he hev (nxt :: rest) false c1 c2 (hc.ru he.p1 he.p2))
      (fun c1 c2 hc => execQOpt_alike he hev rest false c1 c2 (hc.ru he.p1 he.p2)) h
termination_by ss => ss.length

end Verif
