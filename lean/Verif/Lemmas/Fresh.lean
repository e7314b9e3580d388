import Verif.Model.Fresh
import Verif.Lemmas.OrderOpt
/- Two runs of the query engine with a new iteration order of maps at every visit, side by side; the proofs follow `Lemmas/Order` and `Lemmas/OrderOpt`. -/
namespace Verif
open Spec

/-- Every order is an iteration order of a map. -/
def Visits.IsPerm (os : Visits) : Prop := ∀ l, (os l).IsPerm

/-- The orders of two runs. -/
structure Wides (os1 os2 : Visits) : Prop where
  w1 : os1.IsPerm
  w2 : os2.IsPerm

theorem Wides.sub {os1 os2 : Visits} (h : Wides os1 os2) (t : Nat) (a b : Elem) : Wides (os1.sub t a) (os2.sub t b) :=
  ⟨fun _ => h.w1 _, fun _ => h.w2 _⟩

theorem Wides.p1 {os1 os2 : Visits} (h : Wides os1 os2) : os1.here.IsPerm := h.w1 []
theorem Wides.p2 {os1 os2 : Visits} (h : Wides os1 os2) : os2.here.IsPerm := h.w2 []

/-- One visit of two runs. -/
theorem Wides.envs {os1 os2 : Visits} (h : Wides os1 os2) (t : Nat) (a b : Elem) :
    Envs ⟨(os1.sub t a).here, fun _ => none, fun _ => none⟩ ⟨(os2.sub t b).here, fun _ => none, fun _ => none⟩ :=
  ⟨(h.sub t a b).p1, (h.sub t a b).p2, rfl, rfl, fun _ _ h => by cases h⟩

section
variable {mods : Bytes → Option (Result → Result)} (hb : BlindMods mods) {os1 os2 : Visits}
include hb

theorem fieldExtractionF_alike (hw : Wides os1 os2) (f : Bytes) (names : List Bytes) {ms1 ms2 : List Elem} (h : All2 EA ms1 ms2) :
    Alike (fieldExtractionF mods os1 ms1 f names) (fieldExtractionF mods os2 ms2 f names) := by
  unfold fieldExtractionF
  split
  · exact alike_null
  · have := (All2.flatMap h (fun a b hab => fieldValues_alike (hw.envs 0 a b) f hab)).take maxWildcardResults
    simp only [this.isEmpty]
    split
    · exact alike_array .nil
    · exact applyModifiers_alike hb _ (alike_array this)

theorem handleWildcardF_alike {ms1 ms2 : List Elem} (h : All2 EA ms1 ms2) (rest : List Seg) {k1 k2 : Elem → Result}
    (hk : ∀ a b, EA a b → Alike (k1 a) (k2 b)) : Alike (handleWildcardF mods ms1 rest k1) (handleWildcardF mods ms2 rest k2) := by
  unfold handleWildcardF
  cases rest with
  | nil => exact alike_pack (All2.map h (fun a b hab => hab.content.element))
  | cons nxt rest2 =>
    have key : ∀ (g1 g2 : Elem → List Result) (q1 q2 : Elem → Bool), (∀ a b, EA a b → All2 Alike (g1 a) (g2 b)) → (∀ a b, EA a b → q1 a = q2 b) →
        Alike (if (ms1.flatMap g1).isEmpty then (if ms1.any q1 then .ofArray [] else .null) else applyModifiers mods (packResults (ms1.flatMap g1)) nxt.mods)
          (if (ms2.flatMap g2).isEmpty then (if ms2.any q2 then .ofArray [] else .null) else applyModifiers mods (packResults (ms2.flatMap g2)) nxt.mods) := by
      intro g1 g2 q1 q2 hg hq
      have := All2.flatMap h hg
      rw [this.isEmpty, any_of_all2 h hq]
      split
      · split
        · exact alike_array .nil
        · exact alike_null
      · exact applyModifiers_alike hb _ (alike_pack this)
    refine key _ _ _ _ (fun a b hab => ?_) (fun a b hab => ?_)
    · cases nxt.kind <;> simp only [hab.attr] <;> try exact alike_asList (hk _ _ hab)
      · split
        · split
          · exact .cons (alike_attr _) .nil
          · exact .nil
        · exact .nil
      · exact .cons hab.content.text .nil
    · have hh := hk _ _ hab
      simp only [hh.typ, hh.fields.2.2.2.isEmpty]

theorem recEmitF_alike (rest : List Seg) {k1 k2 : Visits → Elem → Result}
    (hk : ∀ os1 os2, Wides os1 os2 → ∀ a b, EA a b → Alike (k1 os1 a) (k2 os2 b)) {os1 os2 : Visits} (hw : Wides os1 os2) {m1 m2 : Elem} (h : EA m1 m2) :
    All2 Alike (recEmitF mods rest k1 os1 m1) (recEmitF mods rest k2 os2 m2) := by
  unfold recEmitF
  cases rest with
  | nil => exact .cons h.content.element .nil
  | cons nxt rest2 =>
    simp only
    cases nxt.kind <;> simp only [h.attr] <;> try exact alike_asList (hk _ _ hw _ _ h)
    · split
      · split
        · exact .cons (alike_attr _) .nil
        · exact .nil
      · exact .nil
    · exact .cons h.content.text .nil
    · rename_i f
      have := fieldExtractionF_alike hb hw f nxt.mods (.cons h .nil)
      rw [this.typ]
      split
      · exact this.fields.2.2.2
      · exact .nil

omit hb in
theorem recLoopF_alike {inner1 inner2 : Elem → SearchSt → SearchSt} {tgt : Elem → Bool} {emit1 emit2 : Elem → List Result}
    (hi : ∀ a b s1 s2, EA a b → StA s1 s2 → StA (inner1 a s1) (inner2 b s2))
    (htgt : ∀ a b, EA a b → tgt a = tgt b) (hemit : ∀ a b, EA a b → All2 Alike (emit1 a) (emit2 b))
    {l1 l2 : List Elem} (h : All2 EA l1 l2) {s1 s2 : SearchSt} (hs : StA s1 s2) :
    StA (recLoopF inner1 tgt emit1 l1 s1) (recLoopF inner2 tgt emit2 l2 s2) := by
  induction h generalizing s1 s2 with
  | nil => exact hs
  | @cons a b l1 l2 hab h ih =>
    simp only [recLoopF, hab.deep, htgt a b hab]
    have h1 : StA (if (!b.selfClosing && !b.content.isEmpty) = true then inner1 a s1 else s1)
        (if (!b.selfClosing && !b.content.isEmpty) = true then inner2 b s2 else s2) := by
      split
      · exact hi _ _ _ _ hab hs
      · exact hs
    generalize (if (!b.selfClosing && !b.content.isEmpty) = true then inner1 a s1 else s1) = t1 at h1 ⊢
    generalize (if (!b.selfClosing && !b.content.isEmpty) = true then inner2 b s2 else s2) = t2 at h1 ⊢
    rw [h1.1, h1.2.length]
    split
    · exact h1
    · split
      · split
        · exact h1
        · exact ih ⟨rfl, h1.2.append (hemit a b hab)⟩
      · exact ih h1

omit hb in
theorem recSearchF_alike {tgt : Elem → Bool} {emit1 emit2 : Visits → Elem → List Result}
    (htgt : ∀ a b, EA a b → tgt a = tgt b) (hemit : ∀ os1 os2, Wides os1 os2 → ∀ a b, EA a b → All2 Alike (emit1 os1 a) (emit2 os2 b)) (n : Nat)
    {os1 os2 : Visits} (hw : Wides os1 os2) {x1 x2 : Bytes} (h : RA os1.here os2.here x1 x2) {s1 s2 : SearchSt} (hs : StA s1 s2) :
    StA (recSearchF tgt emit1 n os1 x1 s1) (recSearchF tgt emit2 n os2 x2 s2) := by
  induction n generalizing os1 os2 x1 x2 s1 s2 with
  | zero => exact ⟨by simp [recSearchF, hs.1], hs.2⟩
  | succ n ih =>
    simp only [recSearchF, hs.1, hs.2.length]
    split
    · exact ⟨rfl, hs.2⟩
    · exact recLoopF_alike (fun a b t1 t2 hab ht => ih (hw.sub 1 a b) (hab.content.ra (hw.sub 1 a b).p1 (hw.sub 1 a b).p2) ht) htgt (hemit _ _ hw) h.tops ⟨rfl, hs.2⟩

theorem handleRecursiveF_alike (hw : Wides os1 os2) (rest : List Seg) {k1 k2 : Visits → Elem → Result}
    (hk : ∀ os1 os2, Wides os1 os2 → ∀ a b, EA a b → Alike (k1 os1 a) (k2 os2 b)) {x1 x2 : Bytes} (h : RA os1.here os2.here x1 x2) :
    Alike (handleRecursiveF mods os1 rest k1 x1) (handleRecursiveF mods os2 rest k2 x2) := by
  unfold handleRecursiveF
  cases rest with
  | nil => exact alike_null
  | cons tgt rest2 =>
    have := (recSearchF_alike (tgt := fun e => tgt.matches e.name) (fun a b hab => by simp only [hab.name])
      (fun _ _ hw a b hab => recEmitF_alike hb rest2 hk hw hab) (maxNestingDepth + 1) hw h (s1 := ⟨0, []⟩) (s2 := ⟨0, []⟩) ⟨rfl, .nil⟩).2
    simp only
    generalize (recSearchF _ _ _ os1 _ _).res = l1 at this ⊢
    generalize (recSearchF _ _ _ os2 _ _).res = l2 at this ⊢
    cases this with
    | nil => exact alike_null
    | cons hab h => exact alike_pack (.cons hab h)

theorem processFirstF_alike (hw : Wides os1 os2) {m1 m2 : Elem} (h : EA m1 m2) (seg : Seg) (rest : List Seg) {k1 k2 : Elem → Result}
    (hk : ∀ a b, EA a b → Alike (k1 a) (k2 b)) : Alike (processFirstF mods os1 m1 seg rest k1) (processFirstF mods os2 m2 seg rest k2) := by
  unfold processFirstF
  cases rest with
  | nil => exact applyModifiers_alike hb _ h.content.element
  | cons nxt rest2 =>
    simp only
    cases nxt.kind <;> simp only [h.attr] <;> try exact hk _ _ h
    · split
      · exact applyModifiers_alike hb _ (alike_attr _)
      · exact alike_null
    · exact applyModifiers_alike hb _ h.content.text
    · exact fieldExtractionF_alike hb hw _ _ (.cons h .nil)

theorem processAllF_alike (hw : Wides os1 os2) {ms1 ms2 : List Elem} (h : All2 EA ms1 ms2) (seg : Seg) (rest : List Seg) {k1 k2 : Elem → Result}
    (hk : ∀ a b, EA a b → Alike (k1 a) (k2 b)) : Alike (processAllF mods os1 ms1 seg rest k1) (processAllF mods os2 ms2 seg rest k2) := by
  unfold processAllF
  cases rest with
  | nil => exact applyModifiers_alike hb _ (alike_array (All2.map h (fun a b hab => hab.content.element)))
  | cons nxt rest2 =>
    have key : ∀ g1 g2 : Elem → List Result, (∀ a b, EA a b → All2 Alike (g1 a) (g2 b)) →
        Alike (if (ms1.flatMap g1).isEmpty then .null else applyModifiers mods (packResults (ms1.flatMap g1)) nxt.mods)
          (if (ms2.flatMap g2).isEmpty then .null else applyModifiers mods (packResults (ms2.flatMap g2)) nxt.mods) := by
      intro g1 g2 hg
      have := All2.flatMap h hg
      rw [this.isEmpty]
      split
      · exact alike_null
      · exact applyModifiers_alike hb _ (alike_pack this)
    simp only
    cases nxt.kind <;> simp only <;> first
      | exact fieldExtractionF_alike hb hw _ _ h
      | skip
    all_goals refine key _ _ (fun a b hab => ?_)
    all_goals try simp only [hab.attr]
    all_goals try exact alike_asList (hk _ _ hab)
    · split
      · exact .cons (alike_attr _) .nil
      · exact .nil
    · exact .cons hab.content.text .nil

theorem routeFilterF_alike (hw : Wides os1 os2) {ms1 ms2 : List Elem} (h : All2 EA ms1 ms2) (seg : Seg) (all : Bool) (rest : List Seg)
    {k1 k2 : Elem → Result} (hk : ∀ a b, EA a b → Alike (k1 a) (k2 b)) :
    Alike (routeFilterF mods os1 ms1 seg all rest k1) (routeFilterF mods os2 ms2 seg all rest k2) := by
  unfold routeFilterF
  cases h with
  | nil => exact alike_null
  | cons hab h =>
    simp only
    split
    · exact processAllF_alike hb hw (.cons hab h) seg rest hk
    · exact processFirstF_alike hb hw hab seg rest hk

theorem fragmentRootsF_alike (hw : Wides os1 os2) {ms1 ms2 : List Elem} (h : All2 EA ms1 ms2) (nxt : Seg) (rest2 : List Seg)
    {k1 k2 : Elem → Result} (hk : ∀ a b, EA a b → Alike (k1 a) (k2 b)) :
    Alike (fragmentRootsF mods os1 ms1 nxt rest2 k1) (fragmentRootsF mods os2 ms2 nxt rest2 k2) := by
  unfold fragmentRootsF
  rw [h.isEmpty]
  split
  · exact alike_null
  · cases nxt.kind <;> simp only <;> try exact alike_null
    · rename_i i
      split
      · exact alike_null
      · rcases h.get i.toNat with ⟨h1, h2⟩ | ⟨a, b, h1, h2, hab⟩
        · rw [h1, h2]; exact alike_null
        · rw [h1, h2]
          simp only
          cases rest2 with
          | nil => exact hab.content.element
          | cons s rest3 =>
            simp only
            cases s.kind <;> simp only [hab.attr] <;> try exact hk _ _ hab
            · split
              · exact alike_attr _
              · exact alike_null
            · exact hab.content.text
    · rw [h.length]; exact alike_count _
    · exact fieldExtractionF_alike hb hw _ _ h

theorem arrayOpF_alike {ms1 ms2 : List Elem} (h : All2 EA ms1 ms2) (nxt : Seg) (rest2 : List Seg)
    {k1 k2 : Elem → Result} (hk : ∀ a b, EA a b → Alike (k1 a) (k2 b)) :
    Alike (arrayOpF mods ms1 nxt rest2 k1) (arrayOpF mods ms2 nxt rest2 k2) := by
  unfold arrayOpF
  rw [h.isEmpty]
  split
  · exact alike_null
  · cases nxt.kind <;> simp only <;> try exact alike_null
    · rename_i i
      split
      · exact alike_null
      · rcases h.get i.toNat with ⟨h1, h2⟩ | ⟨a, b, h1, h2, hab⟩
        · rw [h1, h2]; exact alike_null
        · rw [h1, h2]
          simp only
          cases rest2 with
          | nil => exact applyModifiers_alike hb _ hab.content.element
          | cons s rest3 =>
            simp only
            cases s.kind <;> simp only [hab.attr] <;> try exact hk _ _ hab
            · split
              · split
                · exact applyModifiers_alike hb _ (alike_attr _)
                · exact alike_attr _
              · exact alike_null
    · rw [h.length]; exact applyModifiers_alike hb _ (alike_count _)

theorem firstMatchF_alike (cur : Seg) (rest : List Seg)
    {k1 k2 : Elem → Result} (hk : ∀ a b, EA a b → Alike (k1 a) (k2 b)) {ms1 ms2 : List Elem} (h : All2 EA ms1 ms2) :
    Alike (firstMatchF mods cur rest k1 ms1) (firstMatchF mods cur rest k2 ms2) := by
  induction h with
  | nil => exact alike_null
  | @cons a b l1 l2 hab h ih =>
    simp only [firstMatchF]
    cases rest with
    | nil => exact applyModifiers_alike hb _ hab.content.element
    | cons nxt rest2 =>
      simp only
      have hh := hk _ _ hab
      have hdef : Alike (if (k1 a).typ = .null then firstMatchF mods cur (nxt :: rest2) k1 l1 else k1 a)
          (if (k2 b).typ = .null then firstMatchF mods cur (nxt :: rest2) k2 l2 else k2 b) := by
        rw [hh.typ]
        split
        · exact ih
        · exact hh
      cases nxt.kind <;> simp only [hab.attr] <;> try exact hdef
      · split
        · split
          · exact applyModifiers_alike hb _ (alike_attr _)
          · exact alike_null
        · exact alike_null
      · exact applyModifiers_alike hb _ hab.content.text

theorem execElemF_alike (hw : Wides os1 os2) {ev1 ev2 : Visits → Filter → Elem → Bool} (hev : ∀ os1 os2, Wides os1 os2 → ∀ f a b, EA a b → ev1 os1 f a = ev2 os2 f b) (cur : Seg) (rest : List Seg)
    {k1 k2 k1' k2' : Elem → Result} (hk : ∀ a b, EA a b → Alike (k1 a) (k2 b)) (hk' : ∀ a b, EA a b → Alike (k1' a) (k2' b))
    {x1 x2 : Bytes} (h : RA os1.here os2.here x1 x2) :
    Alike (execElemF mods os1 ev1 cur rest k1 k1' x1) (execElemF mods os2 ev2 cur rest k2 k2' x2) := by
  have hms : All2 EA ((topElems os1.here x1).filter (fun e => cur.matches e.name)) ((topElems os2.here x2).filter (fun e => cur.matches e.name)) :=
    All2.filter h.tops (fun a b hab => by rw [hab.name])
  unfold execElemF
  cases rest with
  | nil => exact firstMatchF_alike hb cur [] hk hms
  | cons nxt rest2 =>
    simp only
    cases nxt.kind <;> simp only <;> try exact firstMatchF_alike hb cur (nxt :: rest2) hk hms
    · exact arrayOpF_alike hb (hms.take _) nxt rest2 hk'
    · exact routeFilterF_alike hb hw (All2.filter (hms.take _) (fun a b hab => hev _ _ (hw.sub 2 a b) _ a b hab)) nxt _ rest2 hk'
    · exact arrayOpF_alike hb (hms.take _) nxt rest2 hk'
    · exact fieldExtractionF_alike hb hw _ _ (hms.take _)

theorem execBodyF_alike (hw : Wides os1 os2) {ev1 ev2 : Visits → Filter → Elem → Bool} (hev : ∀ os1 os2, Wides os1 os2 → ∀ f a b, EA a b → ev1 os1 f a = ev2 os2 f b) (root : Bool) (cur : Seg) (rest : List Seg)
    {k1 k2 k1' k2' : Visits → Elem → Result} (hk : ∀ os1 os2, Wides os1 os2 → ∀ a b, EA a b → Alike (k1 os1 a) (k2 os2 b))
    (hk' : ∀ os1 os2, Wides os1 os2 → ∀ a b, EA a b → Alike (k1' os1 a) (k2' os2 b))
    {x1 x2 : Bytes} (h : RA os1.here os2.here x1 x2) :
    Alike (execBodyF mods os1 ev1 root cur rest k1 k1' x1) (execBodyF mods os2 ev2 root cur rest k2 k2' x2) := by
  have hq : ∀ a b, EA a b → Alike (k1 (os1.sub 3 a) a) (k2 (os2.sub 3 b) b) := fun a b hab => hk _ _ (hw.sub 3 a b) a b hab
  have hq' : ∀ a b, EA a b → Alike (k1' (os1.sub 4 a) a) (k2' (os2.sub 4 b) b) := fun a b hab => hk' _ _ (hw.sub 4 a b) a b hab
  unfold execBodyF
  cases cur.kind with
  | elem v =>
    simp only
    split
    · cases rest with
      | nil => exact alike_null
      | cons nxt rest2 =>
        exact fragmentRootsF_alike hb hw (All2.take (All2.filter h.tops (fun a b hab => by rw [hab.name])) _) nxt rest2 hq'
    · exact execElemF_alike hb hw hev cur rest hq hq' h
  | filter f all => exact routeFilterF_alike hb hw (All2.take (All2.filter h.tops (fun a b hab => hev _ _ (hw.sub 2 a b) _ a b hab)) _) cur all rest hq
  | field _ => exact alike_array .nil
  | index _ => exact alike_null
  | count => exact alike_null
  | text => exact alike_null
  | attr _ => exact alike_null
  | wild rec =>
    cases rec with
    | true => exact handleRecursiveF_alike hb hw rest (fun _ _ hw a b hab => hk' _ _ (hw.sub 4 a b) a b hab) h
    | false =>
      have hms := h.tops.take maxWildcardResults
      simp only [hms.isEmpty]
      split
      · exact alike_null
      · split
        · exact applyModifiers_alike hb _ (handleWildcardF_alike hb hms rest hq)
        · exact handleWildcardF_alike hb hms rest hq

theorem execQF_alike {ev1 ev2 : Visits → Filter → Elem → Bool} (hev : ∀ os1 os2, Wides os1 os2 → ∀ f a b, EA a b → ev1 os1 f a = ev2 os2 f b) :
    ∀ (ss : List Seg) (root : Bool) (os1 os2 : Visits) (_ : Wides os1 os2) (x1 x2 : Bytes), RA os1.here os2.here x1 x2 →
      Alike (execQF mods ev1 ss root os1 x1) (execQF mods ev2 ss root os2 x2)
  | [], _, _, _, _, _, _, _ => alike_null
  | [cur], root, os1, os2, hw, x1, x2, h => by
    rw [execQF, execQF]
    exact execBodyF_alike hb hw hev root cur [] (fun _ _ _ _ _ _ => alike_null) (fun _ _ _ _ _ _ => alike_null) h
  | cur :: nxt :: rest, root, os1, os2, hw, x1, x2, h => by
    rw [execQF, execQF]
    exact execBodyF_alike hb hw hev root cur (nxt :: rest)
      (fun os1 os2 hw a b hab => execQF_alike hev (nxt :: rest) false os1 os2 hw a.content b.content (hab.content.ra hw.p1 hw.p2))
      (fun os1 os2 hw a b hab => execQF_alike hev rest false os1 os2 hw a.content b.content (hab.content.ra hw.p1 hw.p2)) h
termination_by ss => ss.length

theorem evalFilterNF_alike (pf : Bytes → Option FVal) (n : Nat) :
    ∀ os1 os2, Wides os1 os2 → ∀ f a b, EA a b → evalFilterNF mods pf n os1 f a = evalFilterNF mods pf n os2 f b := by
  induction n with
  | zero => intro os1 os2 _ f a b _; rfl
  | succ n ih =>
    intro os1 os2 hw f a b hab
    simp only [evalFilterNF, hab.attr]
    congr 1
    split
    · rfl
    · cases parsePath f.path with
      | panic => rfl
      | err => rfl
      | ok ss =>
        have := execQF_alike hb ih ss true _ _ hw _ _ (hab.content.ra hw.p1 hw.p2)
        simp only [this.exists?, this.toStr]

theorem executeQueryF_alike (pf : Bytes → Option FVal) (hw : Wides os1 os2) (ss : List Seg) {x1 x2 : Bytes} (h : RA os1.here os2.here x1 x2) :
    Alike (executeQueryF mods pf os1 ss x1) (executeQueryF mods pf os2 ss x2) :=
  execQF_alike hb (ev1 := evalFilterF mods pf) (ev2 := evalFilterF mods pf) (fun _ _ hw f a b hab => evalFilterNF_alike hb pf (f.path.length + 1) _ _ hw f a b hab) ss true _ _ hw x1 x2 h

end

/-! ### with options -/

theorem noEnvs {mods : Bytes → Option (Result → Result)} (hb : BlindMods mods) {os1 os2 : Visits} (hw : Wides os1 os2) :
    Envs ⟨os1.here, mods, fun _ => none⟩ ⟨os2.here, mods, fun _ => none⟩ := ⟨hw.p1, hw.p2, rfl, rfl, hb⟩

theorem attrsF_alike {os1 os2 : Visits} (hw : Wides os1 os2) {cs : Bool} (a : Bytes) {m1 m2 : Elem} (h : EU cs m1 m2) :
    attrsOpt (os1.sub 5 m1).here cs a m1 = attrsOpt (os2.sub 5 m2).here cs a m2 := attrsOpt_alike (hw.envs 5 m1 m2) a h

section
variable {mods : Bytes → Option (Result → Result)} (hb : BlindMods mods) {os1 os2 : Visits} {cs : Bool}
include hb

theorem fieldExtractionOptF_alike (hw : Wides os1 os2) (f : Bytes) (names : List Bytes) {ms1 ms2 : List Elem} (h : All2 (EU cs) ms1 ms2) :
    Alike (fieldExtractionOptF mods os1 cs ms1 f names) (fieldExtractionOptF mods os2 cs ms2 f names) := by
  unfold fieldExtractionOptF
  split
  · exact alike_null
  · have := (All2.flatMap h (fun a b hab => fieldValuesOpt_alike (hw.envs 0 a b) f hab)).take maxWildcardResults
    simp only [this.isEmpty]
    split
    · exact alike_array .nil
    · exact applyModifiers_alike hb _ (alike_array this)

theorem handleWildcardOptF_alike (hw : Wides os1 os2) {ms1 ms2 : List Elem} (h : All2 (EU cs) ms1 ms2) (rest : List Seg) {k1 k2 : Elem → Result}
    (hk : ∀ a b, EU cs a b → Alike (k1 a) (k2 b)) : Alike (handleWildcardOptF mods os1 cs ms1 rest k1) (handleWildcardOptF mods os2 cs ms2 rest k2) := by
  unfold handleWildcardOptF
  cases rest with
  | nil => exact alike_pack (All2.map h (fun a b hab => hab.content.wa.element))
  | cons nxt rest2 =>
    refine pack_alike (noEnvs hb hw) h _ _ _ (fun a b hab => ?_)
    cases nxt.kind <;> simp only [attrsF_alike hw _ hab] <;> try exact alike_asList (hk _ _ hab)
    · split
      · exact all2_map_attr _
      · exact .nil
    · exact .cons hab.content.wa.text .nil

omit hb in
theorem recEmitOptF_alike (rest : List Seg) {k1 k2 : Visits → Elem → Result}
    (hk : ∀ os1 os2, Wides os1 os2 → ∀ a b, EU cs a b → Alike (k1 os1 a) (k2 os2 b)) {os1 os2 : Visits} (hw : Wides os1 os2) {m1 m2 : Elem} (h : EU cs m1 m2) :
    All2 Alike (recEmitOptF cs rest k1 os1 m1) (recEmitOptF cs rest k2 os2 m2) := by
  unfold recEmitOptF
  cases rest with
  | nil => exact .cons h.content.wa.element .nil
  | cons nxt rest2 =>
    simp only
    cases nxt.kind <;> simp only [attrsF_alike hw _ h] <;> try exact alike_asList (hk _ _ hw _ _ h)
    · split
      · exact all2_map_attr _
      · exact .nil
    · exact .cons h.content.wa.text .nil

omit hb in
theorem recLoopF_alikeU {inner1 inner2 : Elem → SearchSt → SearchSt} {tgt : Elem → Bool} {emit1 emit2 : Elem → List Result}
    (hi : ∀ a b s1 s2, EU cs a b → StA s1 s2 → StA (inner1 a s1) (inner2 b s2))
    (htgt : ∀ a b, EU cs a b → tgt a = tgt b) (hemit : ∀ a b, EU cs a b → All2 Alike (emit1 a) (emit2 b))
    {l1 l2 : List Elem} (h : All2 (EU cs) l1 l2) {s1 s2 : SearchSt} (hs : StA s1 s2) :
    StA (recLoopF inner1 tgt emit1 l1 s1) (recLoopF inner2 tgt emit2 l2 s2) := by
  induction h generalizing s1 s2 with
  | nil => exact hs
  | @cons a b l1 l2 hab h ih =>
    simp only [recLoopF, hab.ea.deep, htgt a b hab]
    have h1 : StA (if (!b.selfClosing && !b.content.isEmpty) = true then inner1 a s1 else s1)
        (if (!b.selfClosing && !b.content.isEmpty) = true then inner2 b s2 else s2) := by
      split
      · exact hi _ _ _ _ hab hs
      · exact hs
    generalize (if (!b.selfClosing && !b.content.isEmpty) = true then inner1 a s1 else s1) = t1 at h1 ⊢
    generalize (if (!b.selfClosing && !b.content.isEmpty) = true then inner2 b s2 else s2) = t2 at h1 ⊢
    rw [h1.1, h1.2.length]
    split
    · exact h1
    · split
      · split
        · exact h1
        · exact ih ⟨rfl, h1.2.append (hemit a b hab)⟩
      · exact ih h1

omit hb in
theorem recSearchF_alikeU {tgt : Elem → Bool} {emit1 emit2 : Visits → Elem → List Result}
    (htgt : ∀ a b, EU cs a b → tgt a = tgt b) (hemit : ∀ os1 os2, Wides os1 os2 → ∀ a b, EU cs a b → All2 Alike (emit1 os1 a) (emit2 os2 b)) (n : Nat)
    {os1 os2 : Visits} (hw : Wides os1 os2) {x1 x2 : Bytes} (h : RU cs os1.here os2.here x1 x2) {s1 s2 : SearchSt} (hs : StA s1 s2) :
    StA (recSearchF tgt emit1 n os1 x1 s1) (recSearchF tgt emit2 n os2 x2 s2) := by
  induction n generalizing os1 os2 x1 x2 s1 s2 with
  | zero => exact ⟨by simp [recSearchF, hs.1], hs.2⟩
  | succ n ih =>
    simp only [recSearchF, hs.1, hs.2.length]
    split
    · exact ⟨rfl, hs.2⟩
    · exact recLoopF_alikeU (fun a b t1 t2 hab ht => ih (hw.sub 1 a b) (hab.content.ru (hw.sub 1 a b).p1 (hw.sub 1 a b).p2) ht) htgt (hemit _ _ hw) h.tops ⟨rfl, hs.2⟩

omit hb in
theorem handleRecursiveOptF_alike (hw : Wides os1 os2) (rest : List Seg) {k1 k2 : Visits → Elem → Result}
    (hk : ∀ os1 os2, Wides os1 os2 → ∀ a b, EU cs a b → Alike (k1 os1 a) (k2 os2 b)) {x1 x2 : Bytes} (h : RU cs os1.here os2.here x1 x2) :
    Alike (handleRecursiveOptF os1 cs rest k1 x1) (handleRecursiveOptF os2 cs rest k2 x2) := by
  unfold handleRecursiveOptF
  cases rest with
  | nil => exact alike_null
  | cons tgt rest2 =>
    have := (recSearchF_alikeU (tgt := fun e => tgt.matchesOpt e.name cs) (fun a b hab => by simp only [hab.ea.name])
      (fun _ _ hw a b hab => recEmitOptF_alike rest2 hk hw hab) (maxNestingDepth + 1) hw h (s1 := ⟨0, []⟩) (s2 := ⟨0, []⟩) ⟨rfl, .nil⟩).2
    simp only
    generalize (recSearchF _ _ _ os1 _ _).res = l1 at this ⊢
    generalize (recSearchF _ _ _ os2 _ _).res = l2 at this ⊢
    cases this with
    | nil => exact alike_null
    | cons hab h => exact alike_pack (.cons hab h)

theorem processFirstOptF_alike (hw : Wides os1 os2) {m1 m2 : Elem} (h : EU cs m1 m2) (seg : Seg) (rest : List Seg) {k1 k2 : Elem → Result}
    (hk : ∀ a b, EU cs a b → Alike (k1 a) (k2 b)) : Alike (processFirstOptF mods os1 cs m1 seg rest k1) (processFirstOptF mods os2 cs m2 seg rest k2) := by
  unfold processFirstOptF
  cases rest with
  | nil => exact applyModifiers_alike hb _ h.content.wa.element
  | cons nxt rest2 =>
    simp only
    cases nxt.kind <;> simp only [attrsF_alike hw _ h] <;> try exact hk _ _ h
    · split
      · exact applyModifiers_alike hb _ (alike_attr _)
      · exact alike_null
    · exact applyModifiers_alike hb _ h.content.wa.text
    · exact fieldExtractionOptF_alike hb hw _ _ (.cons h .nil)

theorem processAllOptF_alike (hw : Wides os1 os2) {ms1 ms2 : List Elem} (h : All2 (EU cs) ms1 ms2) (seg : Seg) (rest : List Seg) {k1 k2 : Elem → Result}
    (hk : ∀ a b, EU cs a b → Alike (k1 a) (k2 b)) : Alike (processAllOptF mods os1 cs ms1 seg rest k1) (processAllOptF mods os2 cs ms2 seg rest k2) := by
  unfold processAllOptF
  cases rest with
  | nil => exact applyModifiers_alike hb _ (alike_array (All2.map h (fun a b hab => hab.content.wa.element)))
  | cons nxt rest2 =>
    simp only
    cases nxt.kind <;> simp only <;> first
      | exact fieldExtractionOptF_alike hb hw _ _ h
      | skip
    all_goals refine pack_alike (noEnvs hb hw) h _ _ _ (fun a b hab => ?_)
    all_goals try simp only [attrsF_alike hw _ hab]
    all_goals try exact alike_asList (hk _ _ hab)
    · exact all2_map_attr _
    · exact .cons hab.content.wa.text .nil

theorem routeFilterOptF_alike (hw : Wides os1 os2) {ms1 ms2 : List Elem} (h : All2 (EU cs) ms1 ms2) (seg : Seg) (all : Bool) (rest : List Seg)
    {k1 k2 : Elem → Result} (hk : ∀ a b, EU cs a b → Alike (k1 a) (k2 b)) :
    Alike (routeFilterOptF mods os1 cs ms1 seg all rest k1) (routeFilterOptF mods os2 cs ms2 seg all rest k2) := by
  unfold routeFilterOptF
  cases h with
  | nil => exact alike_null
  | cons hab h =>
    simp only
    split
    · exact processAllOptF_alike hb hw (.cons hab h) seg rest hk
    · exact processFirstOptF_alike hb hw hab seg rest hk

theorem fragmentRootsOptF_alike (hw : Wides os1 os2) {ms1 ms2 : List Elem} (h : All2 (EU true) ms1 ms2) (nxt : Seg) (rest2 : List Seg)
    {k1 k2 : Elem → Result} (hk : ∀ a b, EU true a b → Alike (k1 a) (k2 b)) :
    Alike (fragmentRootsOptF mods os1 ms1 nxt rest2 k1) (fragmentRootsOptF mods os2 ms2 nxt rest2 k2) := by
  unfold fragmentRootsOptF
  rw [h.isEmpty]
  split
  · exact alike_null
  · cases nxt.kind <;> simp only <;> try exact alike_null
    · rename_i i
      split
      · exact alike_null
      · rcases h.get i.toNat with ⟨h1, h2⟩ | ⟨a, b, h1, h2, hab⟩
        · rw [h1, h2]; exact alike_null
        · rw [h1, h2]
          simp only
          cases rest2 with
          | nil => exact hab.content.wa.element
          | cons s rest3 =>
            simp only
            cases s.kind <;> simp only [hab.ea.attr] <;> try exact hk _ _ hab
            · split
              · exact alike_attr _
              · exact alike_null
            · exact hab.content.wa.text
    · rw [h.length]; exact alike_count _
    · exact fieldExtractionOptF_alike hb hw _ _ h

omit hb in
theorem arrayOpOptF_alike (hw : Wides os1 os2) {ms1 ms2 : List Elem} (h : All2 (EU cs) ms1 ms2) (nxt : Seg) (rest2 : List Seg)
    {k1 k2 : Elem → Result} (hk : ∀ a b, EU cs a b → Alike (k1 a) (k2 b)) :
    Alike (arrayOpOptF os1 cs ms1 nxt rest2 k1) (arrayOpOptF os2 cs ms2 nxt rest2 k2) := by
  unfold arrayOpOptF
  rw [h.isEmpty]
  split
  · exact alike_null
  · cases nxt.kind <;> simp only <;> try exact alike_null
    · rename_i i
      split
      · exact alike_null
      · rcases h.get i.toNat with ⟨h1, h2⟩ | ⟨a, b, h1, h2, hab⟩
        · rw [h1, h2]; exact alike_null
        · rw [h1, h2]
          simp only
          cases rest2 with
          | nil => exact hab.content.wa.element
          | cons s rest3 =>
            simp only
            cases s.kind <;> simp only [attrsF_alike hw _ hab] <;> try exact hk _ _ hab
            · split
              · exact alike_attr _
              · exact alike_null
    · rw [h.length]; exact alike_count _

omit hb in
theorem firstMatchOptF_alike (hw : Wides os1 os2) (rest : List Seg)
    {k1 k2 : Elem → Result} (hk : ∀ a b, EU cs a b → Alike (k1 a) (k2 b)) {ms1 ms2 : List Elem} (h : All2 (EU cs) ms1 ms2) :
    Alike (firstMatchOptF os1 cs rest k1 ms1) (firstMatchOptF os2 cs rest k2 ms2) := by
  induction h with
  | nil => exact alike_null
  | @cons a b l1 l2 hab h ih =>
    simp only [firstMatchOptF]
    cases rest with
    | nil => exact hab.content.wa.element
    | cons nxt rest2 =>
      simp only
      have hh := hk _ _ hab
      have hdef : Alike (if (k1 a).typ = .null then firstMatchOptF os1 cs (nxt :: rest2) k1 l1 else k1 a)
          (if (k2 b).typ = .null then firstMatchOptF os2 cs (nxt :: rest2) k2 l2 else k2 b) := by
        rw [hh.typ]
        split
        · exact ih
        · exact hh
      cases nxt.kind <;> simp only [attrsF_alike hw _ hab] <;> try exact hdef
      · split
        · split
          · exact alike_attr _
          · exact alike_null
        · exact alike_null
      · exact hab.content.wa.text

theorem execElemOptF_alike (hw : Wides os1 os2) {ev1 ev2 : Visits → Filter → Elem → Bool} (hev : ∀ os1 os2, Wides os1 os2 → ∀ f a b, EA a b → ev1 os1 f a = ev2 os2 f b) (cur : Seg) (rest : List Seg)
    {k1 k2 k1' k2' : Elem → Result} (hk : ∀ a b, EU cs a b → Alike (k1 a) (k2 b)) (hk' : ∀ a b, EU cs a b → Alike (k1' a) (k2' b))
    {x1 x2 : Bytes} (h : RU cs os1.here os2.here x1 x2) :
    Alike (execElemOptF mods os1 ev1 cs cur rest k1 k1' x1) (execElemOptF mods os2 ev2 cs cur rest k2 k2' x2) := by
  have hms : All2 (EU cs) ((topElems os1.here x1).filter (fun e => cur.matchesOpt e.name cs)) ((topElems os2.here x2).filter (fun e => cur.matchesOpt e.name cs)) :=
    All2.filter h.tops (fun a b hab => by rw [hab.ea.name])
  unfold execElemOptF
  cases rest with
  | nil => exact firstMatchOptF_alike hw [] hk hms
  | cons nxt rest2 =>
    simp only
    cases nxt.kind <;> simp only <;> try exact firstMatchOptF_alike hw (nxt :: rest2) hk hms
    · exact arrayOpOptF_alike hw (hms.take _) nxt rest2 hk'
    · exact routeFilterOptF_alike hb hw (All2.filter (hms.take _) (fun a b hab => hev _ _ (hw.sub 2 a b) _ a b hab.ea)) nxt _ rest2 hk'
    · exact arrayOpOptF_alike hw (hms.take _) nxt rest2 hk'
    · exact fieldExtractionOptF_alike hb hw _ _ (hms.take _)

theorem execBodyOptF_alike (hw : Wides os1 os2) {ev1 ev2 : Visits → Filter → Elem → Bool} (hev : ∀ os1 os2, Wides os1 os2 → ∀ f a b, EA a b → ev1 os1 f a = ev2 os2 f b) (root : Bool) (cur : Seg) (rest : List Seg)
    {k1 k2 k1' k2' : Visits → Elem → Result} (hk : ∀ os1 os2, Wides os1 os2 → ∀ a b, EU cs a b → Alike (k1 os1 a) (k2 os2 b))
    (hk' : ∀ os1 os2, Wides os1 os2 → ∀ a b, EU cs a b → Alike (k1' os1 a) (k2' os2 b))
    {x1 x2 : Bytes} (h : RU cs os1.here os2.here x1 x2) :
    Alike (execBodyOptF mods os1 ev1 cs root cur rest k1 k1' x1) (execBodyOptF mods os2 ev2 cs root cur rest k2 k2' x2) := by
  have hq : ∀ a b, EU cs a b → Alike (k1 (os1.sub 3 a) a) (k2 (os2.sub 3 b) b) := fun a b hab => hk _ _ (hw.sub 3 a b) a b hab
  have hq' : ∀ a b, EU cs a b → Alike (k1' (os1.sub 4 a) a) (k2' (os2.sub 4 b) b) := fun a b hab => hk' _ _ (hw.sub 4 a b) a b hab
  unfold execBodyOptF
  cases cur.kind with
  | elem v =>
    simp only
    split
    · rename_i hc
      simp only [Bool.and_eq_true] at hc
      obtain ⟨-, rfl⟩ := hc
      cases rest with
      | nil => exact alike_null
      | cons nxt rest2 =>
        exact fragmentRootsOptF_alike hb hw (All2.take (All2.filter h.tops (fun a b hab => by rw [hab.ea.name])) _) nxt rest2 hq'
    · exact execElemOptF_alike hb hw hev cur rest hq hq' h
  | filter f all => exact routeFilterOptF_alike hb hw (All2.take (All2.filter h.tops (fun a b hab => hev _ _ (hw.sub 2 a b) _ a b hab.ea)) _) cur all rest hq
  | field _ => exact alike_array .nil
  | index _ => exact alike_null
  | count => exact alike_null
  | text => exact alike_null
  | attr _ => exact alike_null
  | wild rec =>
    cases rec with
    | true => exact handleRecursiveOptF_alike hw rest (fun _ _ hw a b hab => hk' _ _ (hw.sub 4 a b) a b hab) h
    | false =>
      have hms := h.tops.take maxWildcardResults
      simp only [hms.isEmpty]
      split
      · exact alike_null
      · exact handleWildcardOptF_alike hb hw hms rest hq

theorem execQOptF_alike {ev1 ev2 : Visits → Filter → Elem → Bool} (hev : ∀ os1 os2, Wides os1 os2 → ∀ f a b, EA a b → ev1 os1 f a = ev2 os2 f b) :
    ∀ (ss : List Seg) (root : Bool) (os1 os2 : Visits) (_ : Wides os1 os2) (x1 x2 : Bytes), RU cs os1.here os2.here x1 x2 →
      Alike (execQOptF mods ev1 cs ss root os1 x1) (execQOptF mods ev2 cs ss root os2 x2)
  | [], _, _, _, _, _, _, _ => alike_null
  | [cur], root, os1, os2, hw, x1, x2, h => by
    rw [execQOptF, execQOptF]
    exact execBodyOptF_alike hb hw hev root cur [] (fun _ _ _ _ _ _ => alike_null) (fun _ _ _ _ _ _ => alike_null) h
  | cur :: nxt :: rest, root, os1, os2, hw, x1, x2, h => by
    rw [execQOptF, execQOptF]
    exact execBodyOptF_alike hb hw hev root cur (nxt :: rest)
      (fun os1 os2 hw a b hab => execQOptF_alike hev (nxt :: rest) false os1 os2 hw a.content b.content (hab.content.ru hw.p1 hw.p2))
      (fun os1 os2 hw a b hab => execQOptF_alike hev rest false os1 os2 hw a.content b.content (hab.content.ru hw.p1 hw.p2)) h
termination_by ss => ss.length

end

end Verif
