import Verif.Lemmas.Step
import Verif.Model.GetOpt
/- The copy of the query engine for options agrees with the first one when names are compared exactly and there are no modifiers; and it does not
depend on the case of the path when they are not. -/
namespace Verif
open Spec

/-! ## Case-sensitive: the two engines agree -/

theorem attrsOpt_true (o : Ord) (a : Bytes) (m : Elem) : attrsOpt o true a m = (Attrs.get? a m.attrs).toList := rfl

theorem fieldValuesOpt_true (o : Ord) (f : Bytes) (m : Elem) : fieldValuesOpt o true f m = fieldValues o f m := by
  simp only [fieldValuesOpt, fieldValues, attrsOpt_true, if_true]
  split
  · cases Attrs.get? (List.drop 1 f) m.attrs <;> rfl
  · rfl

theorem fieldExtractionOpt_true (env : Env) (ms : List Elem) (f : Bytes) (mods : List Bytes) :
    fieldExtractionOpt env true ms f mods = fieldExtraction env ms f mods := by
  simp only [fieldExtractionOpt, fieldExtraction, show fieldValuesOpt env.ord true f = fieldValues env.ord f from funext (fieldValuesOpt_true _ _)]

/-- The result is not an empty array. -/
def NotEmptyArr (r : Result) : Prop := ¬ (r.typ = .array ∧ r.results = [])

/-- The segment is not a wildcard. -/
def Seg.noWild (s : Seg) : Prop := ∀ b, s.kind ≠ .wild b
/-- The segment is not a field extraction. -/
def Seg.noField (s : Seg) : Prop := ∀ f, s.kind ≠ .field f

theorem processFirstOpt_true (env : Env) (m : Elem) (seg : Seg) (rest : List Seg) (k : Bytes → Result) :
    processFirstOpt env true m seg rest k = processFirst env m seg rest k := by
  cases rest with
  | nil => rfl
  | cons nxt rest2 =>
    simp only [processFirstOpt, processFirst, attrsOpt_true, fieldExtractionOpt_true]
    cases nxt.kind with
    | attr a => simp only; cases Attrs.get? a m.attrs <;> rfl
    | _ => rfl

theorem processAllOpt_true (env : Env) (ms : List Elem) (seg : Seg) (rest : List Seg) (k : Bytes → Result) :
    processAllOpt env true ms seg rest k = processAll env ms seg rest k := by
  cases rest with
  | nil => rfl
  | cons nxt rest2 =>
    simp only [processAllOpt, processAll, attrsOpt_true, fieldExtractionOpt_true]
    cases nxt.kind with
    | attr a =>
      have : (fun m : Elem => List.map Result.ofAttr (Attrs.get? a m.attrs).toList) =
          (fun m => match Attrs.get? a m.attrs with
            | some v => [Result.ofAttr v]
            | none => []) := by
        funext m; cases Attrs.get? a m.attrs <;> rfl
      simp only [this]; rfl
    | _ => rfl

theorem routeFilterOpt_true (env : Env) (ms : List Elem) (seg : Seg) (all : Bool) (rest : List Seg) (k : Bytes → Result) :
    routeFilterOpt env true ms seg all rest k = routeFilter env ms seg all rest k := by
  cases ms with
  | nil => rfl
  | cons m ms => simp only [routeFilterOpt, routeFilter, processAllOpt_true, processFirstOpt_true]

theorem segMatchesOpt_true (s : Seg) (n : Bytes) : s.matchesOpt n true = s.matches n := by
  simp only [Seg.matchesOpt, Seg.matches, nameMatchesOpt, nameMatches, if_true]

theorem firstMatchOpt_true (env : Env) (cur : Seg) (rest : List Seg) (k : Bytes → Result) (ms : List Elem) (hc : cur.mods = []) (hr : ∀ s ∈ rest, s.mods = []) :
    firstMatchOpt env true rest k ms = firstMatch env cur rest k ms := by
  induction ms with
  | nil => rfl
  | cons m ms ih =>
    cases rest with
    | nil => simp only [firstMatchOpt, firstMatch, hc, runMods_nil]
    | cons nxt rest2 =>
      have hn := hr nxt (List.mem_cons_self ..)
      simp only [firstMatchOpt, firstMatch, attrsOpt_true, hn, runMods_nil, ih]
      cases nxt.kind with
      | attr a => simp only; cases Attrs.get? a m.attrs <;> rfl
      | _ => rfl

theorem arrayOpOpt_true (env : Env) (ms : List Elem) (nxt : Seg) (rest2 : List Seg) (k2 : Bytes → Result) (hn : nxt.mods = [])
    (hr : ∀ s ∈ rest2, s.mods = []) : arrayOpOpt env true ms nxt rest2 k2 = arrayOp env ms nxt rest2 k2 := by
  simp only [arrayOpOpt, arrayOp, hn, runMods_nil]
  split
  · rfl
  · cases nxt.kind with
    | index i =>
      simp only
      split
      · rfl
      · cases ms[i.toNat]? with
        | none => rfl
        | some m =>
          cases rest2 with
          | nil => rfl
          | cons s rest3 =>
            have hs := hr s (List.mem_cons_self ..)
            simp only [attrsOpt_true, hs, runMods_nil, ite_self]
            cases s.kind with
            | attr a => simp only; cases Attrs.get? a m.attrs <;> rfl
            | _ => rfl
    | _ => rfl

theorem fragmentRootsOpt_true (env : Env) (ms : List Elem) (nxt : Seg) (rest2 : List Seg) (k2 : Bytes → Result) :
    fragmentRootsOpt env ms nxt rest2 k2 = fragmentRoots env ms nxt rest2 k2 := by
  simp only [fragmentRootsOpt, fragmentRoots, fieldExtractionOpt_true]; rfl

theorem execElemOpt_true (env : Env) (ev : Filter → Elem → Bool) (cur : Seg) (rest : List Seg) (k1 k2 : Bytes → Result) (xml : Bytes)
    (hc : cur.mods = []) (hr : ∀ s ∈ rest, s.mods = []) : execElemOpt env ev true cur rest k1 k2 xml = execElem env ev cur rest k1 k2 xml := by
  cases rest with
  | nil => simp only [execElemOpt, execElem, segMatchesOpt_true]; exact firstMatchOpt_true env cur [] k1 _ hc hr
  | cons nxt rest2 =>
    have hn := hr nxt (List.mem_cons_self ..)
    have hr2 : ∀ s ∈ rest2, s.mods = [] := fun s hs => hr s (List.mem_cons_of_mem _ hs)
    simp only [execElemOpt, execElem, segMatchesOpt_true, fieldExtractionOpt_true, routeFilterOpt_true]
    cases hk : nxt.kind with
    | index i => exact arrayOpOpt_true env _ nxt rest2 k2 hn hr2
    | count => exact arrayOpOpt_true env _ nxt rest2 k2 hn hr2
    | field f => rfl
    | filter f a => rfl
    | _ => exact firstMatchOpt_true env cur _ k1 _ hc hr

theorem handleWildcardOpt_true (env : Env) (ms : List Elem) (rest : List Seg) (k : Bytes → Result) (hk : ∀ c, NotEmptyArr (k c)) :
    handleWildcardOpt env true ms rest k = handleWildcard env ms rest k := by
  cases rest with
  | nil => rfl
  | cons nxt rest2 =>
    have hf : (ms.any fun m => (k m.content).typ = .array && (k m.content).results.isEmpty) = false := by
      rw [List.any_eq_false]
      intro m _
      have hkm := hk m.content
      simp only [Bool.and_eq_true, decide_eq_true_eq, List.isEmpty_iff]; exact hkm
    have hf0 : (ms.any fun _ => false) = false := by simp
    simp only [handleWildcardOpt, handleWildcard]
    cases nxt.kind with
    | attr a =>
      have ha : (fun m : Elem => if rest2.isEmpty then (attrsOpt env.ord true a m).map Result.ofAttr else []) = (fun m : Elem =>
          match Attrs.get? a m.attrs with
          | some v => if rest2.isEmpty then [Result.ofAttr v] else []
          | none => []) := by
        funext m
        simp only [attrsOpt_true]; cases Attrs.get? a m.attrs <;> cases rest2.isEmpty <;> rfl
      simp only [ha, hf0, Bool.false_eq_true, if_false]; rfl
    | text => simp only [hf0, Bool.false_eq_true, if_false]
    | _ => simp only [hf, Bool.false_eq_true, if_false]

theorem recEmitOpt_true (env : Env) (rest : List Seg) (k : Bytes → Result) (hf : ∀ s ∈ rest, s.noField) : recEmitOpt env true rest k = recEmit env rest k := by
  funext e
  cases rest with
  | nil => rfl
  | cons nxt rest2 =>
    have hn := hf nxt (List.mem_cons_self ..)
    unfold Seg.noField at hn
    simp only [recEmitOpt, recEmit, attrsOpt_true]
    cases hk : nxt.kind with
    | attr a => simp only; cases Attrs.get? a e.attrs <;> cases rest2.isEmpty <;> rfl
    | field f => exact absurd hk (hn f)
    | _ => rfl

/-- An array result has elements, and none of them is an array. -/
def GoodArr (r : Result) : Prop := r.typ = .array → r.results ≠ [] ∧ ∀ x ∈ r.results, x.typ ≠ .array

theorem GoodArr.ne {r : Result} (h : GoodArr r) : NotEmptyArr r := fun hh => (h hh.1).1 hh.2

theorem goodArr_of {r : Result} (h : r.typ ≠ .array) : GoodArr r := fun hh => absurd hh h

theorem asList_flat {r : Result} (h : GoodArr r) : ∀ x ∈ asList r, x.typ ≠ .array := by
  intro x hx
  unfold asList at hx
  split at hx
  · simp at hx
  · split at hx
    · rename_i h1; exact (h h1).2 x hx
    · rename_i h1; simp only [List.mem_singleton] at hx; subst hx; exact h1

theorem pack_good {l : List Result} (h : l ≠ []) (hl : ∀ x ∈ l, x.typ ≠ .array) : GoodArr (packResults l) := by
  match l with
  | [] => exact absurd rfl h
  | [r] => exact goodArr_of (hl r (List.mem_cons_self ..))
  | a :: b :: c => exact fun _ => ⟨by simp [packResults, Result.ofArray, Result.results], by simpa [packResults, Result.ofArray, Result.results] using hl⟩

theorem ofContent_typ (c : Bytes) : (Result.ofContent c).typ ≠ .array := by simp [Result.ofContent, Result.typ]
theorem ofAttr_typ (c : Bytes) : (Result.ofAttr c).typ ≠ .array := by simp [Result.ofAttr, Result.typ]
theorem ofText_typ (c : Bytes) : (Result.ofText c).typ ≠ .array := by simp [Result.ofText, Result.typ]
theorem ofCount_typ (c : Nat) : (Result.ofCount c).typ ≠ .array := by simp [Result.ofCount, Result.typ]
theorem null_typ : Result.null.typ ≠ .array := by simp [Result.null, Result.typ]

theorem pack_all {ms : List Elem} {g : Elem → List Result} (hg : ∀ m, ∀ x ∈ g m, x.typ ≠ .array) :
    GoodArr (if (ms.flatMap g).isEmpty then .null else packResults (ms.flatMap g)) := by
  split
  · exact goodArr_of null_typ
  · rename_i hne
    refine pack_good (fun hh => hne (by rw [hh]; rfl)) fun x hx => ?_
    obtain ⟨m, -, hx⟩ := List.mem_flatMap.mp hx
    exact hg m x hx

theorem handleWildcard_good {env : Env} {ms : List Elem} {rest : List Seg} {k : Bytes → Result} (hms : ms ≠ []) (hk : ∀ c, GoodArr (k c)) (hm : ∀ s ∈ rest, s.mods = []) :
    GoodArr (handleWildcard env ms rest k) := by
  cases rest with
  | nil =>
    exact pack_good (by simpa using hms) (fun x hx => by obtain ⟨m, -, rfl⟩ := List.mem_map.mp hx; exact ofContent_typ _)
  | cons nxt rest2 =>
    have hm := hm nxt (List.mem_cons_self ..)
    have hf0 : (ms.any fun _ => false) = false := by simp
    cases hkd : nxt.kind with
    | attr a =>
      simp only [handleWildcard, hkd, hm, runMods_nil, hf0, Bool.false_eq_true, if_false]
      refine pack_all fun m x hx => ?_
      split at hx
      · split at hx
        · simp only [List.mem_singleton] at hx; subst hx; exact ofAttr_typ _
        · simp at hx
      · simp at hx
    | text =>
      simp only [handleWildcard, hkd, hm, runMods_nil, hf0, Bool.false_eq_true, if_false]
      refine pack_all fun m x hx => ?_
      simp only [List.mem_singleton] at hx; subst hx; exact ofText_typ _
    | _ =>
      have hf : (ms.any fun m => (k m.content).typ = .array && (k m.content).results.isEmpty) = false := by
        rw [List.any_eq_false]
        intro m _
        have hkm := (hk m.content).ne
        simp only [Bool.and_eq_true, decide_eq_true_eq, List.isEmpty_iff]; exact hkm
      simp only [handleWildcard, hkd, hm, runMods_nil, hf, Bool.false_eq_true, if_false]
      exact pack_all fun m x hx => asList_flat (hk _) x hx

theorem fragmentRoots_good {env : Env} {ms : List Elem} {nxt : Seg} {rest2 : List Seg} {k2 : Bytes → Result} (hk : ∀ c, GoodArr (k2 c)) (hn : nxt.noField) :
    GoodArr (fragmentRoots env ms nxt rest2 k2) := by
  unfold Seg.noField at hn
  unfold fragmentRoots
  repeat' split
  all_goals first | exact hk _ | exact goodArr_of null_typ | exact goodArr_of (ofContent_typ _) | exact goodArr_of (ofAttr_typ _) |
    exact goodArr_of (ofText_typ _) | exact goodArr_of (ofCount_typ _) | (rename_i h; exact absurd h (hn _))

theorem arrayOp_good {env : Env} {ms : List Elem} {nxt : Seg} {rest2 : List Seg} {k2 : Bytes → Result} (hk : ∀ c, GoodArr (k2 c)) (hn : nxt.mods = [])
    (hm : ∀ s ∈ rest2, s.mods = []) : GoodArr (arrayOp env ms nxt rest2 k2) := by
  unfold arrayOp
  rw [hn]
  cases rest2 with
  | nil =>
    simp only [runMods_nil]
    repeat' split
    all_goals first | exact hk _ | exact goodArr_of null_typ | exact goodArr_of (ofContent_typ _) | exact goodArr_of (ofCount_typ _)
  | cons s r =>
    simp only [runMods_nil, hm s (List.mem_cons_self ..)]
    repeat' split
    all_goals first | exact hk _ | exact goodArr_of null_typ | exact goodArr_of (ofAttr_typ _) | exact goodArr_of (ofCount_typ _)

theorem firstMatch_good {env : Env} {cur : Seg} {rest : List Seg} {k : Bytes → Result} {ms : List Elem} (hk : ∀ c, GoodArr (k c)) (hc : cur.mods = [])
    (hm : ∀ s ∈ rest, s.mods = []) : GoodArr (firstMatch env cur rest k ms) := by
  induction ms with
  | nil => exact goodArr_of null_typ
  | cons m ms ih =>
    cases rest with
    | nil => simp only [firstMatch, hc, runMods_nil]; exact goodArr_of (ofContent_typ _)
    | cons nxt r =>
      simp only [firstMatch, hm nxt (List.mem_cons_self ..), runMods_nil]
      repeat' split
      all_goals first | exact hk _ | exact goodArr_of null_typ | exact goodArr_of (ofAttr_typ _) | exact goodArr_of (ofText_typ _) | exact ih

theorem routeFilter_good {env : Env} {ms : List Elem} {seg : Seg} {all : Bool} {rest : List Seg} {k : Bytes → Result} (hk : ∀ c, GoodArr (k c))
    (hs : seg.mods = []) (hm : ∀ s ∈ rest, s.noField ∧ s.mods = []) : GoodArr (routeFilter env ms seg all rest k) := by
  cases ms with
  | nil => exact goodArr_of null_typ
  | cons m ms =>
    simp only [routeFilter]
    split
    · cases rest with
      | nil =>
        simp only [processAll, hs, runMods_nil]
        intro _
        refine ⟨by simp [Result.ofArray, Result.results], fun x hx => ?_⟩
        obtain ⟨m, -, rfl⟩ := List.mem_map.mp hx; exact ofContent_typ _
      | cons nxt r =>
        have hn := hm nxt (List.mem_cons_self ..)
        have hnf := hn.1
        unfold Seg.noField at hnf
        cases hkd : nxt.kind with
        | field f => exact absurd hkd (hnf f)
        | attr a =>
          simp only [processAll, hkd, hn.2, runMods_nil]
          refine pack_all fun m x hx => ?_
          split at hx
          · simp only [List.mem_singleton] at hx; subst hx; exact ofAttr_typ _
          · simp at hx
        | text =>
          simp only [processAll, hkd, hn.2, runMods_nil]
          refine pack_all fun m x hx => ?_
          simp only [List.mem_singleton] at hx; subst hx; exact ofText_typ _
        | _ =>
          simp only [processAll, hkd, hn.2, runMods_nil]
          exact pack_all fun m x hx => asList_flat (hk _) x hx
    · cases rest with
      | nil => simp only [processFirst, hs, runMods_nil]; exact goodArr_of (ofContent_typ _)
      | cons nxt r =>
        have hn := hm nxt (List.mem_cons_self ..)
        have hnf := hn.1
        unfold Seg.noField at hnf
        simp only [processFirst, hn.2, runMods_nil]
        repeat' split
        all_goals first | exact hk _ | exact goodArr_of null_typ | exact goodArr_of (ofAttr_typ _) | exact goodArr_of (ofText_typ _) |
          (rename_i h; exact absurd h (hnf _))

theorem recSearch_all {o : Ord} {tgt : Elem → Bool} {emit : Elem → List Result} {P : Result → Prop} (he : ∀ e, ∀ x ∈ emit e, P x) (n : Nat) :
    ∀ (xml : Bytes) (st : SearchSt), (∀ x ∈ st.res, P x) → ∀ x ∈ (recSearch o tgt emit n xml st).res, P x := by
  induction n with
  | zero => intro xml st h; exact h
  | succ n ih =>
    intro xml st h
    simp only [recSearch]
    split
    · exact h
    · have key : ∀ (es : List Elem) (st : SearchSt), (∀ x ∈ st.res, P x) → ∀ x ∈ (recLoop (recSearch o tgt emit n) tgt emit es st).res, P x := by
        intro es
        induction es with
        | nil => intro st h; exact h
        | cons e es ihe =>
          intro st h
          have h1 : ∀ x ∈ (if !e.selfClosing && !e.content.isEmpty then recSearch o tgt emit n e.content st else st).res, P x := by
            split
            · exact ih _ _ h
            · exact h
          simp only [recLoop]
          generalize (if !e.selfClosing && !e.content.isEmpty then recSearch o tgt emit n e.content st else st) = st1 at h1
          split
          · exact h1
          · split
            · split
              · exact h1
              · refine ihe _ fun x hx => ?_
                rcases List.mem_append.mp hx with hx | hx
                · exact h1 x hx
                · exact he e x hx
            · exact ihe _ h1
      exact key _ _ h

theorem handleRecursive_good {env : Env} {rest : List Seg} {k : Bytes → Result} {xml : Bytes} (hk : ∀ c, GoodArr (k c)) (hm : ∀ s ∈ rest, s.noField ∧ s.mods = []) :
    GoodArr (handleRecursive env rest k xml) := by
  cases rest with
  | nil => exact goodArr_of null_typ
  | cons tgt rest2 =>
    simp only [handleRecursive]
    have hall := recSearch_all (o := env.ord) (tgt := fun e => tgt.matches e.name) (emit := recEmit env rest2 k) (P := fun x => x.typ ≠ .array) (by
      intro e x hx
      cases rest2 with
      | nil => simp only [recEmit, List.mem_singleton] at hx; subst hx; exact ofContent_typ _
      | cons nxt r =>
        have hnf := (hm nxt (by simp)).1
        unfold Seg.noField at hnf
        simp only [recEmit] at hx
        split at hx
        · split at hx
          · split at hx
            · simp only [List.mem_singleton] at hx; subst hx; exact ofAttr_typ _
            · simp at hx
          · simp at hx
        · simp only [List.mem_singleton] at hx; subst hx; exact ofText_typ _
        · rename_i h; exact absurd h (hnf _)
        · exact asList_flat (hk _) x hx) (maxNestingDepth + 1) xml ⟨0, []⟩ (by simp)
    generalize recSearch env.ord (fun e => tgt.matches e.name) (recEmit env rest2 k) (maxNestingDepth + 1) xml ⟨0, []⟩ = st at hall
    split
    · exact goodArr_of null_typ
    · rename_i h1; exact pack_good (fun hh => h1 hh) hall

theorem execElem_good {env : Env} {ev : Filter → Elem → Bool} {cur : Seg} {rest : List Seg} {k1 k2 : Bytes → Result} {xml : Bytes} (hk1 : ∀ c, GoodArr (k1 c))
    (hk2 : ∀ c, GoodArr (k2 c)) (hc : cur.mods = []) (hm : ∀ s ∈ rest, s.noField ∧ s.mods = []) : GoodArr (execElem env ev cur rest k1 k2 xml) := by
  cases rest with
  | nil => exact firstMatch_good hk1 hc (fun s hs => (hm s hs).2)
  | cons nxt r =>
    have hn := hm nxt (List.mem_cons_self ..)
    have hr : ∀ s ∈ r, s.noField ∧ s.mods = [] := fun s hs => hm s (List.mem_cons_of_mem _ hs)
    have hnf := hn.1
    unfold Seg.noField at hnf
    simp only [execElem]
    split
    · rename_i h; exact absurd h (hnf _)
    · exact routeFilter_good hk2 hn.2 hr
    · exact arrayOp_good hk2 hn.2 (fun s hs => (hr s hs).2)
    · exact arrayOp_good hk2 hn.2 (fun s hs => (hr s hs).2)
    · exact firstMatch_good hk1 hc (fun s hs => (hm s hs).2)

theorem execBody_good {env : Env} {ev : Filter → Elem → Bool} {root : Bool} {cur : Seg} {rest : List Seg} {k1 k2 : Bytes → Result} {xml : Bytes} (hk1 : ∀ c, GoodArr (k1 c))
    (hk2 : ∀ c, GoodArr (k2 c)) (hc : cur.noField ∧ cur.mods = []) (hm : ∀ s ∈ rest, s.noField ∧ s.mods = []) : GoodArr (execBody env ev root cur rest k1 k2 xml) := by
  have hcf := hc.1
  unfold Seg.noField at hcf
  unfold execBody
  split
  · split
    · split
      · exact goodArr_of null_typ
      · exact fragmentRoots_good hk2 (hm _ (List.mem_cons_self ..)).1
    · exact execElem_good hk1 hk2 hc.2 hm
  · exact routeFilter_good hk1 hc.2 hm
  · rename_i h; exact absurd h (hcf _)
  · exact goodArr_of null_typ
  · exact goodArr_of null_typ
  · exact goodArr_of null_typ
  · exact goodArr_of null_typ
  · exact handleRecursive_good hk2 hm
  · simp only
    split
    · exact goodArr_of null_typ
    · rename_i hne
      rw [hc.2, runMods_nil, ite_self]
      exact handleWildcard_good (by simpa using hne) hk1 (fun s hs => (hm s hs).2)

theorem execQ_good {env : Env} {ev : Filter → Elem → Bool} : ∀ (ss : List Seg), (∀ s ∈ ss, s.noField ∧ s.mods = []) → ∀ root xml, GoodArr (execQ env ev ss root xml)
  | [], _, _, _ => goodArr_of null_typ
  | [cur], h, root, xml => execBody_good (fun _ => goodArr_of null_typ) (fun _ => goodArr_of null_typ) (h cur (List.mem_cons_self ..)) (by simp)
  | cur :: nxt :: rest, h, root, xml =>
    execBody_good (fun c => execQ_good (nxt :: rest) (fun s hs => h s (List.mem_cons_of_mem _ hs)) _ c)
      (fun c => execQ_good rest (fun s hs => h s (List.mem_cons_of_mem _ (List.mem_cons_of_mem _ hs))) _ c) (h cur (List.mem_cons_self ..))
      (fun s hs => h s (List.mem_cons_of_mem _ hs))

theorem execBodyOpt_true {env : Env} {ev : Filter → Elem → Bool} {root : Bool} {cur : Seg} {rest : List Seg} {k1 k2 : Bytes → Result} {xml : Bytes} (hc : cur.mods = [])
    (hr : ∀ s ∈ rest, s.mods = []) (hf : cur.noWild ∨ (∀ s ∈ rest, s.noField) ∧ ∀ c, NotEmptyArr (k1 c)) :
    execBodyOpt env ev true root cur rest k1 k2 xml = execBody env ev root cur rest k1 k2 xml := by
  unfold execBodyOpt execBody
  simp only [Bool.and_true]
  unfold Seg.noWild at hf
  cases h : cur.kind with
  | elem v =>
    simp only
    split
    · cases rest with
      | nil => rfl
      | cons nxt r => exact fragmentRootsOpt_true ..
    · exact execElemOpt_true env ev cur rest k1 k2 xml hc hr
  | filter f a => exact routeFilterOpt_true ..
  | wild b =>
    rcases hf with hf | hf
    · exact absurd h (hf _)
    · cases b with
      | true =>
        cases rest with
        | nil => rfl
        | cons tgt r =>
          simp only [handleRecursiveOpt, handleRecursive, segMatchesOpt_true]
          rw [recEmitOpt_true env r k2 (fun s hs => hf.1 s (List.mem_cons_of_mem _ hs))]; rfl
      | false => simp only [hc, runMods_nil, ite_self, handleWildcardOpt_true env _ rest k1 hf.2]
  | _ => rfl

theorem execQOpt_true {env : Env} {ev : Filter → Elem → Bool} : ∀ (ss : List Seg), (∀ s ∈ ss, s.mods = []) → ((∀ s ∈ ss, s.noWild) ∨ ∀ s ∈ ss, s.noField) →
    ∀ root xml, execQOpt env ev true ss root xml = execQ env ev ss root xml
  | [], _, _, _, _ => rfl
  | [cur], h, hw, root, xml => execBodyOpt_true (h cur (List.mem_cons_self ..)) (by simp) (hw.imp (fun hw => hw cur (List.mem_cons_self ..)) fun _ =>
      ⟨by simp, fun _ => (goodArr_of null_typ).ne⟩)
  | cur :: nxt :: rest, h, hw, root, xml => by
    have hw1 := hw.imp (fun hw => fun s hs => hw s (List.mem_cons_of_mem cur hs)) (fun hw => fun s hs => hw s (List.mem_cons_of_mem cur hs))
    have hw2 := hw1.imp (fun hw => fun s hs => hw s (List.mem_cons_of_mem nxt hs)) (fun hw => fun s hs => hw s (List.mem_cons_of_mem nxt hs))
    have h1 : ∀ s ∈ nxt :: rest, s.mods = [] := fun s hs => h s (List.mem_cons_of_mem _ hs)
    have h2 : ∀ s ∈ rest, s.mods = [] := fun s hs => h1 s (List.mem_cons_of_mem _ hs)
    rw [execQOpt, execQ, show execQOpt env ev true (nxt :: rest) false = execQ env ev (nxt :: rest) false from funext (execQOpt_true _ h1 hw1 false),
      show execQOpt env ev true rest false = execQ env ev rest false from funext (execQOpt_true _ h2 hw2 false)]
    refine execBodyOpt_true (h cur (List.mem_cons_self ..)) h1 ?_
    rcases hw with hw | hw
    · exact .inl (hw cur (List.mem_cons_self ..))
    · exact .inr ⟨fun s hs => hw s (List.mem_cons_of_mem _ hs), fun c => (execQ_good _ (fun s hs => ⟨hw s (List.mem_cons_of_mem _ hs), h1 s hs⟩) _ c).ne⟩


/-! ## From the text of a path to its segments -/

theorem parsePart_nobar {p : Bytes} (h : c!"|" ∉ p) {s : Seg} (hs : parsePart p = .seg s) :
    s.mods = [] ∧ (∀ b, s.kind = .wild b → p = b!"*" ∨ p = b!"**") ∧ (s.kind = .count → p = b!"#") ∧ ∀ f, s.kind ≠ .field f := by
  unfold parsePart at hs
  rw [parseModifiers_plain p h] at hs
  simp only at hs
  split at hs
  · simp at hs
  · split at hs
    · unfold parseFilterPart at hs
      simp only at hs
      repeat' split at hs
      all_goals first | simp at hs | skip
      all_goals subst hs; simp
    · repeat' split at hs
      all_goals simp only [PartRes.seg.injEq] at hs; subst hs; simp_all

theorem parseParts_forall {P : Seg → Prop} {ps : List Bytes} (h : ∀ p ∈ ps, ∀ s, parsePart p = .seg s → P s) {ss : List Seg} (hs : parseParts ps = .ok ss) :
    ∀ s ∈ ss, P s := by
  induction ps generalizing ss with
  | nil => simp only [parseParts, Parse.ok.injEq] at hs; subst hs; simp
  | cons p ps ih =>
    have ih := @ih (fun q hq => h q (List.mem_cons_of_mem _ hq))
    rw [parseParts] at hs
    cases hp : parsePart p with
    | panic => rw [hp] at hs; simp at hs
    | reject => rw [hp] at hs; simp at hs
    | skip => rw [hp] at hs; exact ih hs
    | seg s =>
      rw [hp] at hs
      simp only at hs
      cases hq : parseParts ps with
      | panic => rw [hq] at hs; simp at hs
      | err => rw [hq] at hs; simp at hs
      | ok ss2 =>
        rw [hq] at hs
        simp only [Parse.ok.injEq] at hs
        subst hs
        intro t ht
        rcases List.mem_cons.mp ht with rfl | ht
        · exact h p (List.mem_cons_self ..) _ hp
        · exact ih hq t ht

theorem fuseFields_forall {P : Seg → Prop} {ss : List Seg} (h : ∀ s ∈ ss, P s) (hf : ∀ s ∈ ss, s.kind = .count → ∀ t ∈ ss, ∀ f, P ⟨.field f, t.mods⟩) :
    ∀ s ∈ fuseFields ss, P s := by
  fun_induction fuseFields ss with
  | case1 => simp
  | case2 s => exact h
  | case3 s t r hc f hq hv ih =>
    intro x hx
    rcases List.mem_cons.mp hx with rfl | hx
    · exact hf s (by simp) hc t (by simp) f
    · exact ih (fun s hs => h s (by simp [hs])) (fun s hs h1 t ht => hf s (by simp [hs]) h1 t (by simp [ht])) x hx
  | case4 s t r hc f hq hv ih =>
    intro x hx
    rcases List.mem_cons.mp hx with rfl | hx
    · exact h _ (by simp)
    · exact ih (fun s hs => h s (List.mem_cons_of_mem _ hs)) (fun s hs h1 t ht => hf s (List.mem_cons_of_mem _ hs) h1 t (List.mem_cons_of_mem _ ht)) x hx
  | case5 s t r hc hq ih =>
    intro x hx
    rcases List.mem_cons.mp hx with rfl | hx
    · exact h _ (by simp)
    · exact ih (fun s hs => h s (List.mem_cons_of_mem _ hs)) (fun s hs h1 t ht => hf s (List.mem_cons_of_mem _ hs) h1 t (List.mem_cons_of_mem _ ht)) x hx
  | case6 s t r hc ih =>
    intro x hx
    rcases List.mem_cons.mp hx with rfl | hx
    · exact h _ (by simp)
    · exact ih (fun s hs => h s (List.mem_cons_of_mem _ hs)) (fun s hs h1 t ht => hf s (List.mem_cons_of_mem _ hs) h1 t (List.mem_cons_of_mem _ ht)) x hx

theorem parsePath_forms {parts : List Bytes} (hb : ∀ p ∈ parts, c!"|" ∉ p) {ss : List Seg} (h : parsePath (pathOf parts) = .ok ss) :
    (∀ s ∈ ss, s.mods = []) ∧ ((∀ p ∈ parts, p ≠ b!"*" ∧ p ≠ b!"**") → ∀ s ∈ ss, s.noWild) ∧ ((∀ p ∈ parts, p ≠ b!"#") → ∀ s ∈ ss, s.noField) := by
  unfold parsePath at h
  split at h
  · simp at h
  · rename_i hne
    have hp : parts ≠ [[]] := by rintro rfl; exact hne rfl
    unfold parsePathInternal at h
    rw [splitPath_pathOf parts hp] at h
    split at h
    · simp at h
    · cases hs : parseParts parts with
      | panic => rw [hs] at h; simp at h
      | err => rw [hs] at h; simp at h
      | ok ss0 =>
        rw [hs] at h
        simp only [Parse.ok.injEq] at h
        subst h
        have h0 := parseParts_forall (P := fun s => s.mods = []) (fun p hp s hs => (parsePart_nobar (hb p hp) hs).1) hs
        refine ⟨fuseFields_forall h0 fun s _ _ t ht f => h0 t ht, fun hw => fuseFields_forall (P := Seg.noWild)
          (parseParts_forall (fun p hp s hs b hk => ?_) hs) (by simp [Seg.noWild]), fun hw => fuseFields_forall (P := Seg.noField)
          (parseParts_forall (fun p hp s hs => (parsePart_nobar (hb p hp) hs).2.2.2) hs) fun s hs1 hc => ?_⟩
        · rcases (parsePart_nobar (hb p hp) hs).2.1 b hk with h1 | h1
          · exact (hw p hp).1 h1
          · exact (hw p hp).2 h1
        · exact absurd hc (parseParts_forall (P := fun s => s.kind ≠ .count) (fun p hp s hs hc => hw p hp ((parsePart_nobar (hb p hp) hs).2.2.1 hc)) hs s hs1)


/-! ## Case-insensitive: the case of the path does not matter -/

theorem lowerByte_eq {x : UInt8} (hx : ¬ (65 ≤ x ∧ x ≤ 90) ∧ ¬ (97 ≤ x ∧ x ≤ 122)) (c : UInt8) : lowerByte c = x ↔ c = x := by
  simp only [lowerByte, Bool.and_eq_true, decide_eq_true_eq]
  simp only [UInt8.le_iff_toNat_le] at *
  split
  · rename_i h
    constructor
    · intro e
      have := congrArg UInt8.toNat e
      simp only [UInt8.toNat_add] at this
      simp at *
      omega
    · rintro rfl; simp at *; omega
  · exact Iff.rfl

theorem lower_length (s : Bytes) : (toLowerASCII s).length = s.length := by simp [toLowerASCII]

theorem lowerByte_idem (c : UInt8) : lowerByte (lowerByte c) = lowerByte c := by
  simp only [lowerByte, Bool.and_eq_true, decide_eq_true_eq]
  simp only [UInt8.le_iff_toNat_le] at *
  split
  · rename_i h
    rw [if_neg]
    simp only [UInt8.toNat_add]
    simp at *
    omega
  · rfl

theorem lower_idem (s : Bytes) : toLowerASCII (toLowerASCII s) = toLowerASCII s := by
  simp only [toLowerASCII, List.map_map]
  exact List.map_congr_left fun c _ => lowerByte_idem c

theorem splitPathAux_lower (e : Bool) (s : Bytes) :
    splitPathAux e (toLowerASCII s) = (toLowerASCII (splitPathAux e s).1, (splitPathAux e s).2.map toLowerASCII) := by
  induction s generalizing e with
  | nil => rfl
  | cons c cs ih =>
    have ih' : ∀ e, splitPathAux e (cs.map lowerByte) = (toLowerASCII (splitPathAux e cs).1, (splitPathAux e cs).2.map toLowerASCII) := fun e => ih e
    simp only [toLowerASCII, List.map_cons, splitPathAux, lowerByte_eq (x := c!"\\") (by decide), lowerByte_eq (x := c!".") (by decide), ih']
    split
    · rfl
    · split
      · rfl
      · split <;> rfl

theorem splitPath_lower (s : Bytes) : splitPath (toLowerASCII s) = (splitPath s).map toLowerASCII := by
  unfold splitPath
  rw [splitPathAux_lower]
  cases s <;> rfl

/-- Lower-case every name in a segment. -/
def Seg.low (s : Seg) : Seg :=
  match s.kind with
  | .elem v => { s with kind := .elem (toLowerASCII v) }
  | .attr v => { s with kind := .attr (toLowerASCII v) }
  | .field f => { s with kind := .field (toLowerASCII f) }
  | _ => s

/-- Lower-case the field of a field extraction. -/
def Seg.lowField (s : Seg) : Seg :=
  match s.kind with
  | .field f => { s with kind := .field (toLowerASCII f) }
  | _ => s

theorem low_lowerSeg (s : Seg) : lowerSeg s.low = (lowerSeg s).lowField := by
  obtain ⟨k, m⟩ := s
  cases k <;> simp [Seg.low, lowerSeg, Seg.lowField, lower_idem]

theorem isDigit_lower (c : UInt8) : isDigit (lowerByte c) = isDigit c := by
  rw [Bool.eq_iff_iff]
  simp only [isDigit, lowerByte, Bool.and_eq_true, decide_eq_true_eq]
  simp only [UInt8.le_iff_toNat_le] at *
  split
  · simp only [UInt8.toNat_add]
    simp at *
    omega
  · rfl

theorem isAlpha_lower (c : UInt8) : isAlpha (lowerByte c) = isAlpha c := by
  rw [Bool.eq_iff_iff]
  simp only [isAlpha, lowerByte, Bool.and_eq_true, Bool.or_eq_true, decide_eq_true_eq]
  simp only [UInt8.le_iff_toNat_le] at *
  split
  · simp only [UInt8.toNat_add]
    simp at *
    omega
  · rfl

theorem isNumeric_lower (s : Bytes) : isNumeric (toLowerASCII s) = isNumeric s := by
  simp only [isNumeric, toLowerASCII, List.all_map, List.length_map]
  congr 1
  · cases s <;> rfl
  · congr 1; funext c
    simp only [Function.comp, isDigit_lower, lowerByte_eq (x := c!"-") (by decide)]

theorem numeric_fixed {s : Bytes} (h : isNumeric s = true) : toLowerASCII s = s := by
  simp only [isNumeric, Bool.and_eq_true, List.all_eq_true] at h
  have : ∀ c ∈ s, lowerByte c = c := by
    intro c hc
    have := h.2 c hc
    simp only [isDigit, Bool.or_eq_true, Bool.and_eq_true, decide_eq_true_eq] at this
    rw [lowerByte, if_neg]
    simp only [Bool.and_eq_true, decide_eq_true_eq]
    rcases this with h | ⟨rfl, -⟩
    · simp only [UInt8.le_iff_toNat_le] at *; simp at *; omega
    · decide
  unfold toLowerASCII
  conv => rhs; rw [← List.map_id s]
  exact List.map_congr_left this

theorem lower_eq_nil (s : Bytes) : toLowerASCII s = [] ↔ s = [] := by cases s <;> simp [toLowerASCII]

theorem lower_eq_one {x : UInt8} (hx : ¬ (65 ≤ x ∧ x ≤ 90) ∧ ¬ (97 ≤ x ∧ x ≤ 122)) (s : Bytes) : toLowerASCII s = [x] ↔ s = [x] := by
  match s with
  | [] => simp [toLowerASCII]
  | [c] => simp [toLowerASCII, lowerByte_eq hx]
  | a :: b :: c => simp [toLowerASCII]

theorem isValidIdentifier_lower (s : Bytes) : isValidIdentifier (toLowerASCII s) = isValidIdentifier s := by
  cases s with
  | nil => rfl
  | cons c cs =>
    simp only [toLowerASCII, List.map_cons, isValidIdentifier, isAlpha_lower, lowerByte_eq (x := c!"_") (by decide), List.all_map]
    congr 2; funext d
    simp only [Function.comp, isAlpha_lower, isDigit_lower, lowerByte_eq (x := c!"_") (by decide), lowerByte_eq (x := c!"-") (by decide),
      lowerByte_eq (x := c!":") (by decide)]

theorem isValidFieldName_lower (s : Bytes) : isValidFieldName (toLowerASCII s) = isValidFieldName s := by
  cases s with
  | nil => rfl
  | cons c cs =>
    have h1 := lower_eq_one (x := c!"%") (by decide) (c :: cs)
    have h2 := isValidIdentifier_lower cs
    have h3 := isValidIdentifier_lower (c :: cs)
    have h4 : (cs.map lowerByte).isEmpty = cs.isEmpty := by cases cs <;> rfl
    simp only [toLowerASCII, List.map_cons] at h1 h2 h3
    simp only [toLowerASCII, List.map_cons, isValidFieldName, h1, lowerByte_eq (x := c!"@") (by decide), h2, h3, h4]

theorem fieldOf_low (s : Seg) : fieldOf s.low.kind = (fieldOf s.kind).map toLowerASCII := by
  obtain ⟨k, m⟩ := s
  cases k <;> rfl

theorem low_mods (s : Seg) : s.low.mods = s.mods := by
  obtain ⟨k, m⟩ := s
  cases k <;> rfl

theorem low_count (s : Seg) : s.low.kind = .count ↔ s.kind = .count := by
  obtain ⟨k, m⟩ := s
  cases k <;> simp [Seg.low]

theorem fuseFields_low (ss : List Seg) : fuseFields (ss.map Seg.low) = (fuseFields ss).map Seg.low := by
  fun_induction fuseFields ss with
  | case1 => rfl
  | case2 => rfl
  | case3 s t r hc f hq hv ih =>
    simp only [List.map_cons]
    rw [fuseFields, if_pos ((low_count s).mpr hc), fieldOf_low, hq]
    simp only [Option.map_some, isValidFieldName_lower, lower_length]
    rw [if_pos hv, ih, low_mods]; rfl
  | case4 s t r hc f hq hv ih =>
    simp only [List.map_cons] at ih ⊢
    rw [fuseFields, if_pos ((low_count s).mpr hc), fieldOf_low, hq]
    simp only [Option.map_some, isValidFieldName_lower, lower_length]
    rw [if_neg hv, ih]
  | case5 s t r hc hq ih =>
    simp only [List.map_cons] at ih ⊢
    rw [fuseFields, if_pos ((low_count s).mpr hc), fieldOf_low, hq]
    simp only [Option.map_none, ih]
  | case6 s t r hc ih =>
    simp only [List.map_cons] at ih ⊢
    rw [fuseFields, if_neg (fun h => hc ((low_count s).mp h)), ih]

theorem parsePart_low {p : Bytes} (h1 : c!"|" ∉ p) (h2 : c!"(" ∉ p) :
    parsePart (toLowerASCII p) = match parsePart p with
      | .seg s => .seg s.low
      | r => r := by
  have h1' : c!"|" ∉ toLowerASCII p := by
    intro hh
    obtain ⟨c, hc, e⟩ := List.mem_map.mp hh
    rw [lowerByte_eq (by decide)] at e; subst e; exact h1 hc
  have h2' : c!"(" ∉ toLowerASCII p := by
    intro hh
    obtain ⟨c, hc, e⟩ := List.mem_map.mp hh
    rw [lowerByte_eq (by decide)] at e; subst e; exact h2 hc
  have noF : ∀ q : Bytes, c!"(" ∉ q → hasPrefix q b!"#(" = false := by
    intro q hq
    rw [Bool.eq_false_iff]
    intro hh
    obtain ⟨t, rfl⟩ := List.isPrefixOf_iff_prefix.mp hh
    exact hq (by simp)
  unfold parsePart
  rw [parseModifiers_plain _ h1, parseModifiers_plain _ h1']
  simp only [noF _ h2, noF _ h2', Bool.false_eq_true, if_false]
  cases p with
  | nil => rfl
  | cons c cs =>
    have e1 : hasPrefix (toLowerASCII (c :: cs)) b!"@" = hasPrefix (c :: cs) b!"@" := by
      rw [Bool.eq_iff_iff]
      simp only [hasPrefix, toLowerASCII, List.map_cons, List.isPrefixOf, Bool.and_true, beq_iff_eq]
      rw [eq_comm, lowerByte_eq (by decide), eq_comm]
    have e2 := lower_eq_one (x := c!"%") (by decide) (c :: cs)
    have e3 := lower_eq_one (x := c!"#") (by decide) (c :: cs)
    have e4 := lower_eq_one (x := c!"*") (by decide) (c :: cs)
    have e5 : toLowerASCII (c :: cs) = b!"**" ↔ c :: cs = b!"**" := by
      match cs with
      | [] => simp [toLowerASCII]
      | [d] => simp [toLowerASCII, lowerByte_eq (x := c!"*") (by decide)]
      | a :: b :: c => simp [toLowerASCII]
    simp only [e1, e2, e3, e4, e5, isNumeric_lower]
    have e6 : (toLowerASCII (c :: cs)).isEmpty = false := rfl
    simp only [e6, List.isEmpty_cons, Bool.false_eq_true, if_false]
    by_cases g1 : hasPrefix (c :: cs) b!"@" = true
    · simp only [g1, if_true]; rfl
    · by_cases g2 : c :: cs = b!"%"
      · simp only [g1, g2, if_true]; rfl
      · by_cases g3 : c :: cs = b!"#"
        · simp only [g1, g2, g3, if_true]; rfl
        · by_cases g4 : c :: cs = b!"*"
          · simp only [g1, g2, g3, g4, if_true]; rfl
          · by_cases g5 : c :: cs = b!"**"
            · simp only [g1, g2, g3, g4, g5, if_true]; rfl
            · by_cases g6 : isNumeric (c :: cs) = true
              · simp only [g1, g2, g3, g4, g5, g6, if_true, if_false, numeric_fixed g6]; rfl
              · simp only [g1, g2, g3, g4, g5, g6, if_false]; rfl

theorem parseParts_low {ps : List Bytes} (h : ∀ p ∈ ps, c!"|" ∉ p ∧ c!"(" ∉ p) :
    parseParts (ps.map toLowerASCII) = match parseParts ps with
      | .ok ss => .ok (ss.map Seg.low)
      | r => r := by
  induction ps with
  | nil => rfl
  | cons p ps ih =>
    have ih := ih (fun q hq => h q (List.mem_cons_of_mem _ hq))
    have hp := h p (List.mem_cons_self ..)
    rw [List.map_cons, parseParts, parseParts, parsePart_low hp.1 hp.2, ih]
    cases parsePart p with
    | panic => rfl
    | reject => rfl
    | skip => rfl
    | seg s => cases parseParts ps <;> rfl

theorem splitPathAux_mem (e : Bool) (s : Bytes) : ∀ p ∈ (splitPathAux e s).1 :: (splitPathAux e s).2, ∀ c ∈ p, c ∈ s := by
  induction s generalizing e with
  | nil => simp [splitPathAux]
  | cons x xs ih =>
    intro p hp c hc
    simp only [splitPathAux] at hp
    have i0 := ih false
    have i1 := ih true
    simp only [List.mem_cons, forall_eq_or_imp] at i0 i1
    repeat' split at hp
    all_goals simp only [List.mem_cons] at hp
    · rcases hp with rfl | hp
      · rcases List.mem_cons.mp hc with rfl | hc
        · simp
        · exact List.mem_cons_of_mem _ (i0.1 c hc)
      · exact List.mem_cons_of_mem _ (i0.2 p hp c hc)
    · rcases hp with rfl | hp
      · exact List.mem_cons_of_mem _ (i1.1 c hc)
      · exact List.mem_cons_of_mem _ (i1.2 p hp c hc)
    · rcases hp with rfl | rfl | hp
      · simp at hc
      · exact List.mem_cons_of_mem _ (i0.1 c hc)
      · exact List.mem_cons_of_mem _ (i0.2 p hp c hc)
    · rcases hp with rfl | hp
      · rcases List.mem_cons.mp hc with rfl | hc
        · simp
        · exact List.mem_cons_of_mem _ (i0.1 c hc)
      · exact List.mem_cons_of_mem _ (i0.2 p hp c hc)

theorem splitPath_mem {s p : Bytes} (hp : p ∈ splitPath s) {c : UInt8} (hc : c ∈ p) : c ∈ s := by
  unfold splitPath at hp
  split at hp
  · simp at hp
  · exact splitPathAux_mem false s p hp c hc

theorem parsePath_low {path : Bytes} (h1 : c!"|" ∉ path) (h2 : c!"(" ∉ path) :
    parsePath (toLowerASCII path) = match parsePath path with
      | .ok ss => .ok (ss.map Seg.low)
      | r => r := by
  have hp : ∀ p ∈ splitPath path, c!"|" ∉ p ∧ c!"(" ∉ p := fun p hp => ⟨fun hc => h1 (splitPath_mem hp hc), fun hc => h2 (splitPath_mem hp hc)⟩
  have he : (toLowerASCII path).isEmpty = path.isEmpty := by cases path <;> rfl
  unfold parsePath parsePathInternal
  rw [splitPath_lower, List.length_map, parseParts_low hp, he]
  split
  · rfl
  · split
    · rfl
    · cases parseParts (splitPath path) with
      | ok ss => simp only [fuseFields_low]
      | _ => rfl

theorem parsePathWithOptions_low {path : Bytes} (h1 : c!"|" ∉ path) (h2 : c!"(" ∉ path) :
    parsePathWithOptions (toLowerASCII path) false = match parsePathWithOptions path false with
      | .ok ss => .ok (ss.map Seg.lowField)
      | r => r := by
  unfold parsePathWithOptions
  rw [parsePath_low h1 h2]
  cases parsePath path with
  | ok ss => simp only [Bool.false_eq_true, if_false, List.map_map, Parse.ok.injEq]; exact List.map_congr_left fun s _ => low_lowerSeg s
  | _ => rfl

theorem fieldValuesOpt_low (o : Ord) (f : Bytes) (m : Elem) : fieldValuesOpt o false (toLowerASCII f) m = fieldValuesOpt o false f m := by
  have e1 : hasPrefix (toLowerASCII f) b!"@" = hasPrefix f b!"@" := by
    cases f with
    | nil => rfl
    | cons c cs =>
      rw [Bool.eq_iff_iff]
      simp only [hasPrefix, toLowerASCII, List.map_cons, List.isPrefixOf, Bool.and_true, beq_iff_eq]
      rw [eq_comm, lowerByte_eq (by decide), eq_comm]
  have e2 : toLowerASCII ((toLowerASCII f).drop 1) = toLowerASCII (f.drop 1) := by
    simp only [toLowerASCII, ← List.map_drop]
    exact lower_idem _
  simp only [fieldValuesOpt, e1, lower_eq_one (x := c!"%") (by decide), lower_idem, Bool.false_eq_true, if_false, e2]

theorem fieldExtractionOpt_low (env : Env) (ms : List Elem) (f : Bytes) (mods : List Bytes) :
    fieldExtractionOpt env false ms (toLowerASCII f) mods = fieldExtractionOpt env false ms f mods := by
  have : (toLowerASCII f).isEmpty = f.isEmpty := by cases f <;> rfl
  simp only [fieldExtractionOpt, this, show fieldValuesOpt env.ord false (toLowerASCII f) = fieldValuesOpt env.ord false f from funext (fieldValuesOpt_low _ _)]


theorem map_isEmpty {α β : Type} (f : α → β) (l : List α) : (l.map f).isEmpty = l.isEmpty := by cases l <;> rfl

theorem handleWildcardOpt_low (env : Env) (ms : List Elem) (rest : List Seg) (k : Bytes → Result) :
    handleWildcardOpt env false ms (rest.map Seg.lowField) k = handleWildcardOpt env false ms rest k := by
  cases rest with
  | nil => rfl
  | cons nxt r =>
    obtain ⟨kd, m⟩ := nxt
    cases kd <;> simp only [List.map_cons, Seg.lowField, handleWildcardOpt, map_isEmpty]

theorem recEmitOpt_low (env : Env) (rest : List Seg) (k : Bytes → Result) : recEmitOpt env false (rest.map Seg.lowField) k = recEmitOpt env false rest k := by
  funext e
  cases rest with
  | nil => rfl
  | cons nxt r =>
    obtain ⟨kd, m⟩ := nxt
    cases kd <;> simp only [List.map_cons, Seg.lowField, recEmitOpt, map_isEmpty]

theorem handleRecursiveOpt_low (env : Env) (rest : List Seg) (k : Bytes → Result) (xml : Bytes) :
    handleRecursiveOpt env false (rest.map Seg.lowField) k xml = handleRecursiveOpt env false rest k xml := by
  cases rest with
  | nil => rfl
  | cons nxt r =>
    obtain ⟨kd, m⟩ := nxt
    cases kd <;> simp only [List.map_cons, Seg.lowField, handleRecursiveOpt, recEmitOpt_low, Seg.matchesOpt]

theorem routeFilterOpt_low (env : Env) (ms : List Elem) (seg : Seg) (all : Bool) (rest : List Seg) (k : Bytes → Result) :
    routeFilterOpt env false ms seg all (rest.map Seg.lowField) k = routeFilterOpt env false ms seg all rest k := by
  cases ms with
  | nil => rfl
  | cons m0 ms =>
    cases rest with
    | nil => rfl
    | cons nxt r =>
      obtain ⟨kd, m⟩ := nxt
      cases kd <;> simp only [List.map_cons, Seg.lowField, routeFilterOpt, processAllOpt, processFirstOpt, fieldExtractionOpt_low]

theorem arrayOpOpt_low (env : Env) (ms : List Elem) (nxt : Seg) (rest : List Seg) (k : Bytes → Result) :
    arrayOpOpt env false ms nxt (rest.map Seg.lowField) k = arrayOpOpt env false ms nxt rest k := by
  cases rest with
  | nil => rfl
  | cons s r =>
    obtain ⟨kd, m⟩ := s
    cases kd <;> simp only [List.map_cons, Seg.lowField, arrayOpOpt]

theorem firstMatchOpt_low (env : Env) (rest : List Seg) (k : Bytes → Result) (ms : List Elem) :
    firstMatchOpt env false (rest.map Seg.lowField) k ms = firstMatchOpt env false rest k ms := by
  induction ms with
  | nil => rfl
  | cons m0 ms ih =>
    cases rest with
    | nil => rfl
    | cons s r =>
      obtain ⟨kd, m⟩ := s
      cases kd <;> simp only [List.map_cons, Seg.lowField] at ih <;> simp only [List.map_cons, Seg.lowField, firstMatchOpt, map_isEmpty, ih]

theorem execElemOpt_low (env : Env) (ev : Filter → Elem → Bool) (cur : Seg) (rest : List Seg) (k1 k2 : Bytes → Result) (xml : Bytes) :
    execElemOpt env ev false cur (rest.map Seg.lowField) k1 k2 xml = execElemOpt env ev false cur rest k1 k2 xml := by
  have hf := firstMatchOpt_low env rest k1 ((topElems env.ord xml).filter (fun e => cur.matchesOpt e.name false))
  cases rest with
  | nil => rfl
  | cons s r =>
    obtain ⟨kd, m⟩ := s
    cases kd with
    | field f => simp only [List.map_cons, Seg.lowField, execElemOpt, fieldExtractionOpt_low]
    | filter f a => simp only [List.map_cons, Seg.lowField, execElemOpt, routeFilterOpt_low]
    | index i => simp only [List.map_cons, Seg.lowField, execElemOpt, arrayOpOpt_low]
    | count => simp only [List.map_cons, Seg.lowField, execElemOpt, arrayOpOpt_low]
    | _ => exact hf

theorem execBodyOpt_low (env : Env) (ev : Filter → Elem → Bool) (root : Bool) (cur : Seg) (rest : List Seg) (k1 k2 : Bytes → Result) (xml : Bytes) :
    execBodyOpt env ev false root cur.lowField (rest.map Seg.lowField) k1 k2 xml = execBodyOpt env ev false root cur rest k1 k2 xml := by
  obtain ⟨kd, m⟩ := cur
  cases kd with
  | elem v => simp only [Seg.lowField, execBodyOpt, Bool.and_false, Bool.false_eq_true, if_false, execElemOpt_low]
  | filter f a => simp only [Seg.lowField, execBodyOpt, routeFilterOpt_low]
  | wild b => cases b <;> simp only [Seg.lowField, execBodyOpt, handleRecursiveOpt_low, handleWildcardOpt_low]
  | _ => rfl

theorem execQOpt_low (env : Env) (ev : Filter → Elem → Bool) : ∀ (ss : List Seg) (root : Bool) (xml : Bytes),
    execQOpt env ev false (ss.map Seg.lowField) root xml = execQOpt env ev false ss root xml
  | [], _, _ => rfl
  | [cur], root, xml => execBodyOpt_low env ev root cur [] _ _ xml
  | cur :: nxt :: rest, root, xml => by
    have h1 : execQOpt env ev false (nxt.lowField :: rest.map Seg.lowField) false = execQOpt env ev false (nxt :: rest) false :=
      funext (execQOpt_low env ev (nxt :: rest) false)
    have h2 : execQOpt env ev false (rest.map Seg.lowField) false = execQOpt env ev false rest false := funext (execQOpt_low env ev rest false)
    rw [List.map_cons, List.map_cons, execQOpt, execQOpt, h1, h2]
    exact execBodyOpt_low env ev root cur (nxt :: rest) _ _ xml

theorem getWithOptions_low (env : Env) (xml path : Bytes) (h1 : c!"|" ∉ path) (h2 : c!"(" ∉ path) (opts : Options) (hc : opts.caseSensitive = false) :
    getWithOptions env xml (toLowerASCII path) (some opts) = getWithOptions env xml path (some opts) := by
  unfold getWithOptions
  have hd : isDefaultOptions (some opts) = false := by simp [isDefaultOptions, hc]
  simp only [hd, Option.getD_some, hc, Bool.false_eq_true, if_false, parsePathWithOptions_low h1 h2]
  split
  · rfl
  · cases parsePathWithOptions path false with
    | ok ss => cases ss with
      | nil => rfl
      | cons s ss => simp only [List.map_cons]; rw [← List.map_cons, execQOpt_low]
    | _ => rfl

end Verif
