import Verif.Model.Spare
import Verif.Lemmas.Bounds
/- Slices with spare capacity (Model/Spare) against slices without. -/
namespace Verif

/-- What is known of every location found. -/
structure Loc.Ordered (l : Loc) : Prop where
  start : l.startPos ≤ l.contentStart
  empty : l.selfClosing = true → l.contentEnd = l.contentStart
  close : l.selfClosing = false → l.startPos ≤ l.endTagPos + l.name.length + 3

theorem locOf_ordered {o : Ord} {data : Bytes} {e : Elem} (h : e ∈ topElems o data) (base : Int) : (locOf data base e).Ordered := by
  have := topElems_lens o data e h
  constructor <;> simp only [locOf]
  · omega
  · intro hs; simp [hs]
  · intro hs; simp [hs]; omega

theorem findLoc_ordered {o : Ord} {cs : Bool} : ∀ (n : Nat) {path : List Seg} {data : Bytes} {base : Int} {l : Loc}, path.length ≤ n → findLoc o cs path data base = some l → l.Ordered := by
  intro n
  induction n with
  | zero => intro path data base l hn h; obtain rfl := List.eq_nil_of_length_eq_zero (Nat.le_zero.mp hn); simp [findLoc] at h
  | succ n ih =>
    intro path data base l hn h
    have mem : ∀ {cur : Seg} {e : Elem}, e ∈ (topElems o data).filter (fun e => cur.matchesOpt e.name cs) → e ∈ topElems o data := fun h => (List.mem_filter.mp h).1
    match path with
    | [] => simp [findLoc] at h
    | [cur] =>
      rw [findLoc.eq_def] at h
      simp only at h
      split at h
      · cases h
      · obtain ⟨e, he, rfl⟩ := Option.map_eq_some_iff.mp h
        exact locOf_ordered (mem (List.mem_of_mem_head? he)) base
    | cur :: nxt :: rest2 =>
      rw [findLoc.eq_def] at h
      simp only at h
      simp only [List.length_cons] at hn
      split at h
      · cases h
      split at h
      · split at h
        · cases h
        split at h
        · cases h
        rename_i e he
        split at h
        · injection h with h; subst h
          exact locOf_ordered (mem (List.mem_of_getElem? he)) base
        split at h
        · exact ih (by omega) h
        · cases h
      · split at h
        · cases h
        split at h
        · exact ih (by simp; omega) h
        · cases h

theorem found_ordered {o : Ord} {cs : Bool} {path : List Seg} {data : Bytes} {base : Int} {l : Loc} (h : findLoc o cs path data base = some l) : l.Ordered := findLoc_ordered _ (Nat.le_refl _) h

theorem splice_spare {d m : Bytes} {i j : Int} (sp : Bytes) (h : i ≤ j) : spliceS sp d i j m = splice d i j m := by
  unfold spliceS splice sliceToS sliceTo sliceFrom
  by_cases hj : 0 ≤ j ∧ j ≤ d.length
  · rw [if_pos hj]
    by_cases hi : 0 ≤ i
    · rw [if_pos ⟨hi, by omega⟩, if_pos ⟨hi, by omega⟩]
      simp only
      rw [List.take_append_of_le_length (by omega)]
    · rw [if_neg (by omega), if_neg (by omega)]
  · rw [if_neg hj]
    split <;> split <;> simp_all

theorem splice_spare_ok {d m r : Bytes} {i j : Int} (sp : Bytes) (h : splice d i j m = .ok r) : spliceS sp d i j m = .ok r := by
  rw [← h]
  unfold splice at h
  split at h
  · rename_i a b ha hb
    unfold sliceTo at ha
    split at ha
    · rename_i hi
      unfold spliceS splice sliceToS sliceTo
      rw [if_pos ⟨hi.1, by omega⟩, if_pos hi, List.take_append_of_le_length (by omega)]
      rfl
    · cases ha
  · cases h

theorem slice_spare {d c : Bytes} {i j : Int} (sp : Bytes) (h : slice d i j = some c) : sliceS sp d i j = some c := by
  unfold slice at h
  split at h
  · rename_i hi
    injection h with h
    unfold sliceS
    rw [if_pos ⟨hi.1, hi.2.1, by omega⟩, List.take_append_of_le_length (by omega), h]
  · cases h

theorem replaceAttribute_spare {cs : Bool} {data : Bytes} {l : Loc} {a v : Bytes} (sp : Bytes) (h : l.Ordered) : replaceAttributeS sp cs data l a v = replaceAttribute cs data l a v :=
  splice_spare sp h.start

theorem createInRoot_spare {o : Ord} {indent data : Bytes} {path : List Seg} {v : Bytes} (sp : Bytes) : createInRootS sp o indent data path v = createInRoot o indent data path v := by
  unfold createInRootS createInRoot
  cases ht : topElems o data with
  | nil => rfl
  | cons e t =>
    have := (locOf_ordered (o := o) (data := data) (e := e) (by rw [ht]; simp) 0).start
    simp only [splice_spare sp this, splice_spare sp (Int.le_refl _)]
    rfl

theorem createInParent_spare {o : Ord} {indent data : Bytes} {l : Loc} {path : List Seg} {v : Bytes} (sp : Bytes) (h : l.Ordered) :
    createInParentS sp o indent data l path v = createInParent o indent data l path v := by
  unfold createInParentS createInParent
  rw [splice_spare sp (Int.le_refl _)]
  cases hs : l.selfClosing
  · rfl
  · rw [splice_spare sp (by rw [h.empty hs]; exact h.start)]

theorem deepestParent_ordered {o : Ord} {cs : Bool} {data : Bytes} {path : List Seg} {n i : Nat} {l : Loc} (h : deepestParent o cs data path n = some (i, l)) : l.Ordered := by
  induction n with
  | zero => simp [deepestParent] at h
  | succ n ih =>
    unfold deepestParent at h
    split at h
    · rename_i l' hl
      simp only [Option.some.injEq, Prod.mk.injEq] at h
      obtain ⟨-, rfl⟩ := h
      exact found_ordered hl
    · exact ih h

theorem createElement_spare {o : Ord} {cs : Bool} {indent data : Bytes} {path : List Seg} {v : Bytes} (sp : Bytes) : createElementS sp o cs indent data path v = createElement o cs indent data path v := by
  unfold createElementS createElement
  rw [createInRoot_spare]
  split
  · rfl
  cases h : deepestParent o cs data path (path.length - 1) with
  | none => rfl
  | some p =>
    obtain ⟨i, l⟩ := p
    exact createInParent_spare sp (deepestParent_ordered h)

theorem createElementForAttribute_spare {o : Ord} {cs : Bool} {indent data : Bytes} {path : List Seg} {a v : Bytes} (sp sp2 : Bytes) :
    createElementForAttributeS sp sp2 o cs indent data path a v = createElementForAttribute o cs indent data path a v := by
  unfold createElementForAttributeS createElementForAttribute
  rw [createElement_spare]
  cases createElement o cs indent data path [] with
  | panic => rfl
  | err e => rfl
  | ok r =>
    simp only
    split
    · rfl
    cases h : findLoc o cs path (getResult data r) 0 with
    | none => rfl
    | some l => exact replaceAttribute_spare sp2 (found_ordered h)

theorem deleteAttribute_spare {cs : Bool} {data : Bytes} {l : Loc} {a : Bytes} (sp : Bytes) (h : l.Ordered) : deleteAttributeS sp cs data l a = deleteAttribute cs data l a := by
  unfold deleteAttributeS deleteAttribute
  rw [splice_spare sp h.start]

theorem deleteElement_spare {o : Ord} {cs : Bool} {data : Bytes} {path : List Seg} (sp : Bytes) : deleteElementS sp o cs data path = deleteElement o cs data path := by
  unfold deleteElementS deleteElement
  cases hp : path.getLast? with
  | none => rfl
  | some last =>
    simp only
    split
    · rfl
    cases hk : last.kind with
    | attr a =>
      simp only
      split
      · rfl
      cases h : findLoc o cs path.dropLast data 0 with
      | none => rfl
      | some l => exact deleteAttribute_spare sp (found_ordered h)
    | _ =>
      simp only
      cases h : findLoc o cs path data 0 with
      | none => rfl
      | some l =>
        have hl := found_ordered h
        simp only
        rw [splice_spare sp hl.start]
        cases hs : l.selfClosing
        · simp only [Bool.false_eq_true, if_false]; exact splice_spare sp (hl.close hs)
        · rfl

theorem appendElement_spare {o : Ord} {cs : Bool} {indent data : Bytes} {path : List Seg} {v : Bytes} (sp : Bytes) (h : appendElement o cs indent data path v ≠ .panic) :
    appendElementS sp o cs indent data path v = appendElement o cs indent data path v := by
  unfold appendElementS appendElement at *
  cases hp : path.getLast? with
  | none => rfl
  | some seg =>
    rw [hp] at h
    simp only at h ⊢
    cases hk : seg.kind <;> try rfl
    rename_i name
    rw [hk] at h
    simp only at h ⊢
    split
    · unfold appendRootElementS appendRootElement
      split
      · rfl
      · simp only [splice_spare sp (Int.le_refl _)]; rfl
    rename_i hd
    rw [if_neg hd] at h
    rw [createElement_spare]
    cases hf : findLoc o cs path.dropLast data 0 with
    | none => rfl
    | some l =>
      rw [hf] at h
      have hl := found_ordered hf
      simp only at h ⊢
      cases hs : l.selfClosing
      · rw [hs] at h
        simp only [Bool.false_eq_true, if_false] at h ⊢
        have hm : findLastMatchS sp o cs data l seg = findLastMatch o cs data l seg := by
          unfold findLastMatch at h
          unfold findLastMatchS findLastMatch
          cases hc : slice data l.contentStart l.contentEnd with
          | none => rw [hc] at h; exact absurd rfl h
          | some c => rw [slice_spare sp hc]; rfl
        rw [hm]
        cases findLastMatch o cs data l seg with
        | none => rfl
        | some pos => simp only [splice_spare sp (Int.le_refl _)]
      · simp only [if_true]
        exact splice_spare sp (by rw [hl.empty hs]; exact hl.start)

theorem setElement_spare {o : Ord} {cs : Bool} {indent data : Bytes} {path : List Seg} {v : GoVal} (sp sp2 : Bytes) (h : setElement o cs indent data path v ≠ .panic) :
    setElementS sp sp2 o cs indent data path v = setElement o cs indent data path v := by
  unfold setElementS setElement at *
  cases hp : path.getLast? with
  | none => rfl
  | some last =>
    rw [hp] at h
    simp only at h ⊢
    cases hv : valueToXML v with
    | none => rfl
    | some w =>
      rw [hv] at h
      simp only at h ⊢
      split
      · rfl
      rename_i h1
      rw [if_neg h1] at h
      split
      · rfl
      rename_i h2
      rw [if_neg h2] at h
      cases hi : indexIntent path with
      | some b =>
        rw [hi] at h
        cases b with
        | false => rfl
        | true => exact appendElement_spare sp h
      | none =>
        rw [hi] at h
        simp only [createElement_spare, createElementForAttribute_spare] at h ⊢
        cases hk : last.kind with
        | attr a =>
          simp only
          cases hf : findLoc o cs path.dropLast data 0 with
          | none => rfl
          | some l => exact replaceAttribute_spare sp (found_ordered hf)
        | _ =>
          rw [hk] at h
          simp only at h ⊢
          cases hf : findLoc o cs path data 0 with
          | none => rfl
          | some l =>
            rw [hf] at h
            simp only [replaceElement, replaceElementS] at h ⊢
            cases hq : splice data l.contentStart l.contentEnd w with
            | panic => exact absurd hq h
            | ok r => exact splice_spare_ok sp hq
            | err e => unfold splice at hq; split at hq <;> cases hq

end Verif
