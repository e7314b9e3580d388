import Verif.Lemmas.Series
import Verif.Props.FreshEdit
/- C75 on the empty document, and for the documents of C88. -/
namespace Verif.Props
open Verif Verif.Spec

theorem findLocF_empty (cs : Bool) (ss : List Seg) (os : Visits) (base : Int) : findLocF cs ss os [] base = none := by
  have h : ∀ o, topElems o [] = [] := fun o => topElems_none (by simp [skipToNext])
  cases ss with
  | nil => rfl
  | cons s r =>
    cases r with
    | nil => simp [findLocF, h]
    | cons t r =>
      rw [findLocF]
      simp only [h, List.filter_nil, List.getElem?_nil, List.head?_nil]
      repeat' split
      all_goals first | rfl | trivial

theorem kept_not {g : Forest} (hg : Kept g) (hE : ¬ Editable g) : g.render.length > maxDocumentSize ∨ valid g.render = false := by
  by_cases hl : g.render.length > maxDocumentSize
  · exact .inl hl
  · exact .inr (hg.1.2 (fun he => hE (hg.1.1 he (by have : maxDocumentSize = 10485760 := rfl; omega))))

theorem setF_refused {os : Visits} {xml p : Bytes} {v : GoVal} {opts : Option Options} (h0 : xml ≠ []) (h : xml.length > maxDocumentSize ∨ valid xml = false) :
    setWithOptionsF os xml p v opts = .ret (xml, some .malformed) := by
  unfold setWithOptionsF
  rcases h with h | h
  · rw [if_pos h]
  · have : xml.isEmpty = false := by cases xml with | nil => exact absurd rfl h0 | cons => rfl
    rw [h, this]; split <;> rfl

theorem set_refused {o : Ord} {xml p : Bytes} {v : GoVal} {opts : Option Options} (h0 : xml ≠ []) (h : xml.length > maxDocumentSize ∨ valid xml = false) :
    setWithOptions o xml p v opts = .ret (xml, some .malformed) := by rw [← C75_same_set]; exact setF_refused h0 h

theorem deleteF_refused {os : Visits} {xml p : Bytes} {opts : Option Options} (h : xml.length > maxDocumentSize ∨ valid xml = false) :
    deleteWithOptionsF os xml p opts = .ret (xml, some .malformed) := by
  unfold deleteWithOptionsF
  rcases h with h | h
  · rw [if_pos h]
  · rw [h]; split <;> rfl

theorem delete_refused {o : Ord} {xml p : Bytes} {opts : Option Options} (h : xml.length > maxDocumentSize ∨ valid xml = false) :
    deleteWithOptions o xml p opts = .ret (xml, some .malformed) := by rw [← C75_same_delete]; exact deleteF_refused h

theorem noOrd_perm : Ord.IsPerm fun _ as => as := fun _ _ => .refl _

theorem escape_no_at {m : Bytes} (h : c!"@" ∉ m) : c!"@" ∉ escapeName m := by
  induction m with
  | nil => simp [escapeName]
  | cons c m ih =>
    simp only [List.mem_cons, not_or] at h
    have := ih h.2
    rw [escapeName]
    split
    · simp only [List.mem_cons, not_or]; exact ⟨by decide, h.1, this⟩
    · simp only [List.mem_cons, not_or]; exact ⟨h.1, this⟩

theorem joinDots_no_at {ns : List Bytes} (h : ∀ m ∈ ns, c!"@" ∉ m) : c!"@" ∉ joinDots ns := by
  induction ns with
  | nil => simp [joinDots]
  | cons m r ih =>
    have hi := ih fun x hx => h x (List.mem_cons_of_mem _ hx)
    cases r with
    | nil => exact h m List.mem_cons_self
    | cons q r =>
      rw [joinDots]
      simp only [List.mem_append, List.mem_cons, not_or]
      exact ⟨h m List.mem_cons_self, by decide, hi⟩

theorem names_no_at {ns : List Bytes} (hn : ∀ m ∈ ns, IsName m) : c!"@" ∉ pathOf ns := by
  refine joinDots_no_at fun m hm => ?_
  obtain ⟨x, hx, rfl⟩ := List.mem_map.mp hm
  refine escape_no_at fun hh => ?_
  have := (hn x hx).2.1 _ hh
  revert this; decide

theorem kept_delete {os : Visits} (hp : os.IsPerm) {g : Forest} (hg : Kept g) (p : Bytes) (opts : Options) :
    ∃ o : Ord, o.IsPerm ∧ deleteWithOptionsF os g.render p (some opts) = deleteWithOptions o g.render p (some opts) := by
  refine ⟨_, noOrd_perm, ?_⟩
  by_cases hE : Editable g
  · exact C75_delete_one os hp _ noOrd_perm g (editable_sound hE) p _
  · rw [deleteF_refused (kept_not hg hE), delete_refused (kept_not hg hE)]

/-- C75: with one order for all maps it is SetMany as modelled. -/
theorem C75_same_set_many (o : Ord) (xml : Bytes) (paths : List Bytes) (values : List GoVal) : setManyF (fun _ _ => o) xml paths values = setMany o xml paths values := by
  have key : ∀ (qs : List (Bytes × GoVal)) (orig cur : Bytes) (i : Nat), setManyLoopF (fun _ _ => o) orig i cur qs = setManyLoop o orig cur qs := by
    intro qs
    induction qs with
    | nil => intros; rfl
    | cons q r ih =>
      intro orig cur i
      obtain ⟨p, v⟩ := q
      rw [setManyLoopF, setManyLoop, C75_same_set]
      simp only [ih]
      rfl
  unfold setManyF setMany
  simp only [key]

end Verif.Props
