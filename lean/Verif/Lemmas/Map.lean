import Verif.Lemmas.FilterStep
import Verif.Lemmas.Recursive
import Verif.Model.Fluent
/- The map of an element's children: grouping by key. -/
namespace Verif
open Spec

theorem ResMap.get_set_self (k : Bytes) (v : Result) (m : ResMap) : ResMap.get? k (m.set k v) = some v := by
  induction m with
  | nil => simp [ResMap.set, ResMap.get?]
  | cons e m ih =>
    obtain ⟨k', v'⟩ := e
    by_cases h : k' = k
    · simp [ResMap.set, ResMap.get?, h]
    · simp [ResMap.set, ResMap.get?, h, ih]

theorem ResMap.get_set_ne {k j : Bytes} (h : j ≠ k) (v : Result) (m : ResMap) : ResMap.get? j (m.set k v) = ResMap.get? j m := by
  induction m with
  | nil => simp [ResMap.set, ResMap.get?, Ne.symm h]
  | cons e m ih =>
    obtain ⟨k', v'⟩ := e
    by_cases h' : k' = k
    · subst h'; simp [ResMap.set, ResMap.get?, Ne.symm h]
    · by_cases h2 : k' = j
      · subst h2; simp [ResMap.set, ResMap.get?, h']
      · simp [ResMap.set, ResMap.get?, h', h2, ih]

/-- What a map holds for a key under which the results `l` were put. -/
def grp : List Result → Option Result
  | [] => none
  | [x] => some x
  | l => some (.ofArray l)

theorem grp_snoc (m : ResMap) (k : Bytes) (l : List Result) (x : Result) (h : ResMap.get? k m = grp l) (hl : ∀ r ∈ l, r.typ ≠ .array) :
    ResMap.get? k (addChildToMap m k x) = grp (l ++ [x]) := by
  unfold addChildToMap
  rw [h]
  match l, hl with
  | [], _ => simp [grp, ResMap.get_set_self]
  | [y], hl => simp only [grp]; rw [if_neg (hl y (by simp)), ResMap.get_set_self]; rfl
  | y :: z :: l, hl => simp only [grp, List.cons_append]; rw [if_pos (by rfl), ResMap.get_set_self]; rfl

theorem grp_other (m : ResMap) {k j : Bytes} (h : j ≠ k) (x : Result) : ResMap.get? j (addChildToMap m k x) = ResMap.get? j m := by
  unfold addChildToMap
  split
  · exact ResMap.get_set_ne h _ _
  · split
    · exact ResMap.get_set_ne h _ _
    · exact ResMap.get_set_ne h _ _

theorem foldl_grp (key : Elem → Bytes) (val : Elem → Result) (hv : ∀ e, (val e).typ ≠ .array) (k : Bytes) (es : List Elem) :
    ∀ (m : ResMap) (l : List Result), ResMap.get? k m = grp l → (∀ r ∈ l, r.typ ≠ .array) →
      ResMap.get? k (es.foldl (fun m e => addChildToMap m (key e) (val e)) m) = grp (l ++ (es.filter (fun e => key e = k)).map val) := by
  induction es with
  | nil => intro m l h _; simpa using h
  | cons e es ih =>
    intro m l h hl
    rw [List.foldl_cons]
    by_cases hk : key e = k
    · rw [ih _ (l ++ [val e]) (by rw [hk]; exact grp_snoc m k l _ h hl)
        (by intro r hr; rcases List.mem_append.mp hr with hr | hr
            · exact hl r hr
            · rw [List.mem_singleton.mp hr]; exact hv e)]
      simp [hk]
    · rw [ih _ l (by rw [grp_other m (Ne.symm hk)]; exact h) hl]
      simp [hk]

theorem textEntry_other {k : Bytes} (hk : k ≠ b!"%") (xml : Bytes) : ResMap.get? k (textEntry xml) = none := by
  by_cases ht : (extractDirectTextOnly xml).isEmpty = true
  · simp [textEntry, ht, ResMap.get?]
  · simp [textEntry, ht, ResMap.get?, Ne.symm hk]

theorem writes_empty {i : Info} (h : Writes [] i) : i.elems = [] ∧ i.ownText = [] := by
  obtain ⟨g, -, hl, -, rfl, hr⟩ := h
  cases g with
  | more f n as ws rest => simp [Draft.render, openTag] at hr
  | done g =>
    rw [Draft.info_done]
    rw [Draft.render] at hr
    clear hl
    induction g with
    | nil => exact ⟨rfl, rfl⟩
    | text b next ih =>
      rw [Forest.render] at hr
      obtain ⟨rfl, hr2⟩ := List.append_eq_nil_iff.mp hr.symm
      have := ih hr2.symm
      exact ⟨this.1, by simp [Forest.info, Info.ownText, this.2]⟩
    | misc m next ih => cases m <;> simp [Forest.render, Misc.render] at hr
    | leaf n as ws next ih => simp [Forest.render, openTag] at hr
    | node n as ws kids cws next _ ih => simp [Forest.render, openTag] at hr

/-- The children of a map, by key. -/
theorem mapChildren_child {o : Ord} (ho : o.IsPerm) (key : Bytes → Bytes) {c : Bytes} {i : Info} (h : Writes c i) (hlen : c.length ≤ 10485760)
    {k : Bytes} (hk : k ≠ b!"%") :
    match (i.elems.take 1000).filter (fun nd => key nd.name = k) with
    | [] => ResMap.get? k (parseMapChildren o key c) = none
    | l => ∃ v, ResMap.get? k (parseMapChildren o key c) = some v ∧ IsList IsElement v l := by
  have hd : maxDocumentSize = 10485760 := rfl
  unfold parseMapChildren
  rw [if_neg (by omega)]
  by_cases he : c = []
  · subst he; rw [(writes_empty h).1]; simp [ResMap.get?]
  · rw [if_neg (by simpa using he)]
    rw [foldl_grp (fun e => key e.name) (fun e => .ofContent e.content) (fun e => by simp) k _ _ [] (textEntry_other hk c) (by simp)]
    have hr := All2.filter (p := fun e => decide (key e.name = k)) (q := fun nd => decide (key nd.name = k)) ((writes_reads ho h).take 1000)
      (fun e nd hab => by rw [hab.name])
    have e1 : maxWildcardResults = 1000 := rfl
    rw [e1, List.nil_append]
    generalize List.filter (fun e => decide (key e.name = k)) ((topElems o c).take 1000) = es,
      List.filter (fun nd => decide (key nd.name = k)) (i.elems.take 1000) = ns at hr ⊢
    have hm : All2 IsElement (es.map fun e => .ofContent e.content) ns := by
      have := All2.map (f := fun e : Elem => Result.ofContent e.content) (g := fun nd : Node => nd) (S := IsElement) hr (fun e nd hab => (ofContent_is hab.content).spec)
      simpa using this
    generalize (es.map fun e => Result.ofContent e.content) = rs at hm
    match rs, ns, hm with
    | _, _, .nil => rfl
    | _, _, .cons h1 .nil => exact ⟨_, rfl, h1⟩
    | _, _, .cons h1 (.cons h2 h3) => exact ⟨_, rfl, rfl, .cons h1 (.cons h2 h3)⟩

/-- The own text of a map. -/
theorem mapChildren_text {o : Ord} (ho : o.IsPerm) (key : Bytes → Bytes) (hkey : ∀ n, key n = b!"%" → n = b!"%") {c : Bytes} {nd : Node} (h : Writes c nd.kids)
    (hlen : c.length ≤ 10485760) (hg : nd.kids.Quiet) (hpc : ∀ k ∈ nd.kids.elems, k.name ≠ b!"%") :
    match nd.ownTexts with
    | [] => ResMap.get? b!"%" (parseMapChildren o key c) = none
    | t :: _ => ∃ v, ResMap.get? b!"%" (parseMapChildren o key c) = some v ∧ v.typ = .string ∧ v.toStr = t := by
  have hd : maxDocumentSize = 10485760 := rfl
  unfold parseMapChildren
  rw [if_neg (by omega)]
  by_cases he : c = []
  · subst he
    rw [Node.ownTexts, (writes_empty h).2, if_pos (show trimSpace [] = [] by decide +kernel)]
    rfl
  · rw [if_neg (by simpa using he)]
    have hno : (((topElems o c).take maxWildcardResults).filter (fun e => decide (key e.name = b!"%"))) = [] := by
      rw [List.filter_eq_nil_iff]
      intro e hm
      have hm := List.mem_of_mem_take hm
      obtain ⟨nd', hn', hr⟩ := All2.mem_left (writes_reads ho h) hm
      intro hk
      have hk := hkey _ (of_decide_eq_true hk)
      exact hpc nd' hn' (hr.name ▸ hk)
    rw [foldl_grp (fun e => key e.name) (fun e => .ofContent e.content) (fun e => by simp) b!"%" _ _
      ((ResMap.get? b!"%" (textEntry c)).toList) ?_ ?_]
    · rw [hno]
      unfold textEntry
      simp only [writes_direct_raw h hg, Node.ownTexts]
      by_cases ht : trimSpace nd.kids.ownText = []
      · rw [if_pos ht, if_pos (by simpa using ht)]; rfl
      · rw [if_neg ht, if_neg (by simpa using ht)]
        exact ⟨_, rfl, rfl, by rw [Result.toStr_ne _ (by simp [Result.typ]) (by simp [Result.typ])]; rfl⟩
    · cases ResMap.get? b!"%" (textEntry c) <;> rfl
    · by_cases ht : (extractDirectTextOnly c).isEmpty = true
      · simp [textEntry, ht, ResMap.get?]
      · simp [textEntry, ht, ResMap.get?, Result.typ]

end Verif
