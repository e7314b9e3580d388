import Verif.Lemmas.SenseBy
/- The own texts in an answer are texts of elements inside the content that is asked, so what holds of all its texts holds of them. -/
namespace Verif
open Spec

/-- The thing is not an own text, or one that `Get` reads as it is written. -/
def Spec.Item.Quiet (x : Item) : Prop := ∀ nd, x = .text nd → nd.kids.Quiet

theorem within_quiet {d : Nat} {i : Info} (h : i.Quiet) {nd : Node} (hn : nd ∈ i.within d) : nd.kids.Quiet := by
  induction d generalizing i with
  | zero => rw [within_zero] at hn; cases hn
  | succ d ih =>
    rw [within_elems] at hn
    obtain ⟨e, he, hn⟩ := List.mem_flatMap.mp hn
    rcases List.mem_append.mp hn with hn | hn
    · exact ih (quiet_elems h e he) hn
    · rw [List.mem_singleton.mp hn]; exact quiet_elems h e he

theorem nodes_quiet {i : Info} (h : i.Quiet) {m : Move} {root : Bool} {nd : Node} (hn : nd ∈ m.nodes root i) : nd.kids.Quiet := by
  cases m with
  | name n => exact quiet_elems h _ (named_sub hn)
  | nth n j =>
    simp only [Move.nodes, Option.mem_toList] at hn
    exact quiet_elems h _ (hits_sub (take_sub (List.mem_of_getElem? hn)))
  | sat n p => exact quiet_elems h _ (among_sub (take_sub hn))
  | satAll n p => exact quiet_elems h _ (among_sub hn)
  | any => exact quiet_elems h _ (take_sub hn)
  | deep n =>
    cases n with
    | none => exact within_quiet h hn
    | some n => exact within_quiet h (List.mem_filter.mp hn).1

theorem nodesBy_quiet {cs : Bool} {i : Info} (h : i.Quiet) {m : Move} {root : Bool} {nd : Node} (hn : nd ∈ m.nodesBy cs root i) : nd.kids.Quiet := by
  have named : ∀ {n : Bytes}, nd ∈ i.namedBy cs n → nd.kids.Quiet := fun hm => quiet_elems h _ (List.mem_filter.mp hm).1
  have among : ∀ {n : Option Bytes} {p : Node → Bool}, nd ∈ i.amongBy cs n p → nd.kids.Quiet := by
    intro n p hm
    cases n with
    | none => exact quiet_elems h _ (List.mem_filter.mp (take_sub hm)).1
    | some n => exact named (take_sub (List.mem_filter.mp hm).1)
  cases m with
  | name n => exact named hn
  | nth n j =>
    simp only [Move.nodesBy, Option.mem_toList] at hn
    have hm := take_sub (List.mem_of_getElem? hn)
    unfold Info.hitsBy at hm
    split at hm
    · exact quiet_elems h _ (hits_sub hm)
    · exact named hm
  | sat n p => exact among (take_sub hn)
  | satAll n p => exact among hn
  | any => exact quiet_elems h _ (take_sub hn)
  | deep n =>
    cases n with
    | none => exact within_quiet h hn
    | some n => exact within_quiet h (List.mem_filter.mp hn).1

theorem items_quiet {g : Goal} {nd : Node} (h : nd.kids.Quiet) {x : Item} (hx : x ∈ g.items nd) : x.Quiet := by
  rintro n rfl
  cases g <;> simp [Goal.items] at hx
  · rw [hx]; exact h
  · rw [hx.2]; exact h

theorem itemsBy_quiet {cs : Bool} {g : Goal} {nd : Node} (h : nd.kids.Quiet) {x : Item} (hx : x ∈ g.itemsBy cs nd) : x.Quiet := by
  rintro n rfl
  cases g <;> simp [Goal.itemsBy] at hx
  · rw [hx]; exact h
  · rw [hx.2]; exact h

theorem count_quiet (n : Nat) : (Item.count n).Quiet := by rintro nd h; cases h

theorem last_quiet {x : Item} {m : Move} {g : Goal} {root : Bool} {i : Info} (hq : i.Quiet) (h : x ∈ (m.last root i g).items) : x.Quiet := by
  have hmem : ∀ {l : List Node}, (∀ nd ∈ l, nd.kids.Quiet) → x ∈ l.flatMap (fun nd => g.items nd) → x.Quiet := by
    intro l hl hx
    obtain ⟨nd, hn, hx⟩ := List.mem_flatMap.mp hx
    exact items_quiet (hl nd hn) hx
  have hm : ∀ (l : List Node) (c : Bool), (∀ nd ∈ l, nd.kids.Quiet) → x ∈ (Answer.many (if c then (l.flatMap (fun nd => g.items nd)).take 1000 else [])).items → x.Quiet := by
    intro l c hl hx
    cases c with
    | false => simp [Answer.items] at hx
    | true => exact hmem hl (take_sub hx)
  have hp : ∀ (l : List Node), (∀ nd ∈ l, nd.kids.Quiet) → x ∈ (pack (l.flatMap (fun nd => g.items nd))).items → x.Quiet := by
    intro l hl hx
    rw [pack_items] at hx; exact hmem hl hx
  have hl : ∀ (l : List Node), (∀ nd ∈ l, nd.kids.Quiet) → x ∈ (g.listed l).items → x.Quiet := by
    intro l hl hx
    cases g with
    | elem =>
      obtain ⟨nd, -, rfl⟩ := List.mem_map.mp (show x ∈ l.map Item.elem from hx)
      intro n e; cases e
    | _ => exact hp l hl hx
  have hh : ∀ n, ∀ nd ∈ (i.hits root n).take 1000, nd.kids.Quiet := fun n nd hn => quiet_elems hq _ (hits_sub (take_sub hn))
  have hnamed : ∀ n, ∀ nd ∈ (i.named n).take 1, nd.kids.Quiet := fun n nd hn => quiet_elems hq _ (named_sub (take_sub hn))
  cases m with
  | name n =>
    by_cases hc : g = .count
    · subst hc
      simp only [Move.last] at h
      split at h
      · simp [Answer.items] at h
      · simp only [Answer.items, List.mem_singleton] at h; subst h; exact count_quiet _
    · have e : (Move.name n).last root i g = if g.isField then
          (if root && (i.hits root n).isEmpty then .nothing else .many ((((i.hits root n).take 1000).flatMap (fun nd => g.items nd)).take 1000))
          else pack (((i.named n).take 1).flatMap (fun nd => g.items nd)) := by
        cases g <;> first | rfl | exact absurd rfl hc
      rw [e] at h
      split at h
      · split at h
        · simp [Answer.items] at h
        · exact hmem (hh n) (take_sub h)
      · exact hp _ (hnamed n) h
  | deep n =>
    have e : (Move.deep n).last root i g = pack (fill 1000 (((Move.deep n).nodes root i).map (fun nd => (g.items nd).take 1000))) := by
      cases g <;> rfl
    rw [e, pack_items] at h
    obtain ⟨l, hl, hx⟩ := fill_sub h
    obtain ⟨nd, hn, rfl⟩ := List.mem_map.mp hl
    exact items_quiet (nodes_quiet hq hn) (take_sub hx)
  | nth n j =>
    have e : (Move.nth n j).last root i g = if ((Move.nth n j).nodes root i).isEmpty then .nothing else if g.isField then .many (if false then (((Move.nth n j).nodes root i).flatMap (fun nd => g.items nd)).take 1000 else [])
        else if (g.isText && !root) then .nothing else pack (((Move.nth n j).nodes root i).flatMap (fun nd => g.items nd)) := by
      cases g <;> cases root <;> simp [Move.last, Goal.isField, Move.collects, Spec.Goal.isText]
    rw [e] at h
    split at h
    · simp [Answer.items] at h
    · split at h
      · exact hm _ _ (fun _ => nodes_quiet hq) h
      · split at h
        · simp [Answer.items] at h
        · exact hp _ (fun _ => nodes_quiet hq) h
  | sat n p =>
    have e : (Move.sat n p).last root i g = if ((Move.sat n p).nodes root i).isEmpty then .nothing else if g.isField then .many (if true then (((Move.sat n p).nodes root i).flatMap (fun nd => g.items nd)).take 1000 else [])
        else pack (((Move.sat n p).nodes root i).flatMap (fun nd => g.items nd)) := by
      cases g <;> rfl
    rw [e] at h
    split at h
    · simp [Answer.items] at h
    · split at h
      · exact hm _ _ (fun _ => nodes_quiet hq) h
      · exact hp _ (fun _ => nodes_quiet hq) h
  | any =>
    have e : Move.any.last root i g = if (Move.any.nodes root i).isEmpty then .nothing else if g.isField then .many (if false then ((Move.any.nodes root i).flatMap (fun nd => g.items nd)).take 1000 else [])
        else pack ((Move.any.nodes root i).flatMap (fun nd => g.items nd)) := by
      cases g <;> rfl
    rw [e] at h
    split at h
    · simp [Answer.items] at h
    · split at h
      · exact hm _ _ (fun _ => nodes_quiet hq) h
      · exact hp _ (fun _ => nodes_quiet hq) h
  | satAll n p =>
    have e : (Move.satAll n p).last root i g = if ((Move.satAll n p).nodes root i).isEmpty then .nothing else if g.isField then .many (if true then (((Move.satAll n p).nodes root i).flatMap (fun nd => g.items nd)).take 1000 else [])
        else g.listed ((Move.satAll n p).nodes root i) := by
      cases g <;> rfl
    rw [e] at h
    split at h
    · simp [Answer.items] at h
    · split at h
      · exact hm _ _ (fun _ => nodes_quiet hq) h
      · exact hl _ (fun _ => nodes_quiet hq) h

theorem ask_quiet {x : Item} {ms : List Move} {g : Goal} {root : Bool} {i : Info} (hq : i.Quiet) (h : x ∈ (ask ms g root i).items) : x.Quiet := by
  induction ms generalizing root i with
  | nil =>
    simp only [ask] at h
    split at h <;> simp [Answer.items] at h
  | cons m ms ih =>
    cases ms with
    | nil => exact last_quiet hq h
    | cons n ms =>
      obtain ⟨a, ha, hx⟩ := join_sub h
      obtain ⟨nd, hn, rfl⟩ := List.mem_map.mp ha
      exact ih (nodes_quiet hq hn) hx

theorem lastBy_quiet {cs : Bool} {x : Item} {m : Move} {g : Goal} {root : Bool} {i : Info} (hq : i.Quiet) (h : x ∈ (m.lastBy cs root i g).items) : x.Quiet := by
  have hmem : ∀ {l : List Node}, (∀ nd ∈ l, nd.kids.Quiet) → x ∈ l.flatMap (fun nd => g.itemsBy cs nd) → x.Quiet := by
    intro l hl hx
    obtain ⟨nd, hn, hx⟩ := List.mem_flatMap.mp hx
    exact itemsBy_quiet (hl nd hn) hx
  have hm : ∀ (l : List Node), (∀ nd ∈ l, nd.kids.Quiet) → x ∈ (Answer.many ((l.flatMap (fun nd => g.itemsBy cs nd)).take 1000)).items → x.Quiet :=
    fun l hl hx => hmem hl (take_sub hx)
  have hp : ∀ (l : List Node), (∀ nd ∈ l, nd.kids.Quiet) → x ∈ (pack (l.flatMap (fun nd => g.itemsBy cs nd))).items → x.Quiet := by
    intro l hl hx
    rw [pack_items] at hx; exact hmem hl hx
  have hl : ∀ (l : List Node), (∀ nd ∈ l, nd.kids.Quiet) → x ∈ (g.listedBy cs l).items → x.Quiet := by
    intro l hl hx
    cases g with
    | elem =>
      obtain ⟨nd, -, rfl⟩ := List.mem_map.mp (show x ∈ l.map Item.elem from hx)
      intro n e; cases e
    | _ => exact hp l hl hx
  have hh : ∀ n, ∀ nd ∈ (i.hitsBy cs root n).take 1000, nd.kids.Quiet := by
    intro n nd hn
    have hn := take_sub hn
    unfold Info.hitsBy at hn
    split at hn
    · exact quiet_elems hq _ (hits_sub hn)
    · exact quiet_elems hq _ (List.mem_filter.mp hn).1
  have hnamed : ∀ n, ∀ nd ∈ (i.namedBy cs n).take 1, nd.kids.Quiet := fun n nd hn => quiet_elems hq _ (List.mem_filter.mp (take_sub hn)).1
  cases m with
  | name n =>
    by_cases hc : g = .count
    · subst hc
      simp only [Move.lastBy] at h
      split at h
      · simp [Answer.items] at h
      · simp only [Answer.items, List.mem_singleton] at h; subst h; exact count_quiet _
    · have e : (Move.name n).lastBy cs root i g = if g.isField then
          (if root && cs && (i.hitsBy cs root n).isEmpty then .nothing else .many ((((i.hitsBy cs root n).take 1000).flatMap (fun nd => g.itemsBy cs nd)).take 1000))
          else pack (((i.namedBy cs n).take 1).flatMap (fun nd => g.itemsBy cs nd)) := by
        cases g <;> first | rfl | exact absurd rfl hc
      rw [e] at h
      split at h
      · split at h
        · simp [Answer.items] at h
        · exact hm _ (hh n) h
      · exact hp _ (hnamed n) h
  | deep n =>
    have e : (Move.deep n).lastBy cs root i g = if g.isField then .nothing else pack (fill 1000 (((Move.deep n).nodesBy cs root i).map (fun nd => g.itemsBy cs nd))) := by cases g <;> rfl
    rw [e] at h
    split at h
    · simp [Answer.items] at h
    · rw [pack_items] at h
      obtain ⟨l, hl, hx⟩ := fill_sub h
      obtain ⟨nd, hn, rfl⟩ := List.mem_map.mp hl
      exact itemsBy_quiet (nodesBy_quiet hq hn) hx
  | any =>
    have e : Move.any.lastBy cs root i g = if g.isField then .nothing else pack ((Move.any.nodesBy cs root i).flatMap (fun nd => g.itemsBy cs nd)) := by cases g <;> rfl
    rw [e] at h
    split at h
    · simp [Answer.items] at h
    · exact hp _ (fun _ => nodesBy_quiet hq) h
  | nth n j =>
    have e : (Move.nth n j).lastBy cs root i g = if ((Move.nth n j).nodesBy cs root i).isEmpty then .nothing else if g.isField then .many []
        else if (g.isText && !(root && cs)) then .nothing else pack (((Move.nth n j).nodesBy cs root i).flatMap (fun nd => g.itemsBy cs nd)) := by
      cases g <;> cases root <;> cases cs <;> simp [Move.lastBy, Goal.isField, Spec.Goal.isText]
    rw [e] at h
    split at h
    · simp [Answer.items] at h
    · split at h
      · simp [Answer.items] at h
      · split at h
        · simp [Answer.items] at h
        · exact hp _ (fun _ => nodesBy_quiet hq) h
  | sat n p =>
    have e : (Move.sat n p).lastBy cs root i g = if ((Move.sat n p).nodesBy cs root i).isEmpty then .nothing
        else if g.isField then .many ((((Move.sat n p).nodesBy cs root i).flatMap (fun nd => g.itemsBy cs nd)).take 1000) else pack (((Move.sat n p).nodesBy cs root i).flatMap (fun nd => g.itemsBy cs nd)) := by
      cases g <;> rfl
    rw [e] at h
    split at h
    · simp [Answer.items] at h
    · split at h
      · exact hm _ (fun _ => nodesBy_quiet hq) h
      · exact hp _ (fun _ => nodesBy_quiet hq) h
  | satAll n p =>
    have e : (Move.satAll n p).lastBy cs root i g = if ((Move.satAll n p).nodesBy cs root i).isEmpty then .nothing
        else if g.isField then .many ((((Move.satAll n p).nodesBy cs root i).flatMap (fun nd => g.itemsBy cs nd)).take 1000) else g.listedBy cs ((Move.satAll n p).nodesBy cs root i) := by
      cases g <;> rfl
    rw [e] at h
    split at h
    · simp [Answer.items] at h
    · split at h
      · exact hm _ (fun _ => nodesBy_quiet hq) h
      · exact hl _ (fun _ => nodesBy_quiet hq) h

theorem askBy_quiet {cs : Bool} {x : Item} {ms : List Move} {g : Goal} {root : Bool} {i : Info} (hq : i.Quiet) (h : x ∈ (askBy cs ms g root i).items) : x.Quiet := by
  induction ms generalizing root i with
  | nil =>
    simp only [askBy] at h
    split at h <;> simp [Answer.items] at h
  | cons m ms ih =>
    cases ms with
    | nil => exact lastBy_quiet hq h
    | cons n ms =>
      obtain ⟨a, ha, hx⟩ := joinBy_sub h
      obtain ⟨nd, hn, rfl⟩ := List.mem_map.mp ha
      exact ih (nodesBy_quiet hq hn) hx

theorem reply_quiet {ks : List Role} {i : Info} (hq : i.Quiet) {x : Item} (h : x ∈ (reply ks i).items) : x.Quiet := by
  unfold reply at h
  split at h
  · exact ask_quiet hq h
  · cases h

theorem replyBy_quiet {cs : Bool} {ks : List Role} {i : Info} (hq : i.Quiet) {x : Item} (h : x ∈ (replyBy cs ks i).items) : x.Quiet := by
  unfold replyBy at h
  split at h
  · exact askBy_quiet hq h
  · cases h

theorem is_str_quiet {r : Result} {x : Item} (h : Is r x) (hx : x.Quiet) : r.toStr = x.str := by
  cases x with
  | text nd => exact IsOwnText.str h (hx nd rfl)
  | elem nd => exact is_str h (by simp)
  | attr v => exact is_str h (by simp)
  | count n => exact is_str h (by simp)

theorem gives_str_quiet {r : Result} {a : Answer} (h : Gives r a) (hx : ∀ x ∈ a.items, x.Quiet) : (if r.exists? then some r.toStr else none) = a.str := by
  cases a with
  | nothing => have : r = .null := h; subst this; rfl
  | one x =>
    have h1 : Is r x := h
    rw [if_pos (by simp [Result.exists?, h1.typ.1]), is_str_quiet h1 (hx x (by simp [Answer.items]))]; rfl
  | many xs =>
    obtain ⟨h1, h2⟩ := h
    rw [if_pos (by simp [Result.exists?, h1]), toStr_array r h1, joinItems_any]
    simp only [Answer.str, listText]
    have : r.results.map Result.toStr = xs.map Item.str := by
      simp only [Answer.items] at hx
      generalize r.results = rs at h2
      clear h1
      induction h2 with
      | nil => rfl
      | cons hab _ ih =>
        simp only [List.map_cons]
        rw [ih (fun x hm => hx x (by simp [hm])), is_str_quiet hab (hx _ (by simp))]
    rw [this]
    simp only [List.map_map]; rfl

end Verif
