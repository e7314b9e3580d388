import Verif.Lemmas.FilterStep
import Verif.Lemmas.Recursive
import Verif.Spec.Ask
/- executeQuery on whole paths, against the meaning of paths. -/
namespace Verif
open Spec

/-! ### results and answers -/

theorem is_elem {e : Elem} {nd : Node} (h : Rep e nd) : Is (.ofContent e.content) (.elem nd) := (ofContent_is h.content).spec

theorem is_text {e : Elem} {nd : Node} (h : Rep e nd) : Is (.ofText e.content) (.text nd) := ofText_is h.content

theorem Spec.Is.typ {r : Result} {x : Item} (h : Is r x) : r.typ ≠ .null ∧ r.typ ≠ .array := by
  cases x with
  | elem nd => have := IsElement.typ h; rw [this]; simp
  | text nd => have := IsOwnText.typ h; rw [this]; simp
  | attr v => have : r = .ofAttr v := h; subst this; simp
  | count n => have : r = .ofCount n := h; subst this; simp

theorem Spec.Gives.list {r : Result} {a : Answer} (h : Gives r a) : All2 Is (asList r) a.items := by
  cases a with
  | nothing => have : r = .null := h; subst this; exact .nil
  | one x =>
    have h1 : Is r x := h
    unfold asList
    rw [if_neg h1.typ.1, if_neg h1.typ.2]
    exact .cons h1 .nil
  | many xs =>
    obtain ⟨h1, h2⟩ := h
    unfold asList
    rw [h1]; exact h2

theorem gives_null {r : Result} {a : Answer} (h : Gives r a) : r.typ = .null ↔ a = .nothing := by
  cases a with
  | nothing => have : r = .null := h; subst this; simp
  | one x => have h1 : Is r x := h; simp [h1.typ.1]
  | many xs => have : r.typ = .array := h.1; simp [this]

theorem gives_emptyList {r : Result} {a : Answer} (h : Gives r a) : (r.typ = .array && r.results.isEmpty) = a.isEmptyList := by
  cases a with
  | nothing => have : r = .null := h; subst this; rfl
  | one x => have h1 : Is r x := h; simp [h1.typ.2, Answer.isEmptyList]
  | many xs =>
    obtain ⟨h1, h2⟩ := h
    rw [h1, h2.isEmpty]
    cases xs <;> rfl

theorem pack_gives {rs : List Result} {xs : List Item} (h : All2 Is rs xs) (hne : rs ≠ []) : Gives (packResults rs) (pack xs) := by
  cases h with
  | nil => exact absurd rfl hne
  | cons h1 h2 =>
    cases h2 with
    | nil => exact h1
    | cons h3 h4 => exact ⟨rfl, .cons h1 (.cons h3 h4)⟩

/-- Null for no result. -/
theorem pack_gives' {rs : List Result} {xs : List Item} (h : All2 Is rs xs) : Gives (if rs.isEmpty then .null else packResults rs) (pack xs) := by
  cases rs with
  | nil => cases h; exact rfl
  | cons r rs => exact pack_gives h (by simp)

theorem firstSome_gives {K : Bytes → Result} {A : Node → Answer} {es : List Elem} {nds : List Node}
    (h : All2 (fun e nd => Gives (K e.content) (A nd)) es nds) : Gives (firstSome K (es.map (·.content))) (firstAnswer (nds.map A)) := by
  induction h with
  | nil => exact rfl
  | @cons e nd es nds hr _ ih =>
    simp only [List.map_cons, firstSome]
    cases ha : A nd with
    | nothing =>
      rw [ha] at hr
      rw [if_pos ((gives_null hr).mpr rfl)]
      exact ih
    | one x => rw [ha] at hr; rw [if_neg (by rw [gives_null hr]; simp)]; exact hr
    | many xs => rw [ha] at hr; rw [if_neg (by rw [gives_null hr]; simp)]; exact hr

/-- What is needed of the content: not too much of it if it is searched (`d`), no `>` in text if own text is collected (`t`). -/
structure Fine (d t : Prop) (k : Info) : Prop where
  deep : d → k.descendants.length < 9999
  text : t → k.Quiet

theorem Fine.kids {d t : Prop} {k : Info} (h : Fine d t k) {nd : Node} (hn : nd ∈ k.elems) : Fine d t nd.kids where
  deep hd := by
    have := h.deep hd
    have := descendants_kids k nd hn
    omega
  text ht := quiet_elems (h.text ht) nd hn

/-- The segments of a move. -/
inductive MoveSegs (d t : Prop) (ev : Filter → Elem → Bool) : List Seg → Move → Prop where
  | name (n : Bytes) : MoveSegs d t ev [nameSeg n] (.name n)
  | nth (n : Bytes) (j : Nat) (i : Int) (h : i = j ∨ 1000 ≤ i ∧ 1000 ≤ j) : MoveSegs d t ev [nameSeg n, ⟨.index i, []⟩] (.nth n j)
  | sat (n : Bytes) (f : Filter) (p : Node → Bool) (h : ∀ e nd, Rep e nd → Fine d t nd.kids → ev f e = p nd) : MoveSegs d t ev [nameSeg n, ⟨.filter f false, []⟩] (.sat (some n) p)
  | satF (f : Filter) (p : Node → Bool) (h : ∀ e nd, Rep e nd → Fine d t nd.kids → ev f e = p nd) : MoveSegs d t ev [⟨.filter f false, []⟩] (.sat none p)
  | satAll (n : Bytes) (f : Filter) (p : Node → Bool) (h : ∀ e nd, Rep e nd → Fine d t nd.kids → ev f e = p nd) : MoveSegs d t ev [nameSeg n, ⟨.filter f true, []⟩] (.satAll (some n) p)
  | satAllF (f : Filter) (p : Node → Bool) (h : ∀ e nd, Rep e nd → Fine d t nd.kids → ev f e = p nd) : MoveSegs d t ev [⟨.filter f true, []⟩] (.satAll none p)
  | any : MoveSegs d t ev [⟨.wild false, []⟩] .any
  | deep (n : Bytes) : MoveSegs d t ev [⟨.wild true, []⟩, nameSeg n] (.deep (some n))
  | deepAny (b : Bool) : MoveSegs d t ev [⟨.wild true, []⟩, ⟨.wild b, []⟩] (.deep none)

/-- The segments of a goal. -/
def goalSegs : Goal → List Seg
  | .elem => []
  | .attr a => [⟨.attr a, []⟩]
  | .text => [⟨.text, []⟩]
  | .count => [⟨.count, []⟩]
  | .fieldElem f => [⟨.field f, []⟩]
  | .fieldAttr a => [⟨.field (c!"@" :: a), []⟩]
  | .fieldText => [⟨.field b!"%", []⟩]

/-- Segments a move begins with. -/
def SegKind.isMove : SegKind → Bool
  | .elem _ => true
  | .wild _ => true
  | .filter _ _ => true
  | _ => false

theorem take_sub {α : Type} {l : List α} {n : Nat} {x : α} (h : x ∈ l.take n) : x ∈ l := List.mem_of_mem_take h

theorem named_sub {i : Info} {n : Bytes} {nd : Node} (h : nd ∈ i.named n) : nd ∈ i.elems := (List.mem_filter.mp h).1

theorem among_sub {i : Info} {n : Option Bytes} {p : Node → Bool} {nd : Node} (h : nd ∈ i.among n p) : nd ∈ i.elems := by
  cases n with
  | none => exact (List.mem_filter.mp (take_sub h)).1
  | some n => exact named_sub (take_sub (List.mem_filter.mp h).1)

theorem hits_sub {i : Info} {root : Bool} {n : Bytes} {nd : Node} (h : nd ∈ i.hits root n) : nd ∈ i.elems := by
  unfold Info.hits at h
  split at h
  · exact (List.mem_filter.mp h).1
  · exact named_sub h

/-- The elements a filter chooses. -/
theorem among_rep {o : Ord} {c : Bytes} {k : Info} {d t : Prop} (h : Reads o c k) (hf : Fine d t k) (n : Bytes) {ev : Elem → Bool} {p : Node → Bool}
    (hp : ∀ e nd, Rep e nd → Fine d t nd.kids → ev e = p nd) :
    All2 Rep (((namedE o n c).take maxWildcardResults).filter ev) (k.among (some n) p) ∧
    All2 Rep (((topElems o c).filter ev).take maxWildcardResults) (k.among none p) :=
  ⟨((((namedE_rep h).with (fun nd hn => hf.kids (named_sub hn))).take maxWildcardResults).filter (fun e nd hr => hp e nd hr.1 hr.2)).imp (fun _ _ hr => hr.1),
   ((All2.filter (All2.with h (fun nd hn => hf.kids hn)) (fun e nd hr => hp e nd hr.1 hr.2)).take _).imp (fun _ _ hr => hr.1)⟩

theorem hits_rep {o : Ord} {c : Bytes} {k : Info} (h : Reads o c k) (n : Bytes) :
    All2 Rep (((topElems o c).filter (fun e => e.name = n)).take maxWildcardResults) ((k.hits true n).take 1000) ∧
    All2 Rep ((namedE o n c).take maxWildcardResults) ((k.hits false n).take 1000) := by
  constructor
  · simp only [Info.hits, if_true]
    exact (All2.filter (p := fun e => decide (e.name = n)) (q := fun e => decide (e.name = n)) h (fun _ _ hr => by simp only [hr.name])).take _
  · simp only [Info.hits, Bool.false_eq_true, if_false]
    exact (namedE_rep h).take _

/-! ### going on after a move -/

section
variable {env : Env} {ev : Filter → Elem → Bool} {K : Bytes → Result} {A : Info → Answer}

theorem processFirst_move {m : Elem} {seg s : Seg} {rest : List Seg} (hs : s.kind.isMove = true) : processFirst env m seg (s :: rest) K = K m.content := by
  obtain ⟨kind, mods⟩ := s
  cases kind <;> simp [SegKind.isMove] at hs <;> rfl

theorem processAll_move {ms : List Elem} {nds : List Node} {seg s : Seg} (hm : s.mods = []) {rest : List Seg} (hs : s.kind.isMove = true)
    (h : All2 (fun e nd => Gives (K e.content) (A nd.kids)) ms nds) :
    Gives (processAll env ms seg (s :: rest) K) (pack ((nds.map (fun nd => A nd.kids)).flatMap Answer.items)) := by
  have hall : All2 Is (ms.flatMap fun m => asList (K m.content)) ((nds.map (fun nd => A nd.kids)).flatMap Answer.items) := by
    rw [List.flatMap_map]
    exact h.flatMap (fun a b hab => hab.list)
  have := pack_gives' hall
  obtain ⟨kind, mods⟩ := s
  simp only at hm; subst hm
  cases kind <;> simp [SegKind.isMove] at hs <;> exact this

theorem route_first {ms : List Elem} {nds : List Node} {seg s : Seg} {rest : List Seg} (hs : s.kind.isMove = true)
    (h : All2 (fun e nd => Gives (K e.content) (A nd.kids)) ms nds) :
    Gives (routeFilter env ms seg false (s :: rest) K) (firstAnswer ((nds.take 1).map (fun nd => A nd.kids))) := by
  cases h with
  | nil => exact rfl
  | @cons e nd es nds hr _ =>
    simp only [routeFilter, Bool.false_eq_true, if_false, List.take_succ_cons, List.take_zero, List.map_cons, List.map_nil]
    rw [processFirst_move hs]
    cases ha : A nd.kids with
    | nothing => rw [ha] at hr; exact hr
    | one x => rw [ha] at hr; exact hr
    | many xs => rw [ha] at hr; exact hr

theorem route_all {ms : List Elem} {nds : List Node} {seg s : Seg} (hm : s.mods = []) {rest : List Seg} (hs : s.kind.isMove = true)
    (h : All2 (fun e nd => Gives (K e.content) (A nd.kids)) ms nds) :
    Gives (routeFilter env ms seg true (s :: rest) K) (pack ((nds.map (fun nd => A nd.kids)).flatMap Answer.items)) := by
  have := processAll_move (env := env) (seg := seg) hm (rest := rest) hs h
  cases h with
  | nil => exact rfl
  | cons hr h => simpa only [routeFilter, if_true] using this

theorem index_move {ms : List Elem} {nds : List Node} (h : All2 Rep ms (nds.take 1000)) {i : Int} {j : Nat} (hij : i = j ∨ 1000 ≤ i ∧ 1000 ≤ j) :
    ¬ i < 0 ∧ ((ms[i.toNat]? = none ∧ (nds.take 1000)[j]? = none) ∨ ∃ e nd, ms[i.toNat]? = some e ∧ (nds.take 1000)[j]? = some nd ∧ Rep e nd) := by
  refine ⟨by omega, ?_⟩
  rcases hij with rfl | ⟨h1, h2⟩
  · simpa using h.get j
  · left
    have hl := h.length
    rw [List.length_take] at hl
    exact ⟨List.getElem?_eq_none (by omega), List.getElem?_eq_none (by rw [List.length_take]; omega)⟩

theorem wild_move {ms : List Elem} {nds : List Node} {s : Seg} (hm : s.mods = []) {rest : List Seg} (hs : s.kind.isMove = true)
    (h : All2 (fun e nd => Gives (K e.content) (A nd.kids)) ms nds) :
    Gives (handleWildcard env ms (s :: rest) K) (Move.any.join (nds.map (fun nd => A nd.kids))) := by
  have hall : All2 Is (ms.flatMap fun m => asList (K m.content)) ((nds.map (fun nd => A nd.kids)).flatMap Answer.items) := by
    rw [List.flatMap_map]
    exact h.flatMap (fun a b hab => hab.list)
  have hany : (ms.any fun m => (K m.content).typ = .array && (K m.content).results.isEmpty) = (nds.map (fun nd => A nd.kids)).any Answer.isEmptyList := by
    rw [List.any_map]
    clear hall
    induction h with
    | nil => rfl
    | cons hr _ ih => simp only [List.any_cons, ih, gives_emptyList hr, Function.comp]
  have hp := fun hne => pack_gives hall hne
  have he := hall.isEmpty
  have key : Gives (if (ms.flatMap fun m => asList (K m.content)).isEmpty = true then
      if (ms.any fun m => (K m.content).typ = .array && (K m.content).results.isEmpty) = true then .ofArray [] else .null
      else packResults (ms.flatMap fun m => asList (K m.content))) (Move.any.join (nds.map (fun nd => A nd.kids))) := by
    unfold Move.join
    simp only
    rw [hany, ← he]
    split
    · rename_i h1
      simp only [h1, Bool.true_and]
      rw [h1] at he
      split
      · exact ⟨rfl, .nil⟩
      · rw [List.isEmpty_iff.mp he.symm]; exact rfl
    · rename_i h1
      rw [if_neg (by simp [h1])]
      exact hp (by simpa using h1)
  obtain ⟨kind, mods⟩ := s
  simp only at hm; subst hm
  cases kind <;> simp [SegKind.isMove] at hs <;> exact key

end

/-! ### recursive search collecting lists -/

theorem fill_nil {α : Type} (k : Nat) : fill k ([] : List (List α)) = [] := by cases k <;> rfl

theorem fill_append {α : Type} (k : Nat) (L M : List (List α)) : fill k (L ++ M) = fill k L ++ fill (k - (fill k L).length) M := by
  induction L generalizing k with
  | nil => rw [fill_nil]; rfl
  | cons l L ih =>
    cases k with
    | zero => simp only [fill, List.nil_append, List.length_nil, Nat.zero_sub]
    | succ k =>
      simp only [List.cons_append, fill]
      rw [ih, List.append_assoc, List.length_append]
      congr 3
      omega

/-- From `st` to `st'` the search added lists of `L` until there were 1000 results. -/
structure ExtL {α : Type} (Q : Result → α → Prop) (st st' : SearchSt) (L : List (List α)) (n : Nat) : Prop where
  cost : st'.ops ≤ st.ops + n
  added : st.ops + n < 10000 → ∃ rs, st'.res = st.res ++ rs ∧ All2 Q rs (fill (1000 - st.res.length) L)

theorem ExtL.refl {α : Type} {Q : Result → α → Prop} {st : SearchSt} {c : Nat} : ExtL Q st st ([] : List (List α)) c :=
  ⟨by omega, fun _ => ⟨[], by simp, by rw [fill_nil]; exact .nil⟩⟩

theorem ExtL.full {α : Type} {Q : Result → α → Prop} {st : SearchSt} {L : List (List α)} {c : Nat} (h : 1000 ≤ st.res.length) : ExtL Q st st L c :=
  ⟨by omega, fun _ => ⟨[], by simp, by rw [Nat.sub_eq_zero_of_le h, fill]; exact .nil⟩⟩

theorem ExtL.trans {α : Type} {Q : Result → α → Prop} {a b c : SearchSt} {L M : List (List α)} {x y : Nat}
    (h1 : ExtL Q a b L x) (h2 : ExtL Q b c M y) : ExtL Q a c (L ++ M) (x + y) := by
  have c1 := h1.cost
  have c2 := h2.cost
  refine ⟨by omega, fun h => ?_⟩
  obtain ⟨rs, e1, a1⟩ := h1.added (by omega)
  obtain ⟨ts, e2, a2⟩ := h2.added (by omega)
  refine ⟨rs ++ ts, by rw [e2, e1, List.append_assoc], ?_⟩
  rw [fill_append, ← a1.length]
  rw [e1, List.length_append, Nat.sub_add_eq] at a2
  exact a1.append a2

def foundL {α : Type} (lv : Nat) (tgt : Node → Bool) (g : Node → List α) (i : Info) : List (List α) := ((i.within lv).filter tgt).map g

theorem foundL_elems {α : Type} (lv : Nat) (tgt : Node → Bool) (g : Node → List α) (i : Info) :
    foundL (lv + 1) tgt g i = i.elems.flatMap (fun nd => foundL lv tgt g nd.kids ++ ([nd].filter tgt).map g) := by
  unfold foundL
  rw [within_elems lv i]
  induction i.elems with
  | nil => rfl
  | cons e es ih => simp only [List.flatMap_cons, List.filter_append, List.map_append, ih]

theorem recLoop_extL {α : Type} {Q : Result → α → Prop} {inner : Bytes → SearchSt → SearchSt} {tgt : Elem → Bool} {emit : Elem → List Result}
    {tgt' : Node → Bool} {g : Node → List α} {lv : Nat} (ht : ∀ e nd, Rep e nd → tgt e = tgt' nd)
    {es : List Elem} {nds : List Node} (h : All2 Rep es nds)
    (hemit : ∀ e nd, nd ∈ nds → Rep e nd → All2 Q (emit e) (g nd))
    (hin : ∀ e nd, nd ∈ nds → Rep e nd → ∀ st, ExtL Q st (inner e.content st) (foundL lv tgt' g nd.kids) (1 + nd.kids.descendants.length))
    (hnil : ∀ e nd, nd ∈ nds → Rep e nd → e.content.isEmpty = true → nd.kids.elems = []) (st : SearchSt) :
    ExtL Q st (recLoop inner tgt emit es st) (nds.flatMap (fun nd => foundL lv tgt' g nd.kids ++ ([nd].filter tgt').map g))
      (nds.flatMap (fun nd => nd.kids.descendants ++ [nd])).length := by
  induction h generalizing st with
  | nil => exact ExtL.refl
  | @cons e nd es nds hr hs ih =>
    simp only [List.flatMap_cons, recLoop]
    have ih' := ih (fun a b hb => hemit a b (by simp [hb])) (fun a b hb => hin a b (by simp [hb])) (fun a b hb => hnil a b (by simp [hb]))
    have key : ExtL Q st (if (!e.selfClosing && !e.content.isEmpty) = true then inner e.content st else st) (foundL lv tgt' g nd.kids) (1 + nd.kids.descendants.length) := by
      split
      · exact hin e nd (by simp) hr st
      · rename_i hc
        have hemp : e.content.isEmpty = true := by
          cases hsf : e.selfClosing with
          | true => rw [hr.self hsf]; rfl
          | false => rw [hsf] at hc; simpa using hc
        rw [foundL, within_none lv (hnil e nd (by simp) hr hemp)]; exact ExtL.refl
    generalize (if (!e.selfClosing && !e.content.isEmpty) = true then inner e.content st else st) = st1 at key
    have mid : ∀ st', (ExtL Q st1 st' (([nd].filter tgt').map g ++ nds.flatMap (fun nd => foundL lv tgt' g nd.kids ++ ([nd].filter tgt').map g))
        (nds.flatMap (fun nd => nd.kids.descendants ++ [nd])).length) →
        ExtL Q st st' (foundL lv tgt' g nd.kids ++ ([nd].filter tgt').map g ++ nds.flatMap (fun nd => foundL lv tgt' g nd.kids ++ ([nd].filter tgt').map g))
          (nd.kids.descendants ++ [nd] ++ nds.flatMap (fun nd => nd.kids.descendants ++ [nd])).length := by
      intro st' hx
      have := key.trans hx
      rw [List.append_assoc]
      have e : 1 + nd.kids.descendants.length + (nds.flatMap (fun nd => nd.kids.descendants ++ [nd])).length =
          (nd.kids.descendants ++ [nd] ++ nds.flatMap (fun nd => nd.kids.descendants ++ [nd])).length := by
        simp only [List.length_append, List.length_singleton]; omega
      rw [← e]; exact this
    by_cases hops : maxRecursiveOperations ≤ st1.ops
    · rw [if_pos hops]
      have : maxRecursiveOperations = 10000 := rfl
      have := key.cost
      refine ⟨by simp only [List.length_append, List.length_singleton] at *; omega, fun hlt => ?_⟩
      simp only [List.length_append, List.length_singleton] at *; omega
    apply mid
    rw [if_neg hops]
    split
    · rename_i htg
      have htn : tgt' nd = true := by rw [← ht e nd hr]; exact htg
      split
      · rename_i hfull
        exact ExtL.full hfull
      · rename_i hfull
        have step : ExtL Q st1 { st1 with res := st1.res ++ emit e } (([nd].filter tgt').map g) 0 := by
          refine ⟨Nat.le_refl _, fun _ => ⟨emit e, rfl, ?_⟩⟩
          simp only [List.filter_cons, htn, if_true, List.filter_nil, List.map_cons, List.map_nil]
          have : maxWildcardResults = 1000 := rfl
          obtain ⟨k, hk⟩ : ∃ k, 1000 - st1.res.length = k + 1 := ⟨999 - st1.res.length, by omega⟩
          rw [hk, fill, fill_nil, List.append_nil]
          exact hemit e nd (by simp) hr
        have := step.trans (ih' { st1 with res := st1.res ++ emit e })
        rw [Nat.zero_add] at this
        exact this
    · rename_i htg
      have htn : tgt' nd = false := by rw [← ht e nd hr]; simpa using htg
      have e : [nd].filter tgt' = [] := by simp [htn]
      rw [e]
      exact ih' st1

theorem recSearch_extL {α : Type} {Q : Result → α → Prop} {o : Ord} (ho : o.IsPerm) {tgt : Elem → Bool} {emit : Elem → List Result}
    {tgt' : Node → Bool} {g : Node → List α} (ht : ∀ e nd, Rep e nd → tgt e = tgt' nd) (F : Info → Prop)
    (hF : ∀ k, F k → ∀ nd ∈ k.elems, F nd.kids) (hemit : ∀ k, F k → ∀ e, ∀ nd ∈ k.elems, Rep e nd → All2 Q (emit e) (g nd)) (n : Nat)
    {xml : Bytes} {i : Info} (hi : F i) (h : Reads o xml i) (st : SearchSt) :
    ExtL Q st (recSearch o tgt emit n xml st) (foundL n tgt' g i) (1 + i.descendants.length) := by
  induction n generalizing xml i st with
  | zero =>
    rw [recSearch, foundL, within_zero]
    exact ⟨by simp, fun _ => ⟨[], by simp, by simp [fill_nil]; exact .nil⟩⟩
  | succ n ih =>
    rw [recSearch]
    split
    · rename_i hc
      simp only [Bool.or_eq_true, decide_eq_true_eq] at hc
      have : maxRecursiveOperations = 10000 := rfl
      have : maxWildcardResults = 1000 := rfl
      refine ⟨by simp, fun hlt => ⟨[], by simp, ?_⟩⟩
      rw [Nat.sub_eq_zero_of_le (by omega), fill]; exact .nil
    · have h0 : ExtL Q st { st with ops := st.ops + 1 } ([] : List (List α)) 1 :=
        ⟨by simp, fun _ => ⟨[], by simp, by rw [fill_nil]; exact .nil⟩⟩
      have h1 := recLoop_extL (inner := recSearch o tgt emit n) ht h (fun e nd hnd hr => hemit i hi e nd hnd hr) (fun e nd hnd hr st' =>
          ih (hF i hi nd hnd) (writes_reads ho hr.content) st')
        (fun e nd _ hr hemp => by
          have hw := writes_reads ho hr.content
          rw [List.isEmpty_iff.mp hemp, Reads, topElems_nil] at hw
          generalize nd.kids.elems = l at hw
          cases hw; rfl)
        { st with ops := st.ops + 1 }
      rw [← foundL_elems, ← descendants_elems] at h1
      exact h0.trans h1

/-- The recursive step. -/
theorem rec_gives {env : Env} (ho : env.ord.IsPerm) {K : Bytes → Result} {s : Seg} {rest : List Seg} {g : Node → List Item} {d t : Prop} (hd : d)
    (hemit : ∀ e nd, Rep e nd → Fine d t nd.kids → All2 Is (recEmit env rest K e) (g nd)) {c : Bytes} {k : Info} (h : Reads env.ord c k) (hk : Fine d t k) :
    Gives (handleRecursive env (s :: rest) K c) (pack (fill 1000 (((k.within 101).filter (fun nd => s.matches nd.name)).map g))) := by
  have h2 := hk.deep hd
  have hx := recSearch_extL (Q := Is) (tgt := fun e => s.matches e.name) (tgt' := fun nd => s.matches nd.name) ho (fun e nd hr => by simp only [hr.name])
    (Fine d t) (fun _ hk nd hn => hk.kids hn) (fun _ hk e nd hn hr => hemit e nd hr (hk.kids hn)) (maxNestingDepth + 1) hk h ⟨0, []⟩
  obtain ⟨rs, e, ha⟩ := hx.added (by simp only; omega)
  simp only [List.nil_append, List.length_nil, Nat.sub_zero] at e ha
  have := pack_gives' ha
  simp only [handleRecursive, e]
  cases rs with
  | nil => exact this
  | cons r rs => exact this

/-! ### the goal after the last move -/

/-- Field names a path can spell. -/
def Spec.Goal.Ok : Goal → Prop
  | .fieldElem f => f ≠ [] ∧ f.head? ≠ some c!"@" ∧ f ≠ b!"%"
  | _ => True

/-- The field of a goal. -/
def goalField : Goal → Bytes
  | .fieldElem f => f
  | .fieldAttr a => c!"@" :: a
  | .fieldText => b!"%"
  | _ => []

theorem goalSegs_field {g : Goal} (h : g.isField = true) : goalSegs g = [⟨.field (goalField g), []⟩] := by
  cases g <;> simp [Goal.isField] at h <;> rfl

theorem is_attrs {e : Elem} {nd : Node} (h : Rep e nd) (a : Bytes) :
    All2 Is (match Attrs.get? a e.attrs with | some v => [.ofAttr v] | none => []) ((Goal.attr a).items nd) := by
  simp only [Goal.items]
  rw [h.attr]
  cases nd.attr a with
  | none => exact .nil
  | some v => exact .cons rfl .nil

theorem field_vals {o : Ord} (ho : o.IsPerm) {g : Goal} (hg : g.isField = true) (hok : g.Ok) {e : Elem} {nd : Node} (h : Rep e nd) (ht : g = .fieldText → nd.kids.Quiet) :
    All2 Is (fieldValues o (goalField g) e) (g.items nd) := by
  cases g with
  | fieldElem f =>
    have := fieldValues_elem ho f hok.2.1 hok.2.2 e nd h
    have h2 := All2.map (S := Is) (f := id) (g := Item.elem) this (fun a b hab => hab.spec)
    simpa [Goal.items, goalField] using h2
  | fieldAttr a =>
    have := fieldValues_attr o a e nd h
    have h2 := All2.map (S := Is) (f := id) (g := Item.attr) this (fun a b hab => hab)
    simpa [Goal.items, goalField] using h2
  | fieldText =>
    simp only [goalField, Goal.items]
    unfold fieldValues
    rw [if_neg (by simp [hasPrefix, List.isPrefixOf]), if_pos rfl]
    have hw := writes_direct_raw h.content (ht rfl)
    simp only [hw]
    by_cases h1 : trimSpace nd.kids.ownText = []
    · rw [if_pos (by simpa using h1), if_pos h1]; exact .nil
    · rw [if_neg (by simpa using h1), if_neg h1]
      refine .cons ?_ .nil
      have := ofText_is h.content
      refine ⟨rfl, fun hn => ?_, rfl⟩
      rw [← this.str hn, Result.toStr_ne _ (by simp [Result.typ]) (by simp [Result.typ]), Result.toStr_ne _ (by simp) (by simp)]
      simp [Result.ofText, Result.str, hw]
  | _ => simp [Goal.isField] at hg

theorem goalField_ne {g : Goal} (hg : g.isField = true) (hok : g.Ok) : goalField g ≠ [] := by
  cases g with
  | fieldElem f => exact hok.1
  | fieldAttr a => simp [goalField]
  | fieldText => simp [goalField]
  | _ => simp [Goal.isField] at hg

theorem field_gives {env : Env} (ho : env.ord.IsPerm) {g : Goal} (hg : g.isField = true) (hok : g.Ok) {ms : List Elem} {nds : List Node}
    (h : All2 Rep ms nds) (ht : g = .fieldText → ∀ nd ∈ nds, nd.kids.Quiet) :
    Gives (fieldExtraction env ms (goalField g) []) (.many ((nds.flatMap (fun nd => g.items nd)).take 1000)) := by
  have := fieldExtraction_is (Q := Is) env (goalField g) (goalField_ne hg hok) h (vals := fun nd => g.items nd)
    (fun e nd hr hn => field_vals ho hg hok hr (fun h => ht h nd hn))
  exact this.1

section
variable {env : Env} {ev : Filter → Elem → Bool} {g : Goal}

/-- What an element contributes when the goal is not a field and not a count. -/
theorem goal_one {e : Elem} {nd : Node} (h : Rep e nd) : Gives (match g with
    | .attr a => (match Attrs.get? a e.attrs with | some v => .ofAttr v | none => .null)
    | .text => .ofText e.content
    | .elem => .ofContent e.content
    | _ => .null) (if g.isField then .nothing else pack (g.items nd)) := by
  cases g with
  | elem => exact is_elem h
  | text => exact is_text h
  | attr a =>
    simp only [Goal.isField, Goal.items, Bool.false_eq_true, if_false]
    rw [h.attr]
    cases nd.attr a with
    | none => exact rfl
    | some v => exact rfl
  | _ => exact rfl

theorem route_first_goal (ho : env.ord.IsPerm) (hok : g.Ok) {ms : List Elem} {nds : List Node} {s : Seg} (hm : s.mods = []) (h : All2 Rep ms nds) (ht : g = .fieldText → ∀ nd ∈ nds, nd.kids.Quiet) :
    Gives (routeFilter env ms s false (goalSegs g) (execQ env ev (goalSegs g) false))
      (if (nds.take 1).isEmpty then .nothing else if g.isField then .many (((nds.take 1).flatMap (fun nd => g.items nd)).take 1000)
       else pack ((nds.take 1).flatMap (fun nd => g.items nd))) := by
  cases h with
  | nil => exact rfl
  | @cons e nd es nds hr _ =>
    simp only [routeFilter, Bool.false_eq_true, if_false, List.take_succ_cons, List.take_zero, List.isEmpty_cons]
    have h1 := fun hg => field_gives (g := g) ho hg hok (All2.cons hr .nil) (fun h x hx => ht h x (by simp at hx; simp [hx]))
    have h2 := goal_one (g := g) hr
    have h3 : [nd].flatMap (fun nd => g.items nd) = g.items nd := by simp
    by_cases hf : g.isField = true
    · rw [goalSegs_field hf, if_pos hf]
      exact h1 hf
    · rw [if_neg hf] at h2 ⊢
      rw [h3]
      cases g with
      | elem => simp only [goalSegs, processFirst, hm, runMods_nil]; exact h2
      | text => simp only [goalSegs, processFirst, runMods_nil]; exact h2
      | attr a => simp only [goalSegs, processFirst, runMods_nil]; exact h2
      | count => exact rfl
      | _ => simp [Goal.isField] at hf

theorem route_all_goal (ho : env.ord.IsPerm) (hok : g.Ok) {ms : List Elem} {nds : List Node} {s : Seg} (hm : s.mods = []) (h : All2 Rep ms nds)
    (ht : g = .fieldText → ∀ nd ∈ nds, nd.kids.Quiet) :
    Gives (routeFilter env ms s true (goalSegs g) (execQ env ev (goalSegs g) false))
      (if nds.isEmpty then .nothing else if g.isField then .many ((nds.flatMap (fun nd => g.items nd)).take 1000) else g.listed nds) := by
  have h1 := fun hg => field_gives (env := env) (g := g) ho hg hok h ht
  have hall := fun f (hf : ∀ e nd, Rep e nd → All2 Is (f e) (g.items nd)) => pack_gives' (h.flatMap (f := f) (g := fun nd => g.items nd) (fun a b hab => hf a b hab))
  have hel := All2.map (S := Is) (f := fun e : Elem => Result.ofContent e.content) (g := Item.elem) h (fun a b hab => is_elem hab)
  have he := h.isEmpty
  have e : routeFilter env ms s true (goalSegs g) (execQ env ev (goalSegs g) false) =
      if ms.isEmpty then .null else processAll env ms s (goalSegs g) (execQ env ev (goalSegs g) false) := by
    cases ms <;> rfl
  rw [e, ← he]
  split
  · exact rfl
  by_cases hf : g.isField = true
  · rw [goalSegs_field hf, if_pos hf]; exact h1 hf
  · rw [if_neg hf]
    cases g with
    | elem => simp only [goalSegs, processAll, hm, runMods_nil]; exact ⟨rfl, hel⟩
    | text => simp only [goalSegs, processAll, runMods_nil]; exact hall _ (fun e nd hr => .cons (is_text hr) .nil)
    | attr a => simp only [goalSegs, processAll, runMods_nil]; exact hall _ (fun e nd hr => is_attrs hr a)
    | count =>
      simp only [goalSegs, processAll, runMods_nil]
      exact hall _ (fun e nd hr => by rw [execQ]; exact .nil)
    | _ => simp [Goal.isField] at hf

theorem any_off (all : List Result) (b : Bool) (a : Answer) (hb : b = false) (h : Gives (if all.isEmpty then .null else packResults all) a) :
    Gives (if all.isEmpty then (if b then .ofArray [] else .null) else packResults all) a := by
  subst hb; simpa using h

theorem wild_goal {ms : List Elem} {nds : List Node} (h : All2 Rep ms nds) :
    Gives (if ms.isEmpty then .null else handleWildcard env ms (goalSegs g) (execQ env ev (goalSegs g) false))
      (if nds.isEmpty then .nothing else if g.isField then .many [] else pack (nds.flatMap (fun nd => g.items nd))) := by
  have he := h.isEmpty
  by_cases hne : ms.isEmpty = true
  · rw [← he, hne]; exact rfl
  rw [← he, if_neg hne, if_neg hne]
  have hall := fun f (hf : ∀ e nd, Rep e nd → All2 Is (f e) (g.items nd)) => pack_gives' (h.flatMap (f := f) (g := fun nd => g.items nd) (fun a b hab => hf a b hab))
  have hel := All2.map (S := Is) (f := fun e : Elem => Result.ofContent e.content) (g := Item.elem) h (fun a b hab => is_elem hab)
  by_cases hf : g.isField = true
  · rw [goalSegs_field hf, if_pos hf]
    have e1 : (ms.flatMap fun m => asList (execQ env ev [⟨.field (goalField g), []⟩] false m.content)) = [] := by
      rw [List.flatMap_eq_nil_iff]
      intro m _
      rw [execQ]; rfl
    have e2 : (ms.any fun m => (execQ env ev [⟨.field (goalField g), []⟩] false m.content).typ = .array && (execQ env ev [⟨.field (goalField g), []⟩] false m.content).results.isEmpty) = true := by
      cases ms with
      | nil => exact absurd rfl hne
      | cons m ms => simp only [execQ, execBody, List.any_cons]; rfl
    simp only [handleWildcard, e1, e2]
    exact ⟨rfl, .nil⟩
  · rw [if_neg hf]
    cases g with
    | elem =>
      simp only [goalSegs, handleWildcard, Goal.items]
      have e : nds.flatMap (fun nd => [Item.elem nd]) = nds.map .elem := by
        clear h he hall hel
        induction nds with
        | nil => rfl
        | cons a l ih => simp [List.flatMap_cons, ih]
      rw [e]
      exact pack_gives hel (by simpa using hne)
    | text =>
      exact any_off _ _ _ (by simp) (hall _ (fun e nd hr => .cons (is_text hr) .nil))
    | attr a =>
      simp only [goalSegs, handleWildcard, runMods_nil]
      refine any_off _ _ _ (by simp) (hall _ (fun e nd hr => ?_))
      simp only [Goal.items]
      rw [hr.attr]
      cases nd.attr a with
      | none => exact .nil
      | some v => exact .cons rfl .nil
    | count =>
      have hq : ∀ c, execQ env ev [⟨.count, []⟩] false c = .null := fun c => by rw [execQ]; rfl
      simp only [goalSegs, handleWildcard, runMods_nil, hq]
      refine any_off _ _ _ ?_ (hall _ (fun e nd hr => .nil))
      rw [List.any_eq_false]
      intro m _
      exact Bool.false_ne_true
    | _ => simp [Goal.isField] at hf

theorem emit_goal (ho : env.ord.IsPerm) (hok : g.Ok) {e : Elem} {nd : Node} (h : Rep e nd) (ht : g = .fieldText → nd.kids.Quiet) :
    All2 Is (recEmit env (goalSegs g) (execQ env ev (goalSegs g) false) e) ((g.items nd).take 1000) := by
  by_cases hf : g.isField = true
  · have := field_gives (env := env) ho hf hok (All2.cons h .nil) (fun hg x hx => by simp at hx; subst hx; exact ht hg)
    rw [goalSegs_field hf]
    simp only [recEmit]
    rw [if_pos this.1]
    simpa using this.2
  · cases g with
    | elem => exact .cons (is_elem h) .nil
    | text => exact .cons (is_text h) .nil
    | attr a =>
      simp only [goalSegs, recEmit, Goal.items]
      rw [h.attr]
      cases nd.attr a with
      | none => exact .nil
      | some v => exact .cons rfl .nil
    | count => simp only [goalSegs, recEmit]; rw [execQ]; exact .nil
    | _ => simp [Goal.isField] at hf

end

/-! ### an index -/

/-- What follows an index. -/
def idxAt (root : Bool) (R : List Seg) (K : Bytes → Result) (m : Elem) : Result :=
  match R with
  | [] => .ofContent m.content
  | s :: _ =>
    match s.kind with
    | .attr a => (match Attrs.get? a m.attrs with | some v => .ofAttr v | none => .null)
    | .text => if root then .ofText m.content else K m.content
    | _ => K m.content

theorem exec_nth (env : Env) (ev : Filter → Elem → Bool) (n : Bytes) {i : Int} {j : Nat} (hij : i = j ∨ 1000 ≤ i ∧ 1000 ≤ j) (R : List Seg)
    (hR : ∀ s ∈ R, s.mods = []) (root : Bool) {c : Bytes} {k : Info} (h : Reads env.ord c k) :
    (execQ env ev (nameSeg n :: ⟨.index i, []⟩ :: R) root c = .null ∧ (Move.nth n j).nodes root k = []) ∨
    ∃ e nd, Rep e nd ∧ (Move.nth n j).nodes root k = [nd] ∧ nd ∈ k.elems ∧
      execQ env ev (nameSeg n :: ⟨.index i, []⟩ :: R) root c = idxAt root R (execQ env ev R false) e := by
  obtain ⟨h1, h2⟩ := hits_rep h n
  rw [execQ]
  simp only [Move.nodes]
  cases root with
  | false =>
    simp only [execBody, nameSeg, isFragmentQuery, Bool.false_and, Bool.false_eq_true, if_false, execElem]
    rw [namedE_filter]
    obtain ⟨hi, hc⟩ := index_move h2 hij
    simp only [arrayOp, hi, if_false]
    rcases hc with ⟨e1, e2⟩ | ⟨e, nd, e1, e2, hr⟩
    · left
      rw [e1, e2]
      exact ⟨by split <;> rfl, rfl⟩
    · right
      refine ⟨e, nd, hr, by rw [e2]; rfl, hits_sub (root := false) (take_sub (List.mem_of_getElem? e2)), ?_⟩
      rw [e1]
      have hne : ((namedE env.ord n c).take maxWildcardResults).isEmpty = false := by
        cases hl : (namedE env.ord n c).take maxWildcardResults with
        | nil => rw [hl] at e1; simp at e1
        | cons a l => rfl
      rw [hne]
      simp only [Bool.false_eq_true, if_false]
      cases R with
      | nil => simp only [idxAt, runMods_nil]
      | cons s R =>
        obtain ⟨kind, mods⟩ := s
        have : mods = [] := hR ⟨kind, mods⟩ (by simp)
        subst this
        cases kind with
        | attr a => simp only [idxAt, runMods_nil, ite_self]; cases Attrs.get? a e.attrs <;> rfl
        | _ => simp only [idxAt, Bool.false_eq_true, if_false]
  | true =>
    simp only [execBody, nameSeg, isFragmentQuery, SegKind.isRootOp, Bool.and_self, if_true]
    obtain ⟨hi, hc⟩ := index_move h1 hij
    simp only [fragmentRoots, hi, if_false]
    rcases hc with ⟨e1, e2⟩ | ⟨e, nd, e1, e2, hr⟩
    · left
      rw [e1, e2]
      exact ⟨by split <;> rfl, rfl⟩
    · right
      refine ⟨e, nd, hr, by rw [e2]; rfl, hits_sub (root := true) (take_sub (List.mem_of_getElem? e2)), ?_⟩
      rw [e1]
      have hne : (((topElems env.ord c).filter (fun e => decide (e.name = n))).take maxWildcardResults).isEmpty = false := by
        cases hl : ((topElems env.ord c).filter (fun e => decide (e.name = n))).take maxWildcardResults with
        | nil => rw [hl] at e1; simp at e1
        | cons a l => rfl
      rw [hne]
      simp only [Bool.false_eq_true, if_false]
      cases R with
      | nil => rfl
      | cons s R =>
        obtain ⟨kind, mods⟩ := s
        cases kind <;> rfl

/-! ### whole paths -/

theorem goalSegs_mods (g : Goal) : ∀ s ∈ goalSegs g, s.mods = [] := by
  cases g <;> simp [goalSegs]

theorem moveSegs_head {d t : Prop} {ev : Filter → Elem → Bool} {S : List Seg} {m : Move} (h : MoveSegs d t ev S m) :
    ∃ s S', S = s :: S' ∧ s.kind.isMove = true ∧ s.mods = [] ∧ (m.Free → s.kind.isStep = true) ∧ ∀ x ∈ S', x.mods = [] := by
  cases h <;> refine ⟨_, _, rfl, rfl, rfl, ?_, ?_⟩ <;> simp [Move.Free, SegKind.isStep, nameSeg]

section
variable {env : Env} {ev : Filter → Elem → Bool} {d t : Prop}

theorem below {es : List Elem} {nds : List Node} {K : Bytes → Result} {A : Info → Answer} {k : Info} (ho : env.ord.IsPerm) (hf : Fine d t k)
    (h : All2 Rep es nds) (hs : ∀ nd ∈ nds, nd ∈ k.elems) (hK : ∀ c k, Reads env.ord c k → Fine d t k → Gives (K c) (A k)) :
    All2 (fun e nd => Gives (K e.content) (A nd.kids)) es nds :=
  (h.with hs).imp (fun _ _ hab => hK _ _ (writes_reads ho hab.1.content) (hf.kids hab.2))

theorem firstAnswer_one (a : Answer) : firstAnswer [a] = a := by cases a <;> rfl

theorem move_join (ho : env.ord.IsPerm) {S : List Seg} {m : Move} (hm : MoveSegs d t ev S m) {s : Seg} {R : List Seg} (hs : s.kind.isMove = true)
    (hR : ∀ x ∈ s :: R, x.mods = []) (hfree : (∃ x, m = .name x) → s.kind.isStep = true) {A : Info → Answer}
    (hK : ∀ c k, Reads env.ord c k → Fine d t k → Gives (execQ env ev (s :: R) false c) (A k)) (hd : (∃ n, m = .deep n) → d)
    (root : Bool) {c : Bytes} {k : Info} (h : Reads env.ord c k) (hf : Fine d t k) :
    Gives (execQ env ev (S ++ s :: R) root c) (m.join ((m.nodes root k).map (fun nd => A nd.kids))) := by
  have hsm : s.mods = [] := hR s (by simp)
  cases hm with
  | name n =>
    rw [List.singleton_append, exec_step env ev n s R root c (hfree ⟨n, rfl⟩)]
    exact firstSome_gives (A := fun nd => A nd.kids) (below ho hf (namedE_rep h) (fun _ => named_sub) hK)
  | nth n j i hij =>
    rcases exec_nth env ev n hij (s :: R) hR root h with ⟨e1, e2⟩ | ⟨e, nd, hr, e2, hn, e1⟩
    · simp only [List.cons_append, List.nil_append, e1, e2]; exact rfl
    · simp only [List.cons_append, List.nil_append, e1, e2, List.map_cons, List.map_nil, Move.join, firstAnswer_one]
      have := hK _ _ (writes_reads ho hr.content) (hf.kids hn)
      obtain ⟨kind, mods⟩ := s
      cases kind <;> simp [SegKind.isMove] at hs <;> exact this
  | sat n f p hp =>
    have := route_first (env := env) (seg := ⟨.filter f false, []⟩) (rest := R) hs (below ho hf (among_rep h hf n hp).1 (fun _ => among_sub (n := some n)) hK)
    simp only [List.cons_append, List.nil_append, execQ]
    simp only [execBody, nameSeg, isFragmentQuery, SegKind.isRootOp, Bool.and_false, Bool.false_eq_true, if_false, execElem]
    rw [namedE_filter]
    exact this
  | satF f p hp =>
    have := route_first (env := env) (seg := ⟨.filter f false, []⟩) (rest := R) hs (below ho hf (among_rep h hf [] hp).2 (fun _ => among_sub (n := none)) hK)
    simp only [List.cons_append, List.nil_append, execQ]
    simp only [execBody]
    exact this
  | satAll n f p hp =>
    have := route_all (env := env) (seg := ⟨.filter f true, []⟩) hsm (rest := R) hs (below ho hf (among_rep h hf n hp).1 (fun _ => among_sub (n := some n)) hK)
    simp only [List.cons_append, List.nil_append, execQ]
    simp only [execBody, nameSeg, isFragmentQuery, SegKind.isRootOp, Bool.and_false, Bool.false_eq_true, if_false, execElem]
    rw [namedE_filter]
    exact this
  | satAllF f p hp =>
    have := route_all (env := env) (seg := ⟨.filter f true, []⟩) hsm (rest := R) hs (below ho hf (among_rep h hf [] hp).2 (fun _ => among_sub (n := none)) hK)
    simp only [List.cons_append, List.nil_append, execQ]
    simp only [execBody]
    exact this
  | any =>
    have hl := All2.take h 1000
    have := wild_move (env := env) hsm (rest := R) hs (below ho hf hl (fun _ => take_sub) hK)
    simp only [List.cons_append, List.nil_append, execQ]
    simp only [execBody, List.isEmpty_cons, Bool.false_eq_true, if_false]
    have he := hl.isEmpty
    split
    · rename_i h1
      rw [maxWild, he] at h1
      simp only [Move.nodes]
      rw [List.isEmpty_iff.mp h1]
      exact rfl
    · exact this
  | deep n =>
    simp only [List.cons_append, List.nil_append, execQ]
    have := rec_gives ho (K := execQ env ev (s :: R) false) (s := nameSeg n) (rest := s :: R) (g := fun nd => (A nd.kids).items) (hd ⟨_, rfl⟩)
      (fun e nd hr hk => by
        have := (hK _ _ (writes_reads ho hr.content) hk).list
        obtain ⟨kind, mods⟩ := s
        cases kind <;> simp [SegKind.isMove] at hs <;> exact this) h hf
    simp only [Move.join, Move.nodes, List.map_map]
    exact this
  | deepAny b =>
    simp only [List.cons_append, List.nil_append, execQ]
    have := rec_gives ho (K := execQ env ev (s :: R) false) (s := ⟨.wild b, []⟩) (rest := s :: R) (g := fun nd => (A nd.kids).items) (hd ⟨_, rfl⟩)
      (fun e nd hr hk => by
        have := (hK _ _ (writes_reads ho hr.content) hk).list
        obtain ⟨kind, mods⟩ := s
        cases kind <;> simp [SegKind.isMove] at hs <;> exact this) h hf
    have e : (k.within 101).filter (fun nd => Seg.matches ⟨.wild b, []⟩ nd.name) = k.within 101 := List.filter_eq_self.mpr (fun _ _ => rfl)
    rw [e] at this
    simp only [Move.join, Move.nodes, List.map_map]
    exact this

theorem deep_goal (ho : env.ord.IsPerm) {g : Goal} (hok : g.Ok) {s : Seg} (hd : d) (ht : g = .fieldText → t) {c : Bytes} {k : Info} (h : Reads env.ord c k) (hf : Fine d t k) (root : Bool) :
    Gives (execQ env ev (⟨.wild true, []⟩ :: s :: goalSegs g) root c) (pack (fill 1000 (((k.within 101).filter (fun nd => s.matches nd.name)).map (fun nd => (g.items nd).take 1000)))) := by
  rw [execQ]
  exact rec_gives ho (K := execQ env ev (goalSegs g) false) (s := s) (rest := goalSegs g) hd
    (fun e nd hr hk => emit_goal ho hok hr (fun hg => hk.text (ht hg))) h hf

theorem exec_filter (f : Filter) (all : Bool) (R : List Seg) (root : Bool) (c : Bytes) :
    execQ env ev (⟨.filter f all, []⟩ :: R) root c =
      routeFilter env (((topElems env.ord c).filter (ev f)).take maxWildcardResults) ⟨.filter f all, []⟩ all R (execQ env ev R false) := by
  cases R with
  | nil =>
    rw [execQ]
    simp only [execBody]
    cases ((topElems env.ord c).filter (ev f)).take maxWildcardResults with
    | nil => rfl
    | cons a l => cases all <;> rfl
  | cons s R => rw [execQ]; rfl

theorem exec_name_filter (n : Bytes) (f : Filter) (all : Bool) (R : List Seg) (root : Bool) (c : Bytes) :
    execQ env ev (nameSeg n :: ⟨.filter f all, []⟩ :: R) root c =
      routeFilter env (((namedE env.ord n c).take maxWildcardResults).filter (ev f)) ⟨.filter f all, []⟩ all R (execQ env ev R false) := by
  rw [execQ]
  simp only [execBody, nameSeg, isFragmentQuery, SegKind.isRootOp, Bool.and_false, Bool.false_eq_true, if_false, execElem]
  rw [namedE_filter]

theorem exec_wild (R : List Seg) (root : Bool) (c : Bytes) :
    execQ env ev (⟨.wild false, []⟩ :: R) root c =
      if ((topElems env.ord c).take maxWildcardResults).isEmpty then .null else handleWildcard env ((topElems env.ord c).take maxWildcardResults) R (execQ env ev R false) := by
  cases R with
  | nil => rw [execQ]; simp only [execBody, List.isEmpty_nil, if_true, runMods_nil]; rfl
  | cons s R => rw [execQ]; simp only [execBody, List.isEmpty_cons, Bool.false_eq_true, if_false]

theorem yields_one {α : Type} {Q : Result → α → Prop} {f : α → Item} (hq : ∀ r a, Q r a → Is r (f a)) {r : Result} {o : Option α} (h : Yields Q r o) :
    Gives r (pack (o.toList.map f)) := by
  cases o with
  | none => exact h
  | some a => exact hq _ _ h.2

theorem name_goal (ho : env.ord.IsPerm) {g : Goal} (hok : g.Ok) (n : Bytes) (ht : g = .fieldText → t) (root : Bool) {c : Bytes} {k : Info} (h : Reads env.ord c k) (hf : Fine d t k) :
    Gives (execQ env ev (nameSeg n :: goalSegs g) root c) ((Move.name n).last root k g) := by
  have hh : ∀ o : List Node, (o.take 1) = o.head?.toList := by intro o; cases o <;> rfl
  by_cases hg : g.isField = true
  · have := step_field (Q := Is) env ev n (goalField g) (goalField_ne hg hok) root h (vals := fun nd => g.items nd)
      (fun e nd hr hn => field_vals ho hg hok hr (fun e => (hf.kids hn).text (ht e)))
    rw [goalSegs_field hg]
    have e : (Move.name n).last root k g =
        if root && (k.hits root n).isEmpty then .nothing else .many ((((k.hits root n).take 1000).flatMap (fun nd => g.items nd)).take 1000) := by
      cases g <;> simp [Goal.isField] at hg <;> rfl
    rw [e]
    split
    · rename_i hc
      rw [hc] at this; exact this
    · rename_i hc
      rw [if_neg hc] at this; exact this.2
  · cases g with
    | elem =>
      have := yields_one (f := Item.elem) (fun r a h => IsElementW.spec h) (step_elem env ev n root h)
      cases hl : (k.named n).head? <;> simpa [Move.last, Goal.isField, Goal.items, hh, goalSegs, hl] using this
    | text =>
      have := yields_one (f := Item.text) (fun r a h => h) (step_text env ev n root h)
      cases hl : (k.named n).head? <;> simpa [Move.last, Goal.isField, Goal.items, hh, goalSegs, hl] using this
    | attr a =>
      have := yields_one (f := Item.attr) (fun r a h => h) (step_attr env ev n a root h)
      cases hl : (k.named n).head? <;> simpa [Move.last, Goal.isField, Goal.items, hh, goalSegs, hl] using this
    | count =>
      have := step_count env ev n root h
      simp only [Move.last, goalSegs]
      split
      · rename_i hc; rw [hc] at this; exact this
      · rename_i hc; rw [if_neg hc] at this; exact this.2
    | _ => simp [Goal.isField] at hg

theorem move_last (ho : env.ord.IsPerm) {S : List Seg} {m : Move} (hm : MoveSegs d t ev S m) {g : Goal} (hok : g.Ok) (hd : (∃ n, m = .deep n) → d) (ht : g = .fieldText → t)
    (root : Bool) {c : Bytes} {k : Info} (h : Reads env.ord c k) (hf : Fine d t k) :
    Gives (execQ env ev (S ++ goalSegs g) root c) (m.last root k g) := by
  have hsub : ∀ nds : List Node, (∀ nd ∈ nds, nd ∈ k.elems) → g = .fieldText → ∀ nd ∈ nds, nd.kids.Quiet :=
    fun nds hs hg nd hn => (hf.kids (hs nd hn)).text (ht hg)
  cases hm with
  | name n => exact name_goal ho hok n ht root h hf
  | nth n j i hij =>
    have e : (Move.nth n j).last root k g = if ((Move.nth n j).nodes root k).isEmpty then .nothing else if g.isField then .many []
        else if (match g with | .text => !root | _ => false) then .nothing else pack (((Move.nth n j).nodes root k).flatMap (fun nd => g.items nd)) := by
      cases g <;> cases root <;> simp [Move.last, Goal.isField, Move.collects]
    rw [e]
    rcases exec_nth env ev n hij (goalSegs g) (goalSegs_mods g) root h with ⟨e1, e2⟩ | ⟨e, nd, hr, e2, hn, e1⟩
    · simp only [List.cons_append, List.nil_append, e1, e2]; exact rfl
    · simp only [List.cons_append, List.nil_append, e1, e2, List.isEmpty_cons, Bool.false_eq_true, if_false, List.flatMap_cons, List.flatMap_nil, List.append_nil]
      have h2 := goal_one (g := g) hr
      by_cases hg : g.isField = true
      · rw [if_pos hg, goalSegs_field hg]
        simp only [idxAt]
        rw [execQ]; exact ⟨rfl, .nil⟩
      · rw [if_neg hg] at h2 ⊢
        cases g with
        | elem => exact h2
        | text =>
          cases root with
          | true => exact h2
          | false => simp only [goalSegs, idxAt]; rw [execQ]; exact rfl
        | attr a => exact h2
        | count => simp only [goalSegs, idxAt]; rw [execQ]; exact h2
        | _ => simp [Goal.isField] at hg
  | sat n f p hp =>
    simp only [List.cons_append, List.nil_append, exec_name_filter]
    have := route_first_goal (env := env) (ev := ev) (s := ⟨.filter f false, []⟩) ho hok rfl (among_rep h hf n hp).1 (hsub _ (fun _ => among_sub (n := some n)))
    cases g <;> simpa [Move.last, Move.nodes, Move.collects, Goal.isField] using this
  | satF f p hp =>
    simp only [List.cons_append, List.nil_append, exec_filter]
    have := route_first_goal (env := env) (ev := ev) (s := ⟨.filter f false, []⟩) ho hok rfl (among_rep h hf [] hp).2 (hsub _ (fun _ => among_sub (n := none)))
    cases g <;> simpa [Move.last, Move.nodes, Move.collects, Goal.isField] using this
  | satAll n f p hp =>
    simp only [List.cons_append, List.nil_append, exec_name_filter]
    have := route_all_goal (env := env) (ev := ev) (s := ⟨.filter f true, []⟩) ho hok rfl (among_rep h hf n hp).1 (hsub _ (fun _ => among_sub (n := some n)))
    cases g <;> simpa [Move.last, Move.nodes, Move.collects, Goal.isField] using this
  | satAllF f p hp =>
    simp only [List.cons_append, List.nil_append, exec_filter]
    have := route_all_goal (env := env) (ev := ev) (s := ⟨.filter f true, []⟩) ho hok rfl (among_rep h hf [] hp).2 (hsub _ (fun _ => among_sub (n := none)))
    cases g <;> simpa [Move.last, Move.nodes, Move.collects, Goal.isField] using this
  | any =>
    simp only [List.cons_append, List.nil_append, exec_wild]
    have := wild_goal (env := env) (ev := ev) (g := g) (All2.take h maxWildcardResults)
    cases g <;> simpa [Move.last, Move.nodes, Move.collects, Goal.isField, maxWild] using this
  | deep n =>
    have := deep_goal (ev := ev) ho hok (s := nameSeg n) (hd ⟨_, rfl⟩) ht h hf root
    cases g <;> simpa [Move.last, Move.nodes, nameSeg, Seg.matches] using this
  | deepAny b =>
    have := deep_goal (ev := ev) ho hok (s := ⟨.wild b, []⟩) (hd ⟨_, rfl⟩) ht h hf root
    have e : (k.within 101).filter (fun nd => Seg.matches ⟨.wild b, []⟩ nd.name) = k.within 101 := List.filter_eq_self.mpr (fun _ _ => rfl)
    rw [e] at this
    cases g <;> exact this

/-- executeQuery answers a path as it means. -/
theorem exec_ask (ho : env.ord.IsPerm) {Ss : List (List Seg)} {ms : List Move} (hm : All2 (MoveSegs d t ev) Ss ms) (hp : Proper ms) {g : Goal} (hok : g.Ok)
    (hd : (∃ n, .deep n ∈ ms) → d) (ht : g = .fieldText → t) (root : Bool) {c : Bytes} {k : Info} (h : Reads env.ord c k) (hf : Fine d t k) :
    Gives (execQ env ev (Ss.flatten ++ goalSegs g) root c) (ask ms g root k) := by
  induction hm generalizing root c k with
  | nil =>
    simp only [List.flatten_nil, List.nil_append, ask]
    by_cases hg : g.isField = true
    · rw [if_pos hg, goalSegs_field hg, execQ]; exact ⟨rfl, .nil⟩
    · rw [if_neg hg]
      cases g <;> simp [Goal.isField] at hg <;> rw [goalSegs, execQ] <;> exact rfl
  | @cons S m Ss ms h1 h2 ih =>
    cases h2 with
    | nil =>
      simp only [List.flatten_cons, List.flatten_nil, List.append_nil, ask]
      exact move_last ho h1 hok (fun ⟨n, e⟩ => hd ⟨n, by simp [e]⟩) ht root h hf
    | @cons S2 m2 Ss ms h3 h4 =>
      obtain ⟨s, S', rfl, e1, e2, e3, e4⟩ := moveSegs_head h3
      have hp' : Proper (m2 :: ms) ∧ ((∃ x, m = .name x) → m2.Free) := by
        cases m <;> simp [Proper] at hp ⊢ <;> first | exact hp | exact ⟨hp.2, hp.1⟩
      simp only [List.flatten_cons, List.append_assoc, ask, List.cons_append]
      have hmods : ∀ (Ts : List (List Seg)) (xs : List Move), All2 (MoveSegs d t ev) Ts xs → ∀ x ∈ Ts.flatten, x.mods = [] := by
        intro Ts xs ha
        induction ha with
        | nil => simp
        | cons h _ ih =>
          obtain ⟨s, S', rfl, e1, e2, e3, e4⟩ := moveSegs_head h
          intro x hx
          simp only [List.flatten_cons, List.cons_append, List.mem_cons, List.mem_append] at hx
          rcases hx with rfl | hx | hx
          · exact e2
          · exact e4 x hx
          · exact ih x hx
      refine move_join ho h1 e1 ?_ (fun hx => e3 (hp'.2 hx)) (fun c k hc hk => ?_) (fun ⟨n, e⟩ => hd ⟨n, by simp [e]⟩) root h hf
      · intro x hx
        simp only [List.mem_cons, List.mem_append] at hx
        rcases hx with rfl | hx | hx | hx
        · exact e2
        · exact e4 x hx
        · exact hmods _ _ h4 x hx
        · exact goalSegs_mods g x hx
      · have := ih hp'.1 (fun ⟨n, hn⟩ => hd ⟨n, List.mem_cons_of_mem _ hn⟩) false hc hk
        simpa only [List.flatten_cons, List.append_assoc, List.cons_append] using this

end

end Verif
