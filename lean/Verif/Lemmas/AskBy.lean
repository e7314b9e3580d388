import Verif.Lemmas.Spell
import Verif.Lemmas.OrderOpt
import Verif.Spec.AskBy
/- executeQueryWithOptions on whole paths, against the meaning of paths under options. -/
namespace Verif
open Spec

/-- A segment as it is in a query with options. -/
def lowBy (cs : Bool) (s : Seg) : Seg := if cs then s else lowerSeg s

theorem lowBy_move {cs : Bool} {s : Seg} : (lowBy cs s).kind.isMove = s.kind.isMove := by
  cases cs with
  | true => rfl
  | false => obtain ⟨kind, mods⟩ := s; cases kind <;> rfl

theorem lowBy_mods {cs : Bool} {s : Seg} : (lowBy cs s).mods = s.mods := by
  cases cs with
  | true => rfl
  | false => obtain ⟨kind, mods⟩ := s; cases kind <;> rfl

theorem lowBy_step {cs : Bool} {s : Seg} : (lowBy cs s).kind.isStep = s.kind.isStep := by
  cases cs with
  | true => rfl
  | false => obtain ⟨kind, mods⟩ := s; cases kind <;> rfl

theorem lowBy_filter (cs : Bool) (f : Filter) (all : Bool) : lowBy cs ⟨.filter f all, []⟩ = ⟨.filter f all, []⟩ := by cases cs <;> rfl
theorem lowBy_index (cs : Bool) (i : Int) : lowBy cs ⟨.index i, []⟩ = ⟨.index i, []⟩ := by cases cs <;> rfl
theorem lowBy_wild (cs : Bool) (b : Bool) : lowBy cs ⟨.wild b, []⟩ = ⟨.wild b, []⟩ := by cases cs <;> rfl
theorem lowBy_text (cs : Bool) : lowBy cs ⟨.text, []⟩ = ⟨.text, []⟩ := by cases cs <;> rfl
theorem lowBy_count (cs : Bool) : lowBy cs ⟨.count, []⟩ = ⟨.count, []⟩ := by cases cs <;> rfl
theorem lowBy_field (cs : Bool) (f : Bytes) : lowBy cs ⟨.field f, []⟩ = ⟨.field f, []⟩ := by cases cs <;> rfl
theorem lowBy_name (cs : Bool) (n : Bytes) : lowBy cs (nameSeg n) = nameSeg (spelling cs n) := by cases cs <;> rfl
theorem lowBy_attr (cs : Bool) (a : Bytes) : lowBy cs ⟨.attr a, []⟩ = ⟨.attr (spelling cs a), []⟩ := by cases cs <;> rfl

theorem spelling_idem (cs : Bool) (n : Bytes) : agrees cs (spelling cs n) = agrees cs n := by
  cases cs with
  | true => rfl
  | false =>
    funext x
    simp only [agrees, spelling, Bool.false_eq_true, if_false]
    rw [foldCase_eq, foldCase_eq, lower_idem]

theorem matchesOpt_spelled (cs : Bool) (n x : Bytes) : (nameSeg (spelling cs n)).matchesOpt x cs = agrees cs n x := by
  rw [← spelling_idem cs n]
  cases cs with
  | true => simp [nameSeg, Seg.matchesOpt, agrees, nameMatchesOpt, nameMatches]
  | false => simp only [nameSeg, Seg.matchesOpt, nameMatchesOpt_false, agrees, Bool.false_eq_true, if_false]

/-- The elements of a level that a name of a path matches, as the code collects them. -/
def namedB (o : Ord) (cs : Bool) (n : Bytes) (xml : Bytes) : List Elem := (topElems o xml).filter (fun e => agrees cs n e.name)

theorem namedB_rep {o : Ord} {cs : Bool} {n xml : Bytes} {i : Info} (h : Reads o xml i) : All2 Rep (namedB o cs n xml) (i.namedBy cs n) :=
  All2.filter h (fun _ _ hr => by simp only [hr.name])

theorem namedB_filter (o : Ord) (cs : Bool) (n : Bytes) (xml : Bytes) :
    (topElems o xml).filter (fun e => (nameSeg (spelling cs n)).matchesOpt e.name cs) = namedB o cs n xml := by
  simp only [matchesOpt_spelled]; rfl

theorem namedBy_sub {cs : Bool} {i : Info} {n : Bytes} {nd : Node} (h : nd ∈ i.namedBy cs n) : nd ∈ i.elems := (List.mem_filter.mp h).1

theorem amongBy_sub {cs : Bool} {i : Info} {n : Option Bytes} {p : Node → Bool} {nd : Node} (h : nd ∈ i.amongBy cs n p) : nd ∈ i.elems := by
  cases n with
  | none => exact (List.mem_filter.mp (take_sub h)).1
  | some n => exact namedBy_sub (take_sub (List.mem_filter.mp h).1)

theorem hitsBy_sub {cs : Bool} {i : Info} {root : Bool} {n : Bytes} {nd : Node} (h : nd ∈ i.hitsBy cs root n) : nd ∈ i.elems := by
  unfold Info.hitsBy at h
  split at h
  · exact hits_sub h
  · exact namedBy_sub h

/-- What is needed of the content, with options: no attributes alike (`u`). -/
structure FineBy (d t u : Prop) (k : Info) : Prop where
  fine : Fine d t k
  uniq : u → k.CaseUnique

theorem FineBy.kids {d t u : Prop} {k : Info} (h : FineBy d t u k) {nd : Node} (hn : nd ∈ k.elems) : FineBy d t u nd.kids :=
  ⟨h.fine.kids hn, fun hu => (caseUnique_elems (h.uniq hu) nd hn).2⟩

theorem amongBy_rep {o : Ord} {cs : Bool} {c : Bytes} {k : Info} {d t : Prop} (h : Reads o c k) (hf : Fine d t k) (n : Bytes) {ev : Elem → Bool} {p : Node → Bool}
    (hp : ∀ e nd, Rep e nd → Fine d t nd.kids → ev e = p nd) :
    All2 Rep (((namedB o cs n c).take maxWildcardResults).filter ev) (k.amongBy cs (some n) p) ∧
    All2 Rep (((topElems o c).filter ev).take maxWildcardResults) (k.amongBy cs none p) :=
  ⟨((((namedB_rep h).with (fun nd hn => hf.kids (namedBy_sub hn))).take maxWildcardResults).filter (fun e nd hr => hp e nd hr.1 hr.2)).imp (fun _ _ hr => hr.1),
   ((All2.filter (All2.with h (fun nd hn => hf.kids hn)) (fun e nd hr => hp e nd hr.1 hr.2)).take _).imp (fun _ _ hr => hr.1)⟩

/-! ### attributes -/

/-- No attributes of the element are alike, if it matters. -/
def Lone (cs : Bool) (nd : Node) : Prop := cs = false → CU nd.attr

theorem attrBy_some {cs : Bool} {nd : Node} (hl : Lone cs nd) (a v : Bytes) : nd.attrBy cs a = some v ↔ ∃ j, sameKey cs j a ∧ nd.attr j = some v := by
  unfold Node.attrBy
  split
  · rename_i h
    have hc := h.choose_spec
    constructor
    · intro e; rw [Option.some.injEq] at e; rw [← e]; exact hc
    · rintro ⟨j, h1, h2⟩
      obtain ⟨j', h3, h4⟩ := hc
      have : j = j' := by
        cases cs with
        | true => simp only [sameKey, if_true] at h1 h3; rw [h1, h3]
        | false =>
          simp only [sameKey, Bool.false_eq_true, if_false] at h1 h3
          exact hl rfl _ _ _ _ h2 h4 (by rw [h1, h3])
      subst this
      rw [h2] at h4; exact h4.symm
  · rename_i h
    simp only [reduceCtorEq, false_iff]
    exact fun ⟨j, h1, h2⟩ => h ⟨v, j, h1, h2⟩

theorem attrBy_true (nd : Node) (a : Bytes) : nd.attrBy true a = nd.attr a := by
  apply Option.ext
  intro v
  rw [attrBy_some (fun h => by simp at h)]
  simp [sameKey]

theorem attrsOpt_by {o : Ord} (ho : o.IsPerm) {cs : Bool} {e : Elem} {nd : Node} (h : Rep e nd) (hl : Lone cs nd) (a : Bytes) :
    attrsOpt o cs (spelling cs a) e = (nd.attrBy cs a).toList := by
  cases cs with
  | true => rw [attrsOpt_true, attrBy_true, h.attr]; rfl
  | false =>
    have hl' := hl rfl
    unfold attrsOpt
    simp only [Bool.false_eq_true, if_false, spelling]
    have mem : ∀ p : Bytes × Bytes, p ∈ (o e.content e.attrs).filter (fun kv => toLowerASCII kv.1 = foldCase a) ↔ nd.attr p.1 = some p.2 ∧ foldCase p.1 = foldCase a := by
      intro p
      rw [List.mem_filter, (ho _ _).mem_iff, ← h.attr, Attrs.get?_eq_some h.uniq]
      simp only [foldCase_eq]
      exact and_congr_right fun _ => decide_eq_true_iff
    have nod : (((o e.content e.attrs).filter (fun kv => toLowerASCII kv.1 = foldCase a)).map Prod.fst).Nodup :=
      List.Nodup.sublist (List.Sublist.map _ List.filter_sublist) (((ho e.content e.attrs).map Prod.fst).nodup_iff.mpr h.uniq)
    generalize (o e.content e.attrs).filter (fun kv => toLowerASCII kv.1 = foldCase a) = l at mem nod
    cases hb : nd.attrBy false a with
    | none =>
      cases l with
      | nil => rfl
      | cons p l =>
        obtain ⟨h1, h2⟩ := (mem p).mp (by simp)
        have := (attrBy_some hl a p.2).mpr ⟨p.1, by simpa [sameKey] using h2, h1⟩
        rw [hb] at this; simp at this
    | some v =>
      obtain ⟨j, h1, h2⟩ := (attrBy_some hl a v).mp hb
      simp only [sameKey, Bool.false_eq_true, if_false] at h1
      have hm := (mem (j, v)).mpr ⟨h2, h1⟩
      have := short_eq (l2 := [(j, v)]) nod (by simp) (fun p => by
          constructor
          · intro hp
            obtain ⟨p1, p2⟩ := (mem p).mp hp
            have : p.1 = j := hl' _ _ _ _ p1 h2 (by rw [p2, h1])
            rw [this, h2] at p1
            simp only [Option.some.injEq] at p1
            simp only [List.mem_singleton]
            exact Prod.ext this p1.symm
          · intro hp; simp at hp; subst hp; exact hm)
        (fun p hp q hq => hl' _ _ _ _ ((mem p).mp hp).1 ((mem q).mp hq).1 (by rw [((mem p).mp hp).2, ((mem q).mp hq).2]))
      rw [this]; rfl

theorem is_attrsBy {o : Ord} (ho : o.IsPerm) {cs : Bool} {e : Elem} {nd : Node} (h : Rep e nd) (hl : Lone cs nd) (a : Bytes) :
    All2 Is ((attrsOpt o cs (spelling cs a) e).map .ofAttr) ((Goal.attr a).itemsBy cs nd) := by
  rw [attrsOpt_by ho h hl]
  simp only [Goal.itemsBy]
  cases nd.attrBy cs a with
  | none => exact .nil
  | some v => exact .cons rfl .nil

/-! ### going on after a move -/

section
variable {env : Env} {ev : Filter → Elem → Bool} {K : Bytes → Result} {A : Info → Answer} {cs : Bool}

theorem processAllOpt_move {ms : List Elem} {nds : List Node} {seg s : Seg} (hm : s.mods = []) {rest : List Seg} (hs : s.kind.isMove = true)
    (h : All2 (fun e nd => Gives (K e.content) (A nd.kids)) ms nds) :
    Gives (processAllOpt env cs ms seg (s :: rest) K) (pack ((nds.map (fun nd => A nd.kids)).flatMap Answer.items)) := by
  have := processAll_move (env := env) (seg := seg) hm (rest := rest) hs h
  obtain ⟨kind, mods⟩ := s
  cases kind <;> simp [SegKind.isMove] at hs <;> exact this

theorem routeOpt_first {ms : List Elem} {nds : List Node} {seg s : Seg} {rest : List Seg} (hs : s.kind.isMove = true)
    (h : All2 (fun e nd => Gives (K e.content) (A nd.kids)) ms nds) :
    Gives (routeFilterOpt env cs ms seg false (s :: rest) K) (firstAnswer ((nds.take 1).map (fun nd => A nd.kids))) := by
  have := route_first (env := env) (seg := seg) (rest := rest) hs h
  obtain ⟨kind, mods⟩ := s
  cases ms with
  | nil => exact this
  | cons m ms => cases kind <;> simp [SegKind.isMove] at hs <;> exact this

theorem routeOpt_all {ms : List Elem} {nds : List Node} {seg s : Seg} (hm : s.mods = []) {rest : List Seg} (hs : s.kind.isMove = true)
    (h : All2 (fun e nd => Gives (K e.content) (A nd.kids)) ms nds) :
    Gives (routeFilterOpt env cs ms seg true (s :: rest) K) (pack ((nds.map (fun nd => A nd.kids)).flatMap Answer.items)) := by
  have := processAllOpt_move (env := env) (cs := cs) (seg := seg) hm (rest := rest) hs h
  cases h with
  | nil => exact rfl
  | cons hr h => simpa only [routeFilterOpt, if_true] using this

theorem wildOpt_move {ms : List Elem} {nds : List Node} {s : Seg} (hm : s.mods = []) {rest : List Seg} (hs : s.kind.isMove = true)
    (h : All2 (fun e nd => Gives (K e.content) (A nd.kids)) ms nds) :
    Gives (handleWildcardOpt env cs ms (s :: rest) K) (pack ((nds.map (fun nd => A nd.kids)).flatMap Answer.items)) := by
  have hall : All2 Is (ms.flatMap fun m => asList (K m.content)) ((nds.map (fun nd => A nd.kids)).flatMap Answer.items) := by
    rw [List.flatMap_map]
    exact h.flatMap (fun a b hab => hab.list)
  have := pack_gives' hall
  obtain ⟨kind, mods⟩ := s
  simp only at hm; subst hm
  cases kind <;> simp [SegKind.isMove] at hs <;> exact this

/-- The recursive step. -/
theorem recOpt_gives (ho : env.ord.IsPerm) {s : Seg} {rest : List Seg} {g : Node → List Item} {d t u : Prop} (hd : d)
    (hemit : ∀ k, FineBy d t u k → ∀ e, ∀ nd ∈ k.elems, Rep e nd → All2 Is (recEmitOpt env cs rest K e) (g nd)) {c : Bytes} {k : Info}
    (h : Reads env.ord c k) (hk : FineBy d t u k) :
    Gives (handleRecursiveOpt env cs (s :: rest) K c) (pack (fill 1000 (((k.within 101).filter (fun nd => s.matchesOpt nd.name cs)).map g))) := by
  have h2 := hk.fine.deep hd
  have hx := recSearch_extL (Q := Is) (tgt := fun e => s.matchesOpt e.name cs) (tgt' := fun nd => s.matchesOpt nd.name cs) ho (fun e nd hr => by simp only [hr.name])
    (FineBy d t u) (fun _ hk nd hn => hk.kids hn) hemit (maxNestingDepth + 1) hk h ⟨0, []⟩
  obtain ⟨rs, e, ha⟩ := hx.added (by simp only; omega)
  simp only [List.nil_append, List.length_nil, Nat.sub_zero] at e ha
  have := pack_gives' ha
  simp only [handleRecursiveOpt, e]
  cases rs with
  | nil => exact this
  | cons r rs => exact this

end

/-! ### the goal after the last move -/

theorem sameKey_lower (cs : Bool) (x f : Bytes) : (if cs then decide (x = f) else decide (toLowerASCII x = toLowerASCII f)) = decide (sameKey cs x f) := by
  cases cs <;> simp [sameKey, foldCase_eq]

theorem fieldOpt_vals {o : Ord} (ho : o.IsPerm) {cs : Bool} {g : Goal} (hg : g.isField = true) (hok : g.Ok) {e : Elem} {nd : Node} (h : Rep e nd)
    (ht : g = .fieldText → nd.kids.Quiet) (hl : g.isAttr = true → Lone cs nd) :
    All2 Is (fieldValuesOpt o cs (goalField g) e) (g.itemsBy cs nd) := by
  cases g with
  | fieldElem f =>
    have h1 : hasPrefix f b!"@" = false := by
      cases f with
      | nil => rfl
      | cons c cs => have := hok.2.1; simp only [List.head?_cons, ne_eq, Option.some.injEq] at this; simp [hasPrefix, List.isPrefixOf, Ne.symm this]
    have h2 : f ≠ b!"%" := hok.2.2
    simp only [goalField, Goal.itemsBy, fieldValuesOpt, h1, h2, Bool.false_eq_true, if_false]
    refine All2.map (R := Rep) (S := Is) (f := fun m : Elem => Result.ofContent m.content) (g := Item.elem) ?_ (fun a b hab => is_elem hab)
    refine All2.filter (writes_reads ho h.content) (fun a b hr => ?_)
    rw [hr.name, ← sameKey_lower]
    cases cs <;> rw [Bool.eq_iff_iff] <;> simp only [decide_eq_true_iff, Bool.false_eq_true, if_false, if_true] <;> exact decide_eq_true_iff
  | fieldAttr a =>
    have h2 := attrsOpt_by ho h (hl rfl) a
    have e1 : (if cs = true then a else toLowerASCII a) = spelling cs a := rfl
    simp only [goalField, Goal.itemsBy, fieldValuesOpt, hasPrefix, List.isPrefixOf, beq_self_eq_true, Bool.and_true, if_true, List.drop_succ_cons, List.drop_zero, e1, h2]
    cases nd.attrBy cs a with
    | none => exact .nil
    | some v => exact .cons rfl .nil
  | fieldText => exact field_vals ho hg hok h ht
  | _ => simp [Goal.isField] at hg

theorem fieldOpt_gives {env : Env} (ho : env.ord.IsPerm) {cs : Bool} {g : Goal} (hg : g.isField = true) (hok : g.Ok) {ms : List Elem} {nds : List Node}
    (h : All2 Rep ms nds) (ht : g = .fieldText → ∀ nd ∈ nds, nd.kids.Quiet) (hl : g.isAttr = true → ∀ nd ∈ nds, Lone cs nd) :
    Gives (fieldExtractionOpt env cs ms (goalField g) []) (.many ((nds.flatMap (fun nd => g.itemsBy cs nd)).take 1000)) := by
  unfold fieldExtractionOpt
  rw [if_neg (by simpa using goalField_ne hg hok)]
  simp only
  rw [mods_array]
  exact ⟨rfl, ((h.with (fun b hb => hb)).flatMap (fun a b hab => fieldOpt_vals ho hg hok hab.1 (fun e => ht e b hab.2) (fun e => hl e b hab.2))).take _⟩

section
variable {env : Env} {ev : Filter → Elem → Bool} {g : Goal} {cs : Bool}

/-- What an element contributes when the goal is not a field and not a count. -/
theorem goalBy_one (ho : env.ord.IsPerm) {e : Elem} {nd : Node} (h : Rep e nd) (hl : g.isAttr = true → Lone cs nd) : Gives (match g with
    | .attr a => (match attrsOpt env.ord cs (spelling cs a) e with | v :: _ => .ofAttr v | [] => .null)
    | .text => .ofText e.content
    | .elem => .ofContent e.content
    | _ => .null) (if g.isField then .nothing else pack (g.itemsBy cs nd)) := by
  cases g with
  | elem => exact is_elem h
  | text => exact is_text h
  | attr a =>
    simp only [Goal.isField, Goal.itemsBy, Bool.false_eq_true, if_false]
    rw [attrsOpt_by ho h (hl rfl)]
    cases nd.attrBy cs a with
    | none => exact rfl
    | some v => exact rfl
  | _ => exact rfl

theorem goalLow_field (h : g.isField = true) : (goalSegs g).map (lowBy cs) = [⟨.field (goalField g), []⟩] := by
  rw [goalSegs_field h, List.map_singleton, lowBy_field]

theorem routeOpt_first_goal (ho : env.ord.IsPerm) (hok : g.Ok) {ms : List Elem} {nds : List Node} {s : Seg} (hm : s.mods = []) (h : All2 Rep ms nds)
    (ht : g = .fieldText → ∀ nd ∈ nds, nd.kids.Quiet) (hl : g.isAttr = true → ∀ nd ∈ nds, Lone cs nd) :
    Gives (routeFilterOpt env cs ms s false ((goalSegs g).map (lowBy cs)) (execQOpt env ev cs ((goalSegs g).map (lowBy cs)) false))
      (if (nds.take 1).isEmpty then .nothing else if g.isField then .many (((nds.take 1).flatMap (fun nd => g.itemsBy cs nd)).take 1000)
       else pack ((nds.take 1).flatMap (fun nd => g.itemsBy cs nd))) := by
  cases h with
  | nil => exact rfl
  | @cons e nd es nds hr _ =>
    simp only [routeFilterOpt, Bool.false_eq_true, if_false, List.take_succ_cons, List.take_zero, List.isEmpty_cons]
    have h1 := fun hg => fieldOpt_gives (g := g) ho hg hok (All2.cons hr .nil) (fun h x hx => ht h x (by simp at hx; simp [hx])) (fun h x hx => hl h x (by simp at hx; simp [hx]))
    have h2 := goalBy_one (g := g) ho hr (fun h => hl h nd (by simp))
    have h3 : [nd].flatMap (fun nd => g.itemsBy cs nd) = g.itemsBy cs nd := by simp
    by_cases hf : g.isField = true
    · rw [goalLow_field hf, if_pos hf]
      exact h1 hf
    · rw [if_neg hf] at h2 ⊢
      rw [h3]
      cases g with
      | elem => simp only [goalSegs, List.map_nil, processFirstOpt, hm, runMods_nil]; exact h2
      | text => simp only [goalSegs, List.map_singleton, lowBy_text, processFirstOpt, runMods_nil]; exact h2
      | attr a =>
        simp only [goalSegs, List.map_singleton, lowBy_attr, processFirstOpt, runMods_nil]; exact h2
      | count => simp only [goalSegs, List.map_singleton, lowBy_count, processFirstOpt]; rw [execQOpt]; exact rfl
      | _ => simp [Goal.isField] at hf

theorem routeOpt_all_goal (ho : env.ord.IsPerm) (hok : g.Ok) {ms : List Elem} {nds : List Node} {s : Seg} (hm : s.mods = []) (h : All2 Rep ms nds)
    (ht : g = .fieldText → ∀ nd ∈ nds, nd.kids.Quiet) (hl : g.isAttr = true → ∀ nd ∈ nds, Lone cs nd) :
    Gives (routeFilterOpt env cs ms s true ((goalSegs g).map (lowBy cs)) (execQOpt env ev cs ((goalSegs g).map (lowBy cs)) false))
      (if nds.isEmpty then .nothing else if g.isField then .many ((nds.flatMap (fun nd => g.itemsBy cs nd)).take 1000) else g.listedBy cs nds) := by
  have h1 := fun hg => fieldOpt_gives (env := env) (g := g) ho hg hok h ht hl
  have hall := fun f (hf : ∀ e nd, Rep e nd ∧ nd ∈ nds → All2 Is (f e) (g.itemsBy cs nd)) => pack_gives' ((h.with (fun b hb => hb)).flatMap (f := f) (g := fun nd => g.itemsBy cs nd) hf)
  have hel := All2.map (S := Is) (f := fun e : Elem => Result.ofContent e.content) (g := Item.elem) h (fun a b hab => is_elem hab)
  have he := h.isEmpty
  have e : routeFilterOpt env cs ms s true ((goalSegs g).map (lowBy cs)) (execQOpt env ev cs ((goalSegs g).map (lowBy cs)) false) =
      if ms.isEmpty then .null else processAllOpt env cs ms s ((goalSegs g).map (lowBy cs)) (execQOpt env ev cs ((goalSegs g).map (lowBy cs)) false) := by
    cases ms <;> rfl
  rw [e, ← he]
  split
  · exact rfl
  by_cases hf : g.isField = true
  · rw [goalLow_field hf, if_pos hf]; exact h1 hf
  · rw [if_neg hf]
    cases g with
    | elem => simp only [goalSegs, List.map_nil, processAllOpt, hm, runMods_nil]; exact ⟨rfl, hel⟩
    | text => simp only [goalSegs, List.map_singleton, lowBy_text, processAllOpt, runMods_nil]; exact hall _ (fun e nd hr => .cons (is_text hr.1) .nil)
    | attr a => simp only [goalSegs, List.map_singleton, lowBy_attr, processAllOpt, runMods_nil]; exact hall _ (fun e nd hr => is_attrsBy ho hr.1 (hl rfl nd hr.2) a)
    | count =>
      simp only [goalSegs, List.map_singleton, lowBy_count, processAllOpt, runMods_nil]
      exact hall _ (fun e nd hr => by rw [execQOpt]; exact .nil)
    | _ => simp [Goal.isField] at hf

theorem wildOpt_goal (ho : env.ord.IsPerm) {ms : List Elem} {nds : List Node} (h : All2 Rep ms nds) (hl : g.isAttr = true → ∀ nd ∈ nds, Lone cs nd) :
    Gives (if ms.isEmpty then .null else handleWildcardOpt env cs ms ((goalSegs g).map (lowBy cs)) (execQOpt env ev cs ((goalSegs g).map (lowBy cs)) false))
      (if g.isField then .nothing else pack (nds.flatMap (fun nd => g.itemsBy cs nd))) := by
  have he := h.isEmpty
  by_cases hne : ms.isEmpty = true
  · rw [if_pos hne]
    rw [hne] at he
    rw [List.isEmpty_iff.mp he.symm]
    split <;> exact rfl
  rw [if_neg hne]
  have hall := fun f (hf : ∀ e nd, Rep e nd ∧ nd ∈ nds → All2 Is (f e) (g.itemsBy cs nd)) => pack_gives' ((h.with (fun b hb => hb)).flatMap (f := f) (g := fun nd => g.itemsBy cs nd) hf)
  have hel := All2.map (S := Is) (f := fun e : Elem => Result.ofContent e.content) (g := Item.elem) h (fun a b hab => is_elem hab)
  by_cases hf : g.isField = true
  · rw [goalLow_field hf, if_pos hf]
    have e1 : (ms.flatMap fun m => asList (execQOpt env ev cs [⟨.field (goalField g), []⟩] false m.content)) = [] := by
      rw [List.flatMap_eq_nil_iff]
      intro m _
      rw [execQOpt]; rfl
    simp only [handleWildcardOpt, e1]
    exact rfl
  · rw [if_neg hf]
    cases g with
    | elem =>
      simp only [goalSegs, List.map_nil, handleWildcardOpt, Goal.itemsBy]
      have e : nds.flatMap (fun nd => [Item.elem nd]) = nds.map .elem := by
        clear h he hall hel hl
        induction nds with
        | nil => rfl
        | cons a l ih => simp [List.flatMap_cons, ih]
      rw [e]
      exact pack_gives hel (by simpa using hne)
    | text =>
      simp only [goalSegs, List.map_singleton, lowBy_text, handleWildcardOpt, runMods_nil]
      exact hall _ (fun e nd hr => .cons (is_text hr.1) .nil)
    | attr a =>
      simp only [goalSegs, List.map_singleton, lowBy_attr, handleWildcardOpt, runMods_nil]
      exact hall _ (fun e nd hr => is_attrsBy ho hr.1 (hl rfl nd hr.2) a)
    | count =>
      simp only [goalSegs, List.map_singleton, lowBy_count, handleWildcardOpt, runMods_nil]
      exact hall _ (fun e nd hr => by rw [execQOpt]; exact .nil)
    | _ => simp [Goal.isField] at hf

theorem emitOpt_goal (ho : env.ord.IsPerm) {e : Elem} {nd : Node} (h : Rep e nd) (hl : g.isAttr = true → Lone cs nd) :
    All2 Is (recEmitOpt env cs ((goalSegs g).map (lowBy cs)) (execQOpt env ev cs ((goalSegs g).map (lowBy cs)) false) e) (if g.isField then [] else g.itemsBy cs nd) := by
  by_cases hf : g.isField = true
  · rw [goalLow_field hf, if_pos hf]
    simp only [recEmitOpt]
    rw [execQOpt]; exact .nil
  · rw [if_neg hf]
    cases g with
    | elem => exact .cons (is_elem h) .nil
    | text => simp only [goalSegs, List.map_singleton, lowBy_text]; exact .cons (is_text h) .nil
    | attr a => simp only [goalSegs, List.map_singleton, lowBy_attr, recEmitOpt]; exact is_attrsBy ho h (hl rfl) a
    | count => simp only [goalSegs, List.map_singleton, lowBy_count, recEmitOpt]; rw [execQOpt]; exact .nil
    | _ => simp [Goal.isField] at hf

end

/-! ### an index -/

/-- What follows an index. -/
def idxAtBy (o : Ord) (cs root : Bool) (R : List Seg) (K : Bytes → Result) (m : Elem) : Result :=
  match R with
  | [] => .ofContent m.content
  | s :: _ =>
    match s.kind with
    | .attr a => (match attrsOpt o cs a m with | v :: _ => .ofAttr v | [] => .null)
    | .text => if root && cs then .ofText m.content else K m.content
    | _ => K m.content

theorem hitsBy_rep {o : Ord} {c : Bytes} {k : Info} (h : Reads o c k) (cs root : Bool) (n : Bytes) :
    All2 Rep ((if root && cs then (topElems o c).filter (fun e => e.name = n) else namedB o cs n c).take maxWildcardResults) ((k.hitsBy cs root n).take 1000) := by
  unfold Info.hitsBy
  cases cs with
  | false => simp only [Bool.and_false, Bool.false_eq_true, if_false]; exact (namedB_rep h).take _
  | true =>
    cases root with
    | true => exact (hits_rep h n).1
    | false => simp only [Bool.false_and, Bool.false_eq_true, if_false, if_true, Info.hits]; exact (namedB_rep (cs := true) h).take _

theorem execOpt_nth (env : Env) (ev : Filter → Elem → Bool) (cs : Bool) (n : Bytes) {i : Int} {j : Nat} (hij : i = j ∨ 1000 ≤ i ∧ 1000 ≤ j) (R : List Seg)
    (root : Bool) {c : Bytes} {k : Info} (h : Reads env.ord c k) :
    (execQOpt env ev cs (nameSeg (spelling cs n) :: ⟨.index i, []⟩ :: R) root c = .null ∧ (Move.nth n j).nodesBy cs root k = []) ∨
    ∃ e nd, Rep e nd ∧ (Move.nth n j).nodesBy cs root k = [nd] ∧ nd ∈ k.elems ∧
      execQOpt env ev cs (nameSeg (spelling cs n) :: ⟨.index i, []⟩ :: R) root c = idxAtBy env.ord cs root R (execQOpt env ev cs R false) e := by
  have hh := hitsBy_rep h cs root n
  rw [execQOpt]
  simp only [Move.nodesBy]
  obtain ⟨hi, hc⟩ := index_move hh hij
  by_cases hrc : (root && cs) = true
  · simp only [Bool.and_eq_true] at hrc
    obtain ⟨rfl, rfl⟩ := hrc
    simp only [execBodyOpt, nameSeg, isFragmentQuery, SegKind.isRootOp, Bool.and_self, if_true, fragmentRootsOpt, hi, if_false]
    simp only [Bool.and_self, if_true] at hc
    rcases hc with ⟨e1, e2⟩ | ⟨e, nd, e1, e2, hr⟩
    · left
      simp only [spelling, if_true]
      rw [e1, e2]
      exact ⟨by split <;> rfl, rfl⟩
    · right
      refine ⟨e, nd, hr, by rw [e2]; rfl, hitsBy_sub (cs := true) (root := true) (take_sub (List.mem_of_getElem? e2)), ?_⟩
      simp only [spelling, if_true]
      rw [e1]
      have hne : (((topElems env.ord c).filter (fun e => decide (e.name = n))).take maxWildcardResults).isEmpty = false := by
        cases hl : ((topElems env.ord c).filter (fun e => decide (e.name = n))).take maxWildcardResults with
        | nil => rw [hl] at e1; simp at e1
        | cons a l => rfl
      rw [hne]
      simp only [Bool.false_eq_true, if_false]
      cases R with
      | nil => rfl
      | cons s R =>
        obtain ⟨kind, mods⟩ := s
        cases kind with
        | attr a => simp only [idxAtBy, attrsOpt_true]; cases Attrs.get? a e.attrs <;> rfl
        | _ => rfl
  · have hfr : (isFragmentQuery root (⟨.index i, []⟩ :: R) && cs) = false := by
      cases root <;> cases cs <;> simp [isFragmentQuery] at hrc ⊢
    rw [if_neg hrc] at hc
    have hb : execBodyOpt env ev cs root (nameSeg (spelling cs n)) (⟨.index i, []⟩ :: R) (execQOpt env ev cs (⟨.index i, []⟩ :: R) false) (execQOpt env ev cs R false) c =
        arrayOpOpt env cs ((namedB env.ord cs n c).take maxWildcardResults) ⟨.index i, []⟩ R (execQOpt env ev cs R false) := by
      rw [← namedB_filter]
      simp only [execBodyOpt, nameSeg, hfr, Bool.false_eq_true, if_false, execElemOpt]
    rw [hb]
    simp only [arrayOpOpt, hi, if_false]
    rcases hc with ⟨e1, e2⟩ | ⟨e, nd, e1, e2, hr⟩
    · left
      rw [e1, e2]
      exact ⟨by split <;> rfl, rfl⟩
    · right
      refine ⟨e, nd, hr, by rw [e2]; rfl, hitsBy_sub (cs := cs) (root := root) (take_sub (List.mem_of_getElem? e2)), ?_⟩
      rw [e1]
      have hne : ((namedB env.ord cs n c).take maxWildcardResults).isEmpty = false := by
        cases hl : (namedB env.ord cs n c).take maxWildcardResults with
        | nil => rw [hl] at e1; simp at e1
        | cons a l => rfl
      rw [hne]
      simp only [Bool.false_eq_true, if_false]
      cases R with
      | nil => rfl
      | cons s R =>
        obtain ⟨kind, mods⟩ := s
        cases kind with
        | text => rw [idxAtBy]; simp only; rw [if_neg hrc]
        | _ => rfl

/-! ### whole paths -/

section
variable {env : Env} {ev : Filter → Elem → Bool} {d t u : Prop} {cs : Bool}

theorem belowBy {es : List Elem} {nds : List Node} {K : Bytes → Result} {A : Info → Answer} {k : Info} (ho : env.ord.IsPerm) (hf : FineBy d t u k)
    (h : All2 Rep es nds) (hs : ∀ nd ∈ nds, nd ∈ k.elems) (hK : ∀ c k, Reads env.ord c k → FineBy d t u k → Gives (K c) (A k)) :
    All2 (fun e nd => Gives (K e.content) (A nd.kids)) es nds :=
  (h.with hs).imp (fun _ _ hab => hK _ _ (writes_reads ho hab.1.content) (hf.kids hab.2))

theorem execOpt_filter (f : Filter) (all : Bool) (R : List Seg) (root : Bool) (c : Bytes) :
    execQOpt env ev cs (⟨.filter f all, []⟩ :: R) root c =
      routeFilterOpt env cs (((topElems env.ord c).filter (ev f)).take maxWildcardResults) ⟨.filter f all, []⟩ all R (execQOpt env ev cs R false) := by
  cases R with
  | nil =>
    rw [execQOpt]
    simp only [execBodyOpt]
    cases ((topElems env.ord c).filter (ev f)).take maxWildcardResults with
    | nil => rfl
    | cons a l => cases all <;> rfl
  | cons s R => rw [execQOpt]; rfl

theorem execOpt_name_filter (n : Bytes) (f : Filter) (all : Bool) (R : List Seg) (root : Bool) (c : Bytes) :
    execQOpt env ev cs (nameSeg (spelling cs n) :: ⟨.filter f all, []⟩ :: R) root c =
      routeFilterOpt env cs (((namedB env.ord cs n c).take maxWildcardResults).filter (ev f)) ⟨.filter f all, []⟩ all R (execQOpt env ev cs R false) := by
  rw [execQOpt, ← namedB_filter]
  simp only [execBodyOpt, nameSeg, isFragmentQuery, SegKind.isRootOp, Bool.and_false, Bool.false_and, Bool.false_eq_true, if_false, execElemOpt]

theorem execOpt_wild (R : List Seg) (root : Bool) (c : Bytes) :
    execQOpt env ev cs (⟨.wild false, []⟩ :: R) root c =
      if ((topElems env.ord c).take maxWildcardResults).isEmpty then .null else handleWildcardOpt env cs ((topElems env.ord c).take maxWildcardResults) R (execQOpt env ev cs R false) := by
  cases R with
  | nil => rw [execQOpt]; simp only [execBodyOpt]; rfl
  | cons s R => rw [execQOpt]; simp only [execBodyOpt]

theorem execOpt_name_step (n : Bytes) (s : Seg) (R : List Seg) (root : Bool) (c : Bytes) (hs : s.kind.isStep = true) :
    execQOpt env ev cs (nameSeg (spelling cs n) :: s :: R) root c =
      firstSome (execQOpt env ev cs (s :: R) false) ((namedB env.ord cs n c).map (·.content)) := by
  have hfr : (isFragmentQuery root (s :: R) && cs) = false := by
    obtain ⟨kind, mods⟩ := s
    cases kind <;> simp [SegKind.isStep] at hs <;> simp [isFragmentQuery, SegKind.isRootOp]
  have hb : execQOpt env ev cs (nameSeg (spelling cs n) :: s :: R) root c = firstMatchOpt env cs (s :: R) (execQOpt env ev cs (s :: R) false) (namedB env.ord cs n c) := by
    rw [execQOpt, ← namedB_filter]
    obtain ⟨kind, mods⟩ := s
    cases kind <;> simp [SegKind.isStep] at hs <;> simp only [execBodyOpt, nameSeg, hfr, Bool.false_eq_true, if_false, execElemOpt]
  rw [hb]
  generalize namedB env.ord cs n c = ms
  induction ms with
  | nil => rfl
  | cons a ms ih =>
    obtain ⟨kind, mods⟩ := s
    cases kind <;> simp [SegKind.isStep] at hs <;> simp only [firstMatchOpt, List.map_cons, firstSome, ih]

theorem moveBy_join (ho : env.ord.IsPerm) {S : List Seg} {m : Move} (hm : MoveSegs d t ev S m) {s : Seg} {R : List Seg} (hs : s.kind.isMove = true)
    (hR : s.mods = []) (hfree : (∃ x, m = .name x) → s.kind.isStep = true) {A : Info → Answer}
    (hK : ∀ c k, Reads env.ord c k → FineBy d t u k → Gives (execQOpt env ev cs (s :: R) false c) (A k)) (hd : (∃ n, m = .deep n) → d)
    (root : Bool) {c : Bytes} {k : Info} (h : Reads env.ord c k) (hf : FineBy d t u k) :
    Gives (execQOpt env ev cs (S.map (lowBy cs) ++ s :: R) root c) (m.joinBy ((m.nodesBy cs root k).map (fun nd => A nd.kids))) := by
  have hrec : ∀ x : Seg, d → Gives (handleRecursiveOpt env cs (x :: s :: R) (execQOpt env ev cs (s :: R) false) c)
      (pack (fill 1000 (((k.within 101).filter (fun nd => x.matchesOpt nd.name cs)).map (fun nd => (A nd.kids).items)))) := fun x hdd =>
    recOpt_gives ho (K := execQOpt env ev cs (s :: R) false) (s := x) (rest := s :: R) (g := fun nd => (A nd.kids).items) hdd
      (fun k hk e nd hn hr => by
        have := (hK _ _ (writes_reads ho hr.content) (hk.kids hn)).list
        obtain ⟨kind, mods⟩ := s
        cases kind <;> simp [SegKind.isMove] at hs <;> exact this) h hf
  cases hm with
  | name n =>
    simp only [List.map_cons, List.map_nil, lowBy_name, List.cons_append, List.nil_append]
    rw [execOpt_name_step n s R root c (hfree ⟨n, rfl⟩)]
    exact firstSome_gives (A := fun nd => A nd.kids) (belowBy ho hf (namedB_rep h) (fun _ => namedBy_sub) hK)
  | nth n j i hij =>
    simp only [List.map_cons, List.map_nil, lowBy_name, lowBy_index, List.cons_append, List.nil_append]
    rcases execOpt_nth env ev cs n hij (s :: R) root h with ⟨e1, e2⟩ | ⟨e, nd, hr, e2, hn, e1⟩
    · rw [e1, e2]; exact rfl
    · simp only [e1, e2, List.map_cons, List.map_nil, Move.joinBy, Move.join, firstAnswer_one]
      have := hK _ _ (writes_reads ho hr.content) (hf.kids hn)
      obtain ⟨kind, mods⟩ := s
      cases kind <;> simp [SegKind.isMove] at hs <;> exact this
  | sat n f p hp =>
    simp only [List.map_cons, List.map_nil, lowBy_name, lowBy_filter, List.cons_append, List.nil_append, execOpt_name_filter]
    exact routeOpt_first hs (belowBy ho hf (amongBy_rep (cs := cs) h hf.fine n hp).1 (fun _ => amongBy_sub (cs := cs) (n := some n)) hK)
  | satF f p hp =>
    simp only [List.map_cons, List.map_nil, lowBy_filter, List.cons_append, List.nil_append, execOpt_filter]
    exact routeOpt_first hs (belowBy ho hf (amongBy_rep (cs := cs) h hf.fine [] hp).2 (fun _ => amongBy_sub (cs := cs) (n := none)) hK)
  | satAll n f p hp =>
    simp only [List.map_cons, List.map_nil, lowBy_name, lowBy_filter, List.cons_append, List.nil_append, execOpt_name_filter]
    exact routeOpt_all hR hs (belowBy ho hf (amongBy_rep (cs := cs) h hf.fine n hp).1 (fun _ => amongBy_sub (cs := cs) (n := some n)) hK)
  | satAllF f p hp =>
    simp only [List.map_cons, List.map_nil, lowBy_filter, List.cons_append, List.nil_append, execOpt_filter]
    exact routeOpt_all hR hs (belowBy ho hf (amongBy_rep (cs := cs) h hf.fine [] hp).2 (fun _ => amongBy_sub (cs := cs) (n := none)) hK)
  | any =>
    have hl := All2.take h 1000
    have := wildOpt_move (env := env) (cs := cs) hR (rest := R) hs (belowBy ho hf hl (fun _ => take_sub) hK)
    simp only [List.map_cons, List.map_nil, lowBy_wild, List.cons_append, List.nil_append, execOpt_wild]
    have he := hl.isEmpty
    split
    · rename_i h1
      rw [maxWild, he] at h1
      simp only [Move.nodesBy]
      rw [List.isEmpty_iff.mp h1]
      exact rfl
    · exact this
  | deep n =>
    simp only [List.map_cons, List.map_nil, lowBy_name, lowBy_wild, List.cons_append, List.nil_append, execQOpt]
    have := hrec (nameSeg (spelling cs n)) (hd ⟨_, rfl⟩)
    simp only [matchesOpt_spelled] at this
    simp only [Move.joinBy, Move.join, Move.nodesBy, List.map_map]
    exact this
  | deepAny b =>
    simp only [List.map_cons, List.map_nil, lowBy_wild, List.cons_append, List.nil_append, execQOpt]
    have := hrec ⟨.wild b, []⟩ (hd ⟨_, rfl⟩)
    have e : (k.within 101).filter (fun nd => Seg.matchesOpt ⟨.wild b, []⟩ nd.name cs) = k.within 101 := List.filter_eq_self.mpr (fun _ _ => rfl)
    rw [e] at this
    simp only [Move.joinBy, Move.join, Move.nodesBy, List.map_map]
    exact this

theorem count_gives {ms : List Elem} {nds : List Node} (h : All2 Rep ms (nds.take 1000)) :
    Gives (if ms.isEmpty then .null else .ofCount ms.length) (if nds.isEmpty then .nothing else .one (.count (min 1000 nds.length))) := by
  have h1 := h.isEmpty
  have h2 := h.length
  have h3 : (nds.take 1000).isEmpty = nds.isEmpty := by cases nds <;> rfl
  rw [List.length_take] at h2
  rw [h1, h3, h2]
  split <;> exact rfl

theorem nameBy_goal (ho : env.ord.IsPerm) {g : Goal} (hok : g.Ok) (n : Bytes) (ht : g = .fieldText → t) (hu : g.isAttr = true → cs = false → u) (root : Bool) {c : Bytes} {k : Info}
    (h : Reads env.ord c k) (hf : FineBy d t u k) :
    Gives (execQOpt env ev cs (nameSeg (spelling cs n) :: (goalSegs g).map (lowBy cs)) root c) ((Move.name n).lastBy cs root k g) := by
  have hlone : g.isAttr = true → ∀ nd ∈ k.elems, Lone cs nd := fun ha nd hn hc => (caseUnique_elems (hf.uniq (hu ha hc)) nd hn).1
  have hh := hitsBy_rep h cs root n
  by_cases hg : g.isField = true
  · rw [goalLow_field hg]
    have e : (Move.name n).lastBy cs root k g =
        if root && cs && (k.hitsBy cs root n).isEmpty then .nothing else .many ((((k.hitsBy cs root n).take 1000).flatMap (fun nd => g.itemsBy cs nd)).take 1000) := by
      cases g <;> simp [Goal.isField] at hg <;> rfl
    rw [e]
    have hG := fieldOpt_gives (env := env) ho (cs := cs) hg hok hh (fun hgt nd hn => (hf.fine.kids (hitsBy_sub (take_sub hn))).text (ht hgt)) (fun ha nd hn => hlone ha nd (hitsBy_sub (take_sub hn)))
    rw [execQOpt]
    by_cases hrc : (root && cs) = true
    · rw [hrc] at hG hh
      have he := hh.isEmpty
      simp only [Bool.and_eq_true] at hrc
      obtain ⟨rfl, rfl⟩ := hrc
      simp only [if_true] at hG he
      simp only [execBodyOpt, nameSeg, isFragmentQuery, SegKind.isRootOp, Bool.and_self, if_true, fragmentRootsOpt, Bool.true_and, spelling]
      have he2 : ((k.hitsBy true true n).take 1000).isEmpty = (k.hitsBy true true n).isEmpty := by cases k.hitsBy true true n <;> rfl
      rw [he, he2]
      split
      · exact rfl
      · exact hG
    · have hfr : (isFragmentQuery root [⟨.field (goalField g), []⟩] && cs) = false := by
        cases root <;> cases cs <;> simp [isFragmentQuery] at hrc ⊢
      rw [if_neg hrc] at hG
      simp only [Bool.not_eq_true] at hrc
      rw [hrc, ← namedB_filter] at *
      simp only [Bool.false_and, Bool.false_eq_true, if_false]
      simp only [execBodyOpt, nameSeg, hfr, Bool.false_eq_true, if_false, execElemOpt] at hG ⊢
      exact hG
  · have hcnt : g = .count ∨ g ≠ .count := by by_cases h : g = .count <;> simp [h]
    rcases hcnt with rfl | hcnt
    · simp only [Move.lastBy, goalSegs, List.map_singleton, lowBy_count]
      have hc := count_gives hh
      rw [execQOpt]
      by_cases hrc : (root && cs) = true
      · rw [if_pos hrc] at hc
        simp only [Bool.and_eq_true] at hrc
        obtain ⟨rfl, rfl⟩ := hrc
        exact hc
      · have hfr : (isFragmentQuery root [⟨.count, []⟩] && cs) = false := by
          cases root <;> cases cs <;> simp [isFragmentQuery] at hrc ⊢
        rw [if_neg hrc, ← namedB_filter] at hc
        simp only [execBodyOpt, nameSeg, hfr, Bool.false_eq_true, if_false, execElemOpt, arrayOpOpt] at hc ⊢
        exact hc
    · have e : (Move.name n).lastBy cs root k g = pack (((k.namedBy cs n).take 1).flatMap (fun nd => g.itemsBy cs nd)) := by
        cases g <;> simp [Goal.isField] at hg hcnt <;> rfl
      rw [e]
      have hb : execQOpt env ev cs (nameSeg (spelling cs n) :: (goalSegs g).map (lowBy cs)) root c =
          firstMatchOpt env cs ((goalSegs g).map (lowBy cs)) (execQOpt env ev cs ((goalSegs g).map (lowBy cs)) false) (namedB env.ord cs n c) := by
        rw [← namedB_filter]
        cases g with
        | elem =>
          simp only [goalSegs, List.map_nil]
          rw [execQOpt]
          simp only [execBodyOpt, nameSeg, isFragmentQuery, Bool.and_false, Bool.false_and, Bool.false_eq_true, if_false, execElemOpt]
          cases (topElems env.ord c).filter (fun e => Seg.matchesOpt ⟨.elem (spelling cs n), []⟩ e.name cs) <;> rfl
        | text =>
          simp only [goalSegs, List.map_singleton, lowBy_text]
          rw [execQOpt]
          simp only [execBodyOpt, nameSeg, isFragmentQuery, SegKind.isRootOp, Bool.and_false, Bool.false_and, Bool.false_eq_true, if_false, execElemOpt]
        | attr a =>
          simp only [goalSegs, List.map_singleton, lowBy_attr]
          rw [execQOpt]
          simp only [execBodyOpt, nameSeg, isFragmentQuery, SegKind.isRootOp, Bool.and_false, Bool.false_and, Bool.false_eq_true, if_false, execElemOpt]
        | count => exact absurd rfl hcnt
        | _ => simp [Goal.isField] at hg
      rw [hb]
      have hr := namedB_rep (o := env.ord) (cs := cs) (n := n) h
      have hsub : ∀ nd ∈ k.namedBy cs n, nd ∈ k.elems := fun _ => namedBy_sub
      generalize namedB env.ord cs n c = es at hr
      generalize k.namedBy cs n = nds at hr hsub
      cases hr with
      | nil => exact rfl
      | @cons e nd es nds hr _ =>
        have h2 := goalBy_one (g := g) (cs := cs) ho hr (fun ha => hlone ha nd (hsub nd (by simp)))
        rw [if_neg hg] at h2
        simp only [List.take_succ_cons, List.take_zero, List.flatMap_cons, List.flatMap_nil, List.append_nil]
        cases g with
        | elem => exact h2
        | text => simp only [goalSegs, List.map_singleton, lowBy_text, firstMatchOpt]; exact h2
        | attr a => simp only [goalSegs, List.map_singleton, lowBy_attr, firstMatchOpt, List.isEmpty_nil, if_true]; exact h2
        | count => exact absurd rfl hcnt
        | _ => simp [Goal.isField] at hg

theorem moveBy_last (ho : env.ord.IsPerm) {S : List Seg} {m : Move} (hm : MoveSegs d t ev S m) {g : Goal} (hok : g.Ok) (hd : (∃ n, m = .deep n) → d) (ht : g = .fieldText → t)
    (hu : g.isAttr = true → cs = false → u) (root : Bool) {c : Bytes} {k : Info} (h : Reads env.ord c k) (hf : FineBy d t u k) :
    Gives (execQOpt env ev cs (S.map (lowBy cs) ++ (goalSegs g).map (lowBy cs)) root c) (m.lastBy cs root k g) := by
  have hsub : ∀ nds : List Node, (∀ nd ∈ nds, nd ∈ k.elems) → g = .fieldText → ∀ nd ∈ nds, nd.kids.Quiet :=
    fun nds hs hg nd hn => (hf.fine.kids (hs nd hn)).text (ht hg)
  have hlone : ∀ k : Info, FineBy d t u k → g.isAttr = true → ∀ nd ∈ k.elems, Lone cs nd := fun k hf ha nd hn hc => (caseUnique_elems (hf.uniq (hu ha hc)) nd hn).1
  have hrec : ∀ x : Seg, d → Gives (handleRecursiveOpt env cs (x :: (goalSegs g).map (lowBy cs)) (execQOpt env ev cs ((goalSegs g).map (lowBy cs)) false) c)
      (pack (fill 1000 (((k.within 101).filter (fun nd => x.matchesOpt nd.name cs)).map (fun nd => if g.isField then [] else g.itemsBy cs nd)))) := fun x hdd =>
    recOpt_gives ho (rest := (goalSegs g).map (lowBy cs)) hdd (fun k hk e nd hn hr => emitOpt_goal ho hr (fun ha => hlone k hk ha nd hn)) h hf
  have hdeep : ∀ l : List Node, pack (fill 1000 (l.map (fun nd => if g.isField then [] else g.itemsBy cs nd))) =
      if g.isField then .nothing else pack (fill 1000 (l.map (fun nd => g.itemsBy cs nd))) := by
    intro l
    by_cases hg : g.isField = true
    · simp only [hg, if_true]
      have : ∀ (l : List Node) k, fill k (l.map (fun _ => ([] : List Item))) = [] := by
        intro l
        induction l with
        | nil => intro k; exact fill_nil k
        | cons a l ih =>
          intro k
          cases k with
          | zero => rfl
          | succ k => simp only [List.map_cons, fill, List.nil_append, List.length_nil, Nat.sub_zero]; exact ih _
      rw [this]; rfl
    · simp only [if_neg hg]
  cases hm with
  | name n =>
    simp only [List.map_cons, List.map_nil, lowBy_name, List.cons_append, List.nil_append]
    exact nameBy_goal ho hok n ht hu root h hf
  | nth n j i hij =>
    simp only [List.map_cons, List.map_nil, lowBy_name, lowBy_index, List.cons_append, List.nil_append]
    have e : (Move.nth n j).lastBy cs root k g = if ((Move.nth n j).nodesBy cs root k).isEmpty then .nothing else if g.isField then .many []
        else if (match g with | .text => !(root && cs) | _ => false) then .nothing else pack (((Move.nth n j).nodesBy cs root k).flatMap (fun nd => g.itemsBy cs nd)) := by
      cases g <;> cases root <;> cases cs <;> simp [Move.lastBy, Goal.isField]
    rw [e]
    rcases execOpt_nth env ev cs n hij ((goalSegs g).map (lowBy cs)) root h with ⟨e1, e2⟩ | ⟨e, nd, hr, e2, hn, e1⟩
    · rw [e1, e2]; exact rfl
    · simp only [e1, e2, List.isEmpty_cons, Bool.false_eq_true, if_false, List.flatMap_cons, List.flatMap_nil, List.append_nil]
      have h2 := goalBy_one (g := g) (cs := cs) ho hr (fun ha => hlone k hf ha nd hn)
      by_cases hg : g.isField = true
      · rw [if_pos hg, goalLow_field hg]
        simp only [idxAtBy]
        rw [execQOpt]; exact ⟨rfl, .nil⟩
      · rw [if_neg hg] at h2 ⊢
        cases g with
        | elem => exact h2
        | text =>
          simp only [goalSegs, List.map_singleton, lowBy_text, idxAtBy]
          by_cases hrc : (root && cs) = true
          · simp only [hrc, if_true, Bool.not_true, Bool.false_eq_true, if_false]; exact h2
          · simp only [hrc, if_false]
            rw [execQOpt]; exact rfl
        | attr a => simp only [goalSegs, List.map_singleton, lowBy_attr, idxAtBy]; exact h2
        | count => simp only [goalSegs, List.map_singleton, lowBy_count, idxAtBy]; rw [execQOpt]; exact h2
        | _ => simp [Goal.isField] at hg
  | sat n f p hp =>
    simp only [List.map_cons, List.map_nil, lowBy_name, lowBy_filter, List.cons_append, List.nil_append, execOpt_name_filter]
    have := routeOpt_first_goal (env := env) (ev := ev) (cs := cs) (s := ⟨.filter f false, []⟩) ho hok rfl (amongBy_rep (cs := cs) h hf.fine n hp).1 (hsub _ (fun _ => amongBy_sub (cs := cs) (n := some n)))
      (fun ha nd hn => hlone k hf ha nd (amongBy_sub (cs := cs) (n := some n) hn))
    cases g <;> simpa [Move.lastBy, Move.nodesBy, Goal.isField] using this
  | satF f p hp =>
    simp only [List.map_cons, List.map_nil, lowBy_filter, List.cons_append, List.nil_append, execOpt_filter]
    have := routeOpt_first_goal (env := env) (ev := ev) (cs := cs) (s := ⟨.filter f false, []⟩) ho hok rfl (amongBy_rep (cs := cs) h hf.fine [] hp).2 (hsub _ (fun _ => amongBy_sub (cs := cs) (n := none)))
      (fun ha nd hn => hlone k hf ha nd (amongBy_sub (cs := cs) (n := none) hn))
    cases g <;> simpa [Move.lastBy, Move.nodesBy, Goal.isField] using this
  | satAll n f p hp =>
    simp only [List.map_cons, List.map_nil, lowBy_name, lowBy_filter, List.cons_append, List.nil_append, execOpt_name_filter]
    have := routeOpt_all_goal (env := env) (ev := ev) (cs := cs) (s := ⟨.filter f true, []⟩) ho hok rfl (amongBy_rep (cs := cs) h hf.fine n hp).1 (hsub _ (fun _ => amongBy_sub (cs := cs) (n := some n)))
      (fun ha nd hn => hlone k hf ha nd (amongBy_sub (cs := cs) (n := some n) hn))
    cases g <;> simpa [Move.lastBy, Move.nodesBy, Goal.isField] using this
  | satAllF f p hp =>
    simp only [List.map_cons, List.map_nil, lowBy_filter, List.cons_append, List.nil_append, execOpt_filter]
    have := routeOpt_all_goal (env := env) (ev := ev) (cs := cs) (s := ⟨.filter f true, []⟩) ho hok rfl (amongBy_rep (cs := cs) h hf.fine [] hp).2 (hsub _ (fun _ => amongBy_sub (cs := cs) (n := none)))
      (fun ha nd hn => hlone k hf ha nd (amongBy_sub (cs := cs) (n := none) hn))
    cases g <;> simpa [Move.lastBy, Move.nodesBy, Goal.isField] using this
  | any =>
    simp only [List.map_cons, List.map_nil, lowBy_wild, List.cons_append, List.nil_append, execOpt_wild]
    have := wildOpt_goal (env := env) (ev := ev) (g := g) (cs := cs) ho (All2.take h maxWildcardResults) (fun ha nd hn => hlone k hf ha nd (take_sub hn))
    cases g <;> simpa [Move.lastBy, Move.nodesBy, Goal.isField, maxWild] using this
  | deep n =>
    simp only [List.map_cons, List.map_nil, lowBy_name, lowBy_wild, List.cons_append, List.nil_append, execQOpt]
    have := hrec (nameSeg (spelling cs n)) (hd ⟨_, rfl⟩)
    simp only [matchesOpt_spelled] at this
    rw [hdeep] at this
    cases g <;> exact this
  | deepAny b =>
    simp only [List.map_cons, List.map_nil, lowBy_wild, List.cons_append, List.nil_append, execQOpt]
    have := hrec ⟨.wild b, []⟩ (hd ⟨_, rfl⟩)
    have e : (k.within 101).filter (fun nd => Seg.matchesOpt ⟨.wild b, []⟩ nd.name cs) = k.within 101 := List.filter_eq_self.mpr (fun _ _ => rfl)
    rw [e, hdeep] at this
    cases g <;> exact this

/-- executeQueryWithOptions answers a path as it means under the options. -/
theorem execOpt_ask (ho : env.ord.IsPerm) {Ss : List (List Seg)} {ms : List Move} (hm : All2 (MoveSegs d t ev) Ss ms) (hp : Proper ms) {g : Goal} (hok : g.Ok)
    (hd : (∃ n, .deep n ∈ ms) → d) (ht : g = .fieldText → t) (hu : g.isAttr = true → cs = false → u) (root : Bool) {c : Bytes} {k : Info} (h : Reads env.ord c k) (hf : FineBy d t u k) :
    Gives (execQOpt env ev cs ((Ss.flatten ++ goalSegs g).map (lowBy cs)) root c) (askBy cs ms g root k) := by
  induction hm generalizing root c k with
  | nil =>
    simp only [List.flatten_nil, List.nil_append, askBy]
    by_cases hg : g.isField = true
    · rw [if_pos hg, goalLow_field hg, execQOpt]; exact ⟨rfl, .nil⟩
    · rw [if_neg hg]
      cases g <;> simp [Goal.isField] at hg <;> simp only [goalSegs, List.map_nil, List.map_singleton, lowBy_attr, lowBy_text, lowBy_count] <;> rw [execQOpt] <;> exact rfl
  | @cons S m Ss ms h1 h2 ih =>
    cases h2 with
    | nil =>
      simp only [List.flatten_cons, List.flatten_nil, List.append_nil, askBy, List.map_append]
      exact moveBy_last ho h1 hok (fun ⟨n, e⟩ => hd ⟨n, by simp [e]⟩) ht hu root h hf
    | @cons S2 m2 Ss ms h3 h4 =>
      obtain ⟨s, S', rfl, e1, e2, e3, e4⟩ := moveSegs_head h3
      have hp' : Proper (m2 :: ms) ∧ ((∃ x, m = .name x) → m2.Free) := by
        cases m <;> simp [Proper] at hp ⊢ <;> first | exact hp | exact ⟨hp.2, hp.1⟩
      simp only [List.flatten_cons, List.append_assoc, askBy, List.cons_append, List.map_append, List.map_cons]
      refine moveBy_join ho h1 (by rw [lowBy_move]; exact e1) (by rw [lowBy_mods]; exact e2) (fun hx => by rw [lowBy_step]; exact e3 (hp'.2 hx)) (fun c k hc hk => ?_)
        (fun ⟨n, e⟩ => hd ⟨n, by simp [e]⟩) root h hf
      have := ih hp'.1 (fun ⟨n, hn⟩ => hd ⟨n, List.mem_cons_of_mem _ hn⟩) false hc hk
      simpa only [List.flatten_cons, List.append_assoc, List.cons_append, List.map_append, List.map_cons] using this

end

/-- `GetWithOptions` on readable content. -/
theorem getWithOptions_ask (env : Env) (ho : env.ord.IsPerm) {dp : Bool} {ps gs : List Bytes} {ms : List Move} {g : Goal} (h : Spells env.parseFloat dp (.moves ps ms))
    (hg : GoalText gs g) (hp : Proper ms) (hne : ps ++ gs ≠ []) (hl : (ps ++ gs).length ≤ 100) {xml : Bytes} {i : Info} (hx : xml.length ≤ 10485760)
    (hr : Reads env.ord xml i) (opts : Options) (hopts : opts ≠ defaultOptions)
    (hf : FineBy (dp = true) (g = .fieldText) (g.isAttr = true ∧ opts.caseSensitive = false) i) :
    ∃ r, getWithOptions env xml (pathOf (ps ++ gs)) (some opts) = .ret r ∧ Gives r (askBy opts.caseSensitive ms g true i) := by
  have hP := spells_parsed ho (g = .fieldText) h
  obtain ⟨Ss, h1, h2⟩ := path_parse hP hg hne hl
  obtain ⟨-, -, -, hd, -⟩ := hP
  have hG := execOpt_ask (cs := opts.caseSensitive) ho h2 hp (goal_parse hg).2.1 hd id (fun a b => ⟨a, b⟩) true hr hf
  have hmd : maxDocumentSize = 10485760 := rfl
  refine ⟨_, ?_, hG⟩
  unfold getWithOptions
  have hdef : isDefaultOptions (some opts) = false := by
    rw [Bool.eq_false_iff]
    intro hd
    apply hopts
    obtain ⟨c, i, p, n⟩ := opts
    simp only [isDefaultOptions, Bool.and_eq_true, List.isEmpty_iff, Bool.not_eq_true', Option.isNone_iff_eq_none] at hd
    obtain ⟨⟨⟨rfl, rfl⟩, rfl⟩, rfl⟩ := hd; rfl
  rw [if_neg (by omega), hdef]
  simp only [Bool.false_eq_true, if_false, Option.getD_some, parsePathWithOptions]
  rw [h1]
  have hmap : (if opts.caseSensitive = true then Parse.ok (Ss.flatten ++ goalSegs g) else Parse.ok ((Ss.flatten ++ goalSegs g).map lowerSeg)) =
      .ok ((Ss.flatten ++ goalSegs g).map (lowBy opts.caseSensitive)) := by
    cases opts.caseSensitive with
    | true => simp only [if_true]; rw [show lowBy true = id from rfl, List.map_id]
    | false => rfl
  simp only
  rw [hmap]
  cases hs : (Ss.flatten ++ goalSegs g).map (lowBy opts.caseSensitive) with
  | nil =>
    simp only
    rw [execQOpt]
  | cons s ss => simp only

end Verif
