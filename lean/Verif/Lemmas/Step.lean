import Verif.Lemmas.Query
import Verif.Spec.Answer
/- Final steps of a query at one level, and parsing of the paths that lead to them. -/
namespace Verif
open Spec

/-- The result describes the element: as `Spec.IsElement`, and Raw is written the canonical way. -/
structure IsElementW (r : Result) (nd : Node) : Prop where
  typ : r.typ = .element
  str : r.toStr = nd.kids.textValue
  raw : Writes r.raw nd.kids
  results : r.results = []

theorem canonF_plain {f : Forest} : CanonF f ↔ f.Plain := by
  induction f with
  | nil => exact Iff.rfl
  | text b next ih => exact ih
  | misc m next ih => exact ih
  | leaf n as ws next ih => exact and_congr Iff.rfl (and_congr Iff.rfl ih)
  | node n as ws kids cws next ihk ih => exact and_congr Iff.rfl (and_congr Iff.rfl (and_congr Iff.rfl (and_congr ihk ih)))

theorem canonD_plain {g : Draft} : CanonD g ↔ g.Plain := by
  induction g with
  | done f => exact canonF_plain
  | more f n as ws rest ih => exact and_congr canonF_plain (and_congr Iff.rfl (and_congr Iff.rfl ih))

theorem IsElementW.spec {r : Result} {nd : Node} (h : IsElementW r nd) : IsElement r nd where
  typ := h.typ
  str := h.str
  raw := by obtain ⟨f, hc, hl, ht, hi, hr⟩ := h.raw; exact ⟨f, hl, ht, canonD_plain.mp hc, hr.symm, hi⟩
  results := h.results

theorem IsElementW.of {r : Result} {nd : Node} (h : IsElement r nd) : IsElementW r nd where
  typ := h.typ
  str := h.str
  raw := by obtain ⟨f, hl, ht, hc, hr, hi⟩ := h.raw; exact ⟨f, canonD_plain.mpr hc, hl, ht, hi, hr.symm⟩
  results := h.results

theorem Yields.imp {α : Type} {Q Q' : Result → α → Prop} {r : Result} {v : Option α} (h : Yields Q r v)
    (hq : ∀ r a, Q r a → Q' r a) : Yields Q' r v := by
  cases v with
  | none => exact h
  | some a => exact ⟨h.1, hq _ _ h.2⟩

theorem ofContent_is {c : Bytes} {nd : Node} (h : Writes c nd.kids) : IsElementW (.ofContent c) nd where
  typ := rfl
  str := by rw [Result.toStr_ne _ (by simp) (by simp)]; exact writes_text h
  raw := h
  results := rfl

theorem runMods_nil (mods : Bytes → Option (Result → Result)) (r : Result) : applyModifiers mods r [] = r := by
  simp [applyModifiers, runMods]

theorem namedE_filter (o : Ord) (n : Bytes) (mods : List Bytes) (xml : Bytes) :
    (topElems o xml).filter (fun e => (Seg.mk (.elem n) mods).matches e.name) = namedE o n xml := rfl

theorem step_elem (env : Env) (ev : Filter → Elem → Bool) (n : Bytes) (root : Bool) {c : Bytes} {k : Info}
    (h : Reads env.ord c k) : Yields IsElementW (execQ env ev [nameSeg n] root c) ((k.named n).head?) := by
  have hr := namedE_rep (n := n) h
  rw [execQ]
  simp only [execBody, nameSeg, isFragmentQuery, Bool.and_false, Bool.false_eq_true, if_false, execElem]
  rw [namedE_filter]
  generalize namedE env.ord n c = es, k.named n = ns at hr ⊢
  cases hr with
  | nil => exact rfl
  | cons hab _ =>
    rw [firstMatch, runMods_nil]
    exact ⟨by simp, ofContent_is hab.content⟩

theorem step_attr (env : Env) (ev : Filter → Elem → Bool) (n a : Bytes) (root : Bool) {c : Bytes} {k : Info}
    (h : Reads env.ord c k) :
    Yields (fun r v => r = .ofAttr v) (execQ env ev [nameSeg n, ⟨.attr a, []⟩] root c) ((k.named n).head?.bind (·.attr a)) := by
  have hr := namedE_rep (n := n) h
  rw [execQ]
  simp only [execBody, nameSeg, isFragmentQuery, SegKind.isRootOp, Bool.and_false, Bool.false_eq_true, if_false, execElem]
  rw [namedE_filter]
  generalize namedE env.ord n c = es, k.named n = ns at hr ⊢
  cases hr with
  | nil => exact rfl
  | @cons e nd _ _ hab _ =>
    rw [firstMatch]
    simp only [hab.attr, List.head?_cons, Option.bind_some]
    cases hv : nd.attr a with
    | none => exact rfl
    | some v => simp only [List.isEmpty_nil, if_true]; rw [runMods_nil]; exact ⟨by simp, rfl⟩

theorem ofText_is {c : Bytes} {nd : Node} (h : Writes c nd.kids) : IsOwnText (.ofText c) nd where
  typ := rfl
  str hg := by rw [Result.toStr_ne _ (by simp) (by simp)]; exact writes_direct h hg
  results := rfl

theorem step_text (env : Env) (ev : Filter → Elem → Bool) (n : Bytes) (root : Bool) {c : Bytes} {k : Info}
    (h : Reads env.ord c k) :
    Yields IsOwnText (execQ env ev [nameSeg n, ⟨.text, []⟩] root c) ((k.named n).head?) := by
  have hr := namedE_rep (n := n) h
  rw [execQ]
  simp only [execBody, nameSeg, isFragmentQuery, SegKind.isRootOp, Bool.and_false, Bool.false_eq_true, if_false, execElem]
  rw [namedE_filter]
  generalize namedE env.ord n c = es, k.named n = ns at hr ⊢
  cases hr with
  | nil => exact rfl
  | @cons e nd _ _ hab _ =>
    rw [firstMatch]
    simp only [runMods_nil, List.head?_cons]
    exact ⟨by simp, ofText_is hab.content⟩

/-! ### index and count -/

theorem maxWild : maxWildcardResults = 1000 := rfl

theorem count_yields {R : Elem → Node → Prop} {es : List Elem} {ns : List Node} (h : All2 R es ns) :
    Yields (fun r m => r = .ofCount m)
      (if (es.take maxWildcardResults).isEmpty then .null else .ofCount (es.take maxWildcardResults).length)
      (if ns.isEmpty then none else some (min 1000 ns.length)) := by
  have hlen := h.length
  cases h with
  | nil => exact rfl
  | cons h1 h2 =>
    simp only [List.length_take, ← hlen]
    exact ⟨by simp [maxWild], rfl⟩

theorem step_count (env : Env) (ev : Filter → Elem → Bool) (n : Bytes) (root : Bool) {c : Bytes} {k : Info}
    (h : Reads env.ord c k) :
    Yields (fun r m => r = .ofCount m) (execQ env ev [nameSeg n, ⟨.count, []⟩] root c)
      (if (k.hits root n).isEmpty then none else some (min 1000 (k.hits root n).length)) := by
  rw [execQ]
  cases root with
  | false =>
    simp only [execBody, nameSeg, isFragmentQuery, Bool.false_and, Bool.false_eq_true, if_false, execElem]
    rw [namedE_filter]
    simp only [Info.hits, Bool.false_eq_true, if_false]
    unfold arrayOp
    simp only [runMods_nil]
    exact count_yields (namedE_rep (n := n) h)
  | true =>
    simp only [execBody, nameSeg, isFragmentQuery, SegKind.isRootOp, Bool.and_self, if_true]
    simp only [Info.hits, if_true]
    unfold fragmentRoots
    exact count_yields (All2.filter (p := fun e => decide (e.name = n)) (q := fun e => decide (e.name = n)) h
      (fun _ _ hr => by simp only [hr.name]))

theorem step_index (env : Env) (ev : Filter → Elem → Bool) (n : Bytes) (j : Nat) (root : Bool) {c : Bytes} {k : Info}
    (h : Reads env.ord c k) :
    Yields IsElementW (execQ env ev [nameSeg n, ⟨.index j, []⟩] root c) (((k.hits root n).take 1000)[j]?) := by
  rw [execQ]
  cases root with
  | false =>
    have hr := (namedE_rep (n := n) h).take maxWildcardResults
    simp only [execBody, nameSeg, isFragmentQuery, Bool.false_and, Bool.false_eq_true, if_false, execElem]
    rw [namedE_filter]
    simp only [Info.hits, Bool.false_eq_true, if_false]
    unfold arrayOp
    rw [← maxWild]
    split
    · rename_i he
      rw [hr.isEmpty, List.isEmpty_iff] at he
      rw [he]; exact rfl
    · have hj : ¬ ((j : Int) < 0) := by omega
      simp only [hj, if_false, Int.toNat_natCast, runMods_nil]
      rcases hr.get j with ⟨h1, h2⟩ | ⟨a, b, h1, h2, h3⟩
      · rw [h1, h2]; exact rfl
      · rw [h1, h2]; exact ⟨by simp, ofContent_is h3.content⟩
  | true =>
    have hr := (All2.filter (p := fun e => decide (e.name = n)) (q := fun e => decide (e.name = n)) h
      (fun _ _ hr => by simp only [hr.name])).take maxWildcardResults
    simp only [execBody, nameSeg, isFragmentQuery, SegKind.isRootOp, Bool.and_self, if_true]
    simp only [Info.hits, if_true]
    unfold fragmentRoots
    rw [← maxWild]
    split
    · rename_i he
      rw [hr.isEmpty, List.isEmpty_iff] at he
      rw [he]; exact rfl
    · have hj : ¬ ((j : Int) < 0) := by omega
      simp only [hj, if_false, Int.toNat_natCast]
      rcases hr.get j with ⟨h1, h2⟩ | ⟨a, b, h1, h2, h3⟩
      · rw [h1, h2]; exact rfl
      · rw [h1, h2]; exact ⟨by simp, ofContent_is h3.content⟩

/-- A negative index finds nothing. -/
theorem step_neg (env : Env) (ev : Filter → Elem → Bool) (n : Bytes) (j : Int) (hj : j < 0) (root : Bool) (c : Bytes) :
    execQ env ev [nameSeg n, ⟨.index j, []⟩] root c = .null := by
  rw [execQ]
  cases root with
  | false =>
    simp only [execBody, nameSeg, isFragmentQuery, Bool.false_and, Bool.false_eq_true, if_false, execElem]
    unfold arrayOp
    simp [hj]
  | true =>
    simp only [execBody, nameSeg, isFragmentQuery, SegKind.isRootOp, Bool.and_self, if_true]
    unfold fragmentRoots
    simp [hj]

/-! ### wildcard -/

theorem IsList.imp {α : Type} {Q Q' : Result → α → Prop} {r : Result} {l : List α} (h : IsList Q r l)
    (hq : ∀ r a, Q r a → Q' r a) : IsList Q' r l := by
  unfold IsList at *
  split
  · exact hq _ _ h
  · rename_i hn
    split at h
    · exact absurd rfl (hn _)
    · exact ⟨h.1, h.2.imp hq⟩

theorem packResults_is {α : Type} {Q : Result → α → Prop} {rs : List Result} {l : List α} (h : All2 Q rs l) :
    IsList Q (packResults rs) l := by
  cases h with
  | nil => exact ⟨rfl, .nil⟩
  | cons h1 h2 =>
    cases h2 with
    | nil => exact h1
    | cons h3 h4 => exact ⟨rfl, .cons h1 (.cons h3 h4)⟩

theorem packResults_typ {rs : List Result} (h : ∀ r ∈ rs, r.typ ≠ .null) : (packResults rs).typ ≠ .null := by
  unfold packResults
  split
  · exact h _ (by simp)
  · simp

theorem step_wild (env : Env) (ev : Filter → Elem → Bool) (root : Bool) {c : Bytes} {k : Info} (h : Reads env.ord c k) :
    Yields (IsList IsElementW) (execQ env ev [⟨.wild false, []⟩] root c)
      (if k.elems.isEmpty then none else some (k.elems.take 1000)) := by
  have hr := All2.take h maxWildcardResults
  rw [execQ]
  simp only [execBody, runMods_nil, List.isEmpty_nil, if_true, handleWildcard]
  rw [hr.isEmpty, show (k.elems.take maxWildcardResults).isEmpty = k.elems.isEmpty by rw [maxWild]; cases k.elems <;> rfl]
  split
  · exact rfl
  · refine ⟨packResults_typ ?_, ?_⟩
    · intro r hr
      obtain ⟨e, -, rfl⟩ := List.mem_map.mp hr
      simp
    · refine packResults_is (?_ : All2 IsElementW _ (k.elems.take 1000))
      have := All2.map (S := IsElementW) (f := fun m : Elem => Result.ofContent m.content) (g := id) hr
        (fun a b hab => ofContent_is hab.content)
      simpa [maxWild] using this

/-! ### paths -/

theorem parsePath_parts (parts : List Bytes) (h1 : parts ≠ []) (h2 : parts ≠ [[]]) (hl : parts.length ≤ 100) :
    parsePath (pathOf parts) =
      match parseParts parts with
      | .panic => .panic
      | .err => .err
      | .ok ss => .ok (fuseFields ss) := by
  have hp : pathOf parts ≠ [] := by
    intro h; rcases pathOf_eq_nil h with h | h
    · exact h1 h
    · exact h2 h
  have hm : maxPathSegments = 100 := rfl
  unfold parsePath parsePathInternal
  rw [if_neg (by simpa using hp), splitPath_pathOf parts h2, if_neg (by omega)]
  cases parseParts parts <;> rfl

theorem parseParts_names (names parts : List Bytes) (h : ∀ n ∈ names, PlainName n) (ss : List Seg) (hs : parseParts parts = .ok ss) :
    parseParts (names ++ parts) = .ok (names.map nameSeg ++ ss) := by
  induction names with
  | nil => exact hs
  | cons n ns ih =>
    rw [List.cons_append, parseParts, parsePart_plain n (h n (by simp)), ih (fun m hm => h m (by simp [hm]))]
    rfl

theorem fuseFields_cons {s : Seg} (hs : s.kind ≠ .count) (r : List Seg) : fuseFields (s :: r) = s :: fuseFields r := by
  cases r with
  | nil => simp [fuseFields]
  | cons t r => rw [fuseFields, if_neg hs]

theorem fuseFields_names (names : List Bytes) (ss : List Seg) :
    fuseFields (names.map nameSeg ++ ss) = names.map nameSeg ++ fuseFields ss := by
  induction names with
  | nil => rfl
  | cons n ns ih =>
    simp only [List.map_cons, List.cons_append]
    rw [fuseFields_cons (by simp [nameSeg]), ih]

theorem digitsVal_append (ds : Bytes) (d : UInt8) : digitsVal (ds ++ [d]) = digitsVal ds * 10 + (d.toNat - 48) := by
  simp [digitsVal]

theorem decimal_facts {ds : Bytes} {j : Nat} (h : Decimal ds j) :
    ds ≠ [] ∧ (∀ d ∈ ds, 48 ≤ d ∧ d ≤ 57) ∧ digitsVal ds = j := by
  induction h with
  | digit d h => exact ⟨by simp, by simpa using h, by simp [digitsVal]⟩
  | snoc h hd ih =>
    refine ⟨by simp, ?_, ?_⟩
    · intro c hc
      rcases List.mem_append.mp hc with hc | hc
      · exact ih.2.1 c hc
      · rw [List.mem_singleton.mp hc]; exact hd
    · rw [digitsVal_append, ih.2.2]; omega

theorem parsePart_decimal {ds : Bytes} {j : Nat} (h : Decimal ds j) :
    parsePart ds = .seg ⟨.index (if j ≥ 2 ^ 63 then 2 ^ 63 - 1 else (j : Int)), []⟩ := by
  obtain ⟨h1, h2, h3⟩ := decimal_facts h
  have hdig : ∀ d ∈ ds, isDigit d = true := by
    intro d hd; simp only [isDigit, Bool.and_eq_true, decide_eq_true_eq]; exact h2 d hd
  have hne : ∀ c : UInt8, isDigit c = false → c ∉ ds := by
    intro c hc hm; rw [hdig c hm] at hc; exact absurd hc (by simp)
  have hnum : isNumeric ds = true := by
    unfold isNumeric
    simp only [Bool.and_eq_true, Bool.not_eq_true', List.isEmpty_eq_false_iff, List.all_eq_true, Bool.or_eq_true]
    exact ⟨h1, fun d hd => .inl (hdig d hd)⟩
  unfold parsePart
  simp only [parseModifiers_plain _ (hne c!"|" (by decide))]
  obtain ⟨c, cs, rfl⟩ := List.exists_cons_of_ne_nil h1
  have e1 : c ≠ c!"#" := fun e => hne c!"#" (by decide) (by simp [e])
  have e2 : c ≠ c!"@" := fun e => hne c!"@" (by decide) (by simp [e])
  have e3 : c ≠ c!"%" := fun e => hne c!"%" (by decide) (by simp [e])
  have e4 : c ≠ c!"*" := fun e => hne c!"*" (by decide) (by simp [e])
  have e5 : c ≠ c!"-" := fun e => hne c!"-" (by decide) (by simp [e])
  have e6 : c ≠ c!"+" := fun e => hne c!"+" (by decide) (by simp [e])
  have hat : atoi (c :: cs) = if j ≥ 2 ^ 63 then 2 ^ 63 - 1 else (j : Int) := by
    unfold atoi
    have hall : (c :: cs).all isDigit = true := by rw [List.all_eq_true]; exact hdig
    have htw : (c :: cs).takeWhile isDigit = c :: cs := by
      have := List.takeWhile_append_of_pos (l₂ := []) hdig
      simpa only [List.append_nil, List.takeWhile_nil] using this
    simp only [e5, e6, if_false, List.isEmpty_cons, Bool.false_or, hall, Bool.not_true, Bool.false_and, Bool.false_eq_true, htw, h3]
  simp only [hasPrefix, List.isPrefixOf, List.isEmpty_cons, Bool.false_eq_true, if_false, hnum, if_true, hat,
    beq_iff_eq, Bool.and_eq_true, Ne.symm e1, Ne.symm e2, false_and, List.cons.injEq, e1, e3, e4]

/-- A path of ordinary names followed by parts that parse to `ss`. -/
theorem parsePath_names (names parts : List Bytes) (h : ∀ n ∈ names, PlainName n) (hne : names ≠ []) (hl : names.length + parts.length ≤ 100)
    (ss : List Seg) (hs : parseParts parts = .ok ss) :
    parsePath (pathOf (names ++ parts)) = .ok (names.map nameSeg ++ fuseFields ss) := by
  obtain ⟨n, ns, rfl⟩ := List.exists_cons_of_ne_nil hne
  rw [parsePath_parts, parseParts_names _ _ h ss hs]
  · simp only; rw [fuseFields_names]
  · simp
  · intro he
    simp only [List.cons_append, List.cons.injEq] at he
    exact (h n (by simp)).nonempty he.1
  · rw [List.length_append]; exact hl

/-- Get on a path of names, a name and final parts, for anything the parser reads as `i`. -/
theorem get_path_reads {α : Type} {Q : Result → α → Prop} {g : Info → Option α} (env : Env) (ho : env.ord.IsPerm)
    {xml : Bytes} {i : Info} (hx : xml.length ≤ 10485760) (h : Reads env.ord xml i) (pre : List Bytes) (n : Bytes) (parts : List Bytes) (hp : ∀ m ∈ pre ++ [n], PlainName m)
    (hl : pre.length + 1 + parts.length ≤ 100) (ss : List Seg) (hs : parseParts parts = .ok ss)
    (hg : ∀ c k, Reads env.ord c k → Yields Q (execQ env (evalFilter env) (nameSeg n :: fuseFields ss) pre.isEmpty c) (g k)) :
    ∃ r, get env xml (pathOf (pre ++ [n] ++ parts)) = .ret r ∧ Yields Q r ((i.reach pre).findSome? g) := by
  have hd : maxDocumentSize = 10485760 := rfl
  unfold get
  rw [if_neg (by omega), parsePath_names (pre ++ [n]) parts hp (by simp) (by simpa using hl) ss hs]
  have e : (pre ++ [n]).map nameSeg ++ fuseFields ss = pre.map nameSeg ++ nameSeg n :: fuseFields ss := by simp
  rw [e]
  have hy := exec_path env ho (evalFilter env) pre (nameSeg n) (fuseFields ss) rfl h hg
  refine ⟨executeQuery env (pre.map nameSeg ++ nameSeg n :: fuseFields ss) xml, ?_, hy⟩
  cases pre <;> rfl

/-- Get on a path of names, a name and final parts. -/
theorem get_path {α : Type} {Q : Result → α → Prop} {g : Info → Option α} (env : Env) (ho : env.ord.IsPerm)
    {xml : Bytes} {i : Info} (h : Says xml i) (pre : List Bytes) (n : Bytes) (parts : List Bytes) (hp : ∀ m ∈ pre ++ [n], PlainName m)
    (hl : pre.length + 1 + parts.length ≤ 100) (ss : List Seg) (hs : parseParts parts = .ok ss)
    (hg : ∀ c k, Reads env.ord c k → Yields Q (execQ env (evalFilter env) (nameSeg n :: fuseFields ss) pre.isEmpty c) (g k)) :
    ∃ r, get env xml (pathOf (pre ++ [n] ++ parts)) = .ret r ∧ Yields Q r ((i.reach pre).findSome? g) :=
  get_path_reads env ho h.1 (says_reads ho h) pre n parts hp hl ss hs hg

end Verif
