import Verif.Lemmas.FilterStep
import Verif.Props.Recursive
/- Properties of field extraction and filters: C10, C11, C12. -/
namespace Verif.Props
open Spec

/-! ## C10 field extraction -/

/-- The common part: the answer is that of the first parent reached; at the first step of a path, a document without the name gives no result. -/
theorem get_field {α : Type} {Q : Result → α → Prop} (P : Info → Prop) (env : Env) (ho : env.ord.IsPerm) {xml : Bytes} {i : Info} (h : Says xml i)
    (pre : List Bytes) (n f : Bytes) (hp : ∀ m ∈ pre ++ [n], PlainName m) (hl : pre.length < 98) (hne : f ≠ [])
    (hf : ∃ ss, parseParts [b!"#", f] = .ok ss ∧ fuseFields ss = [⟨.field f, []⟩]) {vals : Node → List α} (hP : ∀ k ∈ i.reach pre, P k)
    (hv : ∀ k, P k → ∀ e nd, Rep e nd → nd ∈ k.elems → All2 Q (fieldValues env.ord f e) (vals nd)) :
    match (i.groups pre n).head? with
    | none => get env xml (pathOf (pre ++ [n] ++ [b!"#", f])) = .ret .null
    | some g => if pre = [] ∧ g = [] then get env xml (pathOf (pre ++ [n] ++ [b!"#", f])) = .ret .null
      else ∃ r, get env xml (pathOf (pre ++ [n] ++ [b!"#", f])) = .ret r ∧ IsArrayOf Q r (((g.take 1000).flatMap vals).take 1000) := by
  obtain ⟨ss, hs1, hs2⟩ := hf
  have hd : maxDocumentSize = 10485760 := rfl
  have hx := h.1
  have hq : get env xml (pathOf (pre ++ [n] ++ [b!"#", f])) = .ret (executeQuery env (pre.map nameSeg ++ nameSeg n :: [⟨.field f, []⟩]) xml) := by
    unfold get
    rw [if_neg (by omega), parsePath_names (pre ++ [n]) [b!"#", f] hp (by simp) (by simp; omega) ss hs1, hs2]
    cases pre <;> simp
  have hy := exec_path_on P env ho (evalFilter env) pre (nameSeg n) [⟨.field f, []⟩] rfl (says_reads ho h) hP
    (fun c k hc hPk => step_field env (evalFilter env) n f hne pre.isEmpty hc (hv k hPk))
  rw [hq]
  unfold executeQuery
  revert hy
  generalize execQ env (evalFilter env) (pre.map nameSeg ++ [nameSeg n, ⟨.field f, []⟩]) true xml = r
  intro hy
  rw [Info.groups]
  cases hr : i.reach pre with
  | nil => rw [hr] at hy; exact congrArg _ hy
  | cons k ks =>
    rw [hr] at hy
    simp only [List.findSome?_cons, List.map_cons, List.head?_cons] at hy ⊢
    cases pre with
    | nil =>
      simp only [Info.reach, List.cons.injEq] at hr
      obtain ⟨rfl, rfl⟩ := hr
      simp only [List.isEmpty_nil, Bool.true_and, List.findSome?_nil, true_and] at hy ⊢
      cases hh : i.hits true n with
      | nil => rw [hh] at hy; exact congrArg _ hy
      | cons a l =>
        rw [hh] at hy
        simp only [List.isEmpty_cons, Bool.false_eq_true, if_false, reduceCtorEq] at hy ⊢
        exact ⟨r, rfl, hy.2⟩
    | cons p ps =>
      simp only [List.isEmpty_cons, Bool.false_and, Bool.false_eq_true, if_false, reduceCtorEq, false_and] at hy ⊢
      exact ⟨r, rfl, hy.2⟩

/-- C10: `#.f` collects the children named exactly `f` of every match (of the first 1000) below the first parent reached, in document
order, as an Array of at most 1000; it is an empty Array if there are none. Only if no parent is reached, or the root name itself is
missing, there is no result. -/
theorem C10_field (env : Env) (ho : env.ord.IsPerm) (xml : Bytes) (i : Info) (h : Says xml i)
    (pre : List Bytes) (n f : Bytes) (hp : ∀ m ∈ pre ++ [n], PlainName m) (hl : pre.length < 98) (hf : Identifier f) (hfl : f.length ≤ 256) :
    match (i.groups pre n).head? with
    | none => get env xml (pathOf (pre ++ [n] ++ [b!"#", f])) = .ret .null
    | some g => if pre = [] ∧ g = [] then get env xml (pathOf (pre ++ [n] ++ [b!"#", f])) = .ret .null
      else ∃ r, get env xml (pathOf (pre ++ [n] ++ [b!"#", f])) = .ret r ∧
        IsArrayOf IsElement r (((g.take 1000).flatMap (fun nd => nd.kids.elems.filter (fun x => x.name = f))).take 1000) := by
  have hpl := identifier_plain hf
  refine get_field (fun _ => True) env ho h pre n f hp hl hpl.nonempty (parseParts_field_name hf hfl) (fun _ _ => trivial) ?_
  intro k _ e nd hr _
  exact (fieldValues_elem ho f hpl.noAt hpl.notPct e nd hr).imp (fun _ _ h => h.spec)

/-- C10 for attributes: `#.@a` collects the attribute `a` of every match having one. -/
theorem C10_field_attr (env : Env) (ho : env.ord.IsPerm) (xml : Bytes) (i : Info) (h : Says xml i)
    (pre : List Bytes) (n a : Bytes) (hp : ∀ m ∈ pre ++ [n], PlainName m) (hl : pre.length < 98) (hf : Identifier a) (hfl : a.length < 256) :
    match (i.groups pre n).head? with
    | none => get env xml (pathOf (pre ++ [n] ++ [b!"#", c!"@" :: a])) = .ret .null
    | some g => if pre = [] ∧ g = [] then get env xml (pathOf (pre ++ [n] ++ [b!"#", c!"@" :: a])) = .ret .null
      else ∃ r, get env xml (pathOf (pre ++ [n] ++ [b!"#", c!"@" :: a])) = .ret r ∧
        IsArrayOf (fun r v => r = .ofAttr v) r (((g.take 1000).flatMap (fun nd => (nd.attr a).toList)).take 1000) :=
  get_field (fun _ => True) env ho h pre n _ hp hl (by simp) (parseParts_field_attr hf hfl) (fun _ _ => trivial)
    (fun _ _ e nd hr _ => fieldValues_attr env.ord a e nd hr)

/-- C10 for text: `#.%` collects the non-empty own text of every match. -/
theorem C10_field_text (env : Env) (ho : env.ord.IsPerm) (xml : Bytes) (i : Info) (h : Says xml i) (hg : i.Quiet)
    (pre : List Bytes) (n : Bytes) (hp : ∀ m ∈ pre ++ [n], PlainName m) (hl : pre.length < 98) :
    match (i.groups pre n).head? with
    | none => get env xml (pathOf (pre ++ [n] ++ [b!"#", b!"%"])) = .ret .null
    | some g => if pre = [] ∧ g = [] then get env xml (pathOf (pre ++ [n] ++ [b!"#", b!"%"])) = .ret .null
      else ∃ r, get env xml (pathOf (pre ++ [n] ++ [b!"#", b!"%"])) = .ret r ∧
        IsArrayOf (fun r v => r.typ = .string ∧ r.toStr = v) r (((g.take 1000).flatMap Node.ownTexts).take 1000) :=
  get_field Info.Quiet env ho h pre n _ hp hl (by simp) parseParts_field_text (fun k hk => quiet_reach hg pre k hk)
    (fun k hk e nd hr hm => fieldValues_text env.ord e nd hr (quiet_elems hk nd hm))

/-- Fields of two matches, and an empty Array. -/
example : get exEnv b!"<r><u><n>A</n></u><u><n>B</n><n>C</n></u></r>" b!"r.u.#.n" = .ret (.ofArray [.ofContent b!"A", .ofContent b!"B", .ofContent b!"C"]) := by
  decide +kernel
example : get exEnv exDoc.render b!"r.a.#.@k" = .ret (.ofArray [.ofAttr b!"1", .ofAttr b!"2"]) := by decide +kernel
example : get exEnv exDoc.render b!"r.a.#.zz" = .ret (.ofArray []) := by decide +kernel
/-- Only the first parent counts, unlike for a plain path. -/
theorem C10_first_parent : get exEnv b!"<r><p/><p><x><f>1</f></x></p></r>" b!"r.p.x.#.f" = .ret (.ofArray []) ∧
    get exEnv b!"<r><p/><p><x><f>1</f></x></p></r>" b!"r.p.x.f" = .ret (.ofContent b!"1") := by decide +kernel

/-! ## C11 filters -/

/-- C11: `#(cond)#` is the Array of exactly those matches (of the first 1000) below the first parent having any that satisfy the condition, in document
order; no result if none does. -/
theorem C11_filter_all (env : Env) (ho : env.ord.IsPerm) (xml : Bytes) (i : Info) (h : Says xml i)
    (pre : List Bytes) (n : Bytes) (hp : ∀ m ∈ pre ++ [n], PlainName m) (hl : pre.length < 99)
    {expr p v : Bytes} {op : FilterOp} (hc : CondText expr p op v) (ht : Testable p)
    (sat : Node → Bool) (hs : ∀ nd, sat nd = true ↔ Satisfies env.parseFloat p op v nd) :
    match (i.reach pre).find? (fun k => !(((k.named n).take 1000).filter sat).isEmpty) with
    | none => get env xml (pathOf (pre ++ [n] ++ [filterPart expr true])) = .ret .null
    | some k => ∃ r, get env xml (pathOf (pre ++ [n] ++ [filterPart expr true])) = .ret r ∧ IsArrayOf IsElement r (((k.named n).take 1000).filter sat) := by
  have hss : parseParts [filterPart expr true] = .ok [⟨.filter ⟨p, op, v⟩ true, []⟩] := by
    simp [parseParts, parsePart_cond hc true]
  obtain ⟨r, h1, h2⟩ := get_path env ho h pre n [filterPart expr true] hp (by simp; omega) _ hss
    (fun c k hk => step_filter_all env (evalFilter env) n ⟨p, op, v⟩ pre.isEmpty hk (evalFilter_sat env ho ht hs))
  rw [h1]
  have e : (i.reach pre).findSome? (fun k => if (((k.named n).take 1000).filter sat).isEmpty then none else some (((k.named n).take 1000).filter sat)) =
      ((i.reach pre).find? (fun k => !(((k.named n).take 1000).filter sat).isEmpty)).map (fun k => ((k.named n).take 1000).filter sat) := by
    induction i.reach pre with
    | nil => rfl
    | cons k ks ih =>
      simp only [List.findSome?_cons, List.find?_cons]
      cases (((k.named n).take 1000).filter sat).isEmpty with
      | true => simpa using ih
      | false => rfl
  rw [e] at h2
  revert h2
  cases (i.reach pre).find? (fun k => !(((k.named n).take 1000).filter sat).isEmpty) with
  | none => rintro rfl; rfl
  | some k => rintro ⟨-, h2⟩; exact ⟨r, rfl, h2.1, h2.2.imp (fun _ _ h => h.spec)⟩

/-- C11: `#(cond)` is the first match, in document order, that satisfies the condition (among the first 1000 of each parent). -/
theorem C11_filter_first (env : Env) (ho : env.ord.IsPerm) (xml : Bytes) (i : Info) (h : Says xml i)
    (pre : List Bytes) (n : Bytes) (hp : ∀ m ∈ pre ++ [n], PlainName m) (hl : pre.length < 99)
    {expr p v : Bytes} {op : FilterOp} (hc : CondText expr p op v) (ht : Testable p)
    (sat : Node → Bool) (hs : ∀ nd, sat nd = true ↔ Satisfies env.parseFloat p op v nd) :
    match (((i.reach pre).flatMap (fun k => (k.named n).take 1000)).filter sat).head? with
    | none => get env xml (pathOf (pre ++ [n] ++ [filterPart expr false])) = .ret .null
    | some nd => ∃ r, get env xml (pathOf (pre ++ [n] ++ [filterPart expr false])) = .ret r ∧ IsElement r nd := by
  have hss : parseParts [filterPart expr false] = .ok [⟨.filter ⟨p, op, v⟩ false, []⟩] := by
    simp [parseParts, parsePart_cond hc false]
  obtain ⟨r, h1, h2⟩ := get_path env ho h pre n [filterPart expr false] hp (by simp; omega) _ hss
    (fun c k hk => step_filter_first env (evalFilter env) n ⟨p, op, v⟩ pre.isEmpty hk (evalFilter_sat env ho ht hs))
  rw [h1, List.filter_flatMap, List.head?_flatMap]
  revert h2
  cases (i.reach pre).findSome? (fun k => (((k.named n).take 1000).filter sat).head?) with
  | none => rintro rfl; rfl
  | some nd => rintro ⟨-, h2⟩; exact ⟨r, rfl, h2.spec⟩

/-- C11: an element lacking the tested child or attribute satisfies no condition, not even `!=` or `!%`. -/
theorem C11_missing (pf : Bytes → Option FVal) (op : FilterOp) (a v : Bytes) (nd : Node) (h : nd.attr a = none) :
    ¬ Satisfies pf (c!"@" :: a) op v nd := by
  rintro ⟨actual, ht, hh⟩
  generalize hp : c!"@" :: a = p at ht
  cases ht with
  | attr b => simp only [List.cons.injEq, true_and] at hp; subst hp; rw [h] at hh; exact hh
  | path pre n _ hpl _ =>
    have := pathOf_not_at hpl
    rw [← hp] at this
    simp [hasPrefix, List.isPrefixOf] at this

/-- C11 for children: no element reached by the tested path, no condition holds. -/
theorem C11_missing_child (pf : Bytes → Option FVal) (op : FilterOp) (pre : List Bytes) (n v : Bytes) (nd : Node)
    (hp : ∀ m ∈ pre ++ [n], PlainName m) (h : nd.kids.select pre n = []) : ¬ Satisfies pf (pathOf (pre ++ [n])) op v nd := by
  rintro ⟨actual, ht, hh⟩
  generalize hq : pathOf (pre ++ [n]) = p at ht
  cases ht with
  | attr b =>
    have := pathOf_not_at hp
    rw [hq] at this
    simp [hasPrefix, List.isPrefixOf] at this
  | path pre' n' _ hpl _ =>
    have e := congrArg splitPath hq
    have hnn : ∀ (q : List Bytes) (m : Bytes), (∀ x ∈ q ++ [m], PlainName x) → q ++ [m] ≠ [[]] := by
      intro q m hq e
      exact (hq [] (by rw [e]; simp)).nonempty rfl
    rw [splitPath_pathOf _ (hnn _ _ hp), splitPath_pathOf _ (hnn _ _ hpl)] at e
    obtain ⟨rfl, e2⟩ := List.append_inj' e rfl
    simp only [List.cons.injEq, and_true] at e2
    subst e2
    rw [h] at hh
    exact hh

/-- Conditions as they are written. -/
example : CondText b!"@k=='2'" b!"@k" .eq b!"2" :=
  cond_text (p := b!"@k") (t := b!"'2'") (v := b!"2") (op := .eq) ⟨by simp, by decide⟩ (by simp) ⟨.inl (.inl rfl), by decide, by simp⟩ (by decide)
example : filterPart b!"@k=='2'" true = b!"#(@k=='2')#" := rfl
example : get exEnv exDoc.render b!"r.a.#(@k=='2')" = .ret (.ofContent []) := by decide +kernel
example : get exEnv exDoc.render b!"r.a.#(b==y)#" = .ret (.ofArray [.ofContent b!"x<b>y</b><!--c-->"]) := by decide +kernel
example : get exEnv exDoc.render b!"r.a.#(b!=z)#" = .ret (.ofArray [.ofContent b!"x<b>y</b><!--c-->"]) := by decide +kernel
example : get exEnv exDoc.render b!"r.a.#(@j)#" = .ret (.ofArray [.ofContent []]) := by decide +kernel

/-! ## C12 numeric filters -/

/-- C12: whatever a numeric filter returns is an element whose tested value is a finite number standing in the relation to the (finite) number in the condition. -/
theorem C12_numeric (env : Env) (ho : env.ord.IsPerm) (xml : Bytes) (i : Info) (h : Says xml i)
    (pre : List Bytes) (n : Bytes) (hp : ∀ m ∈ pre ++ [n], PlainName m) (hl : pre.length < 99)
    {expr p v : Bytes} {op : FilterOp} {rel : Rat → Rat → Prop} (hc : CondText expr p op v) (ht : Testable p)
    (hop : (op = .lt ∧ rel = (· < ·)) ∨ (op = .gt ∧ rel = (· > ·)) ∨ (op = .le ∧ rel = (· ≤ ·)) ∨ (op = .ge ∧ rel = (· ≥ ·)))
    (r : Result) (hr : get env xml (pathOf (pre ++ [n] ++ [filterPart expr false])) = .ret r) (hne : r.typ ≠ .null) :
    ∃ nd ∈ i.select pre n, IsElement r nd ∧
      ∃ a x y, Tested p nd (some a) ∧ NumberIs env.parseFloat a x ∧ NumberIs env.parseFloat v y ∧ rel x y := by
  classical
  have h1 := C11_filter_first env ho xml i h pre n hp hl hc ht (fun nd => decide (Satisfies env.parseFloat p op v nd)) (fun nd => by simp)
  revert h1
  cases hh : (((i.reach pre).flatMap (fun k => (k.named n).take 1000)).filter (fun nd => decide (Satisfies env.parseFloat p op v nd))).head? with
  | none => intro h1; simp only at h1; rw [hr] at h1; injection h1 with h1; subst h1; exact absurd rfl hne
  | some nd =>
    rintro ⟨r', h1, h2⟩
    rw [hr] at h1; injection h1 with h1; subst h1
    have hm := List.mem_of_head? hh
    simp only [List.mem_filter, List.mem_flatMap, decide_eq_true_eq] at hm
    obtain ⟨⟨k, hk, hn⟩, actual, hs1, hs2⟩ := hm
    refine ⟨nd, ?_, h2, ?_⟩
    · rw [Info.select, List.mem_flatMap]; exact ⟨k, hk, List.mem_of_mem_take hn⟩
    · cases actual with
      | none => exact absurd hs2 (by simp [Holds])
      | some a =>
        rcases hop with ⟨rfl, rfl⟩ | ⟨rfl, rfl⟩ | ⟨rfl, rfl⟩ | ⟨rfl, rfl⟩ <;> obtain ⟨x, y, hx, hy, hxy⟩ := hs2 <;> exact ⟨a, x, y, hs1, hx, hy, hxy⟩

theorem numberIs_unique {pf : Bytes → Option FVal} {s : Bytes} {x y : Rat} (h1 : NumberIs pf s x) (h2 : NumberIs pf s y) : x = y := by
  have := h1.2.symm.trans h2.2
  injection this with this
  injection this

/-- C12: on numeric values, `<` and `>=` are complementary and so are `>` and `<=`; the code's verdict `compareFilter` is meant. -/
theorem C12_complementary (pf : Bytes → Option FVal) (p v a : Bytes) {x y : Rat} (hx : NumberIs pf a x) (hy : NumberIs pf v y) :
    compareFilter pf ⟨p, .ge, v⟩ (some a) = !compareFilter pf ⟨p, .lt, v⟩ (some a) ∧
    compareFilter pf ⟨p, .le, v⟩ (some a) = !compareFilter pf ⟨p, .gt, v⟩ (some a) := by
  have key : ∀ (R : Rat → Rat → Prop), (∃ x y, NumberIs pf a x ∧ NumberIs pf v y ∧ R x y) ↔ R x y := fun R =>
    ⟨fun ⟨x', y', h1, h2, h3⟩ => by rw [numberIs_unique hx h1, numberIs_unique hy h2]; exact h3, fun h => ⟨x, y, hx, hy, h⟩⟩
  constructor
  · rw [Bool.eq_iff_iff, Bool.not_eq_true', Bool.eq_false_iff, ne_eq, compareFilter_iff, compareFilter_iff]
    simp only [Holds]
    rw [key (· ≥ ·), key (· < ·)]
    exact Rat.not_lt.symm
  · rw [Bool.eq_iff_iff, Bool.not_eq_true', Bool.eq_false_iff, ne_eq, compareFilter_iff, compareFilter_iff]
    simp only [Holds]
    rw [key (· ≤ ·), key (· > ·)]
    exact Rat.not_lt.symm

/-- C12: if a side is not a number, or parses to an infinity or NaN, no numeric condition holds. -/
theorem C12_not_numeric (pf : Bytes → Option FVal) (p v a : Bytes) (op : FilterOp) (hop : op = .lt ∨ op = .gt ∨ op = .le ∨ op = .ge)
    (h : (¬ ∃ x, NumberIs pf a x) ∨ ¬ ∃ y, NumberIs pf v y) : compareFilter pf ⟨p, op, v⟩ (some a) = false := by
  rw [Bool.eq_false_iff, ne_eq, compareFilter_iff]
  rcases hop with rfl | rfl | rfl | rfl <;> rintro ⟨x, y, hx, hy, -⟩ <;> rcases h with h | h
  all_goals first | exact h ⟨x, hx⟩ | exact h ⟨y, hy⟩

/-- An environment that can read `7` and `10`. -/
def numEnv : Env := ⟨fun _ a => a, fun _ => none, fun s => if s = b!"7" then some (.fin 7) else if s = b!"10" then some (.fin 10) else none⟩

example : NumberIs numEnv.parseFloat b!"7" 7 :=
  ⟨⟨[], b!"7", [], rfl, .inl rfl, by decide, by decide, ⟨c!"7", by simp, by decide⟩, .inl rfl⟩, rfl⟩
/-- Numbers are compared as numbers: 7 < 10 although "7" is after "10" as text; words are never less. -/
example : get numEnv b!"<r><x p=\"zz\"/><x p=\"7\">yes</x></r>" b!"r.x.#(@p<10)#" = .ret (.ofArray [.ofContent b!"yes"]) := by decide +kernel
example : get numEnv b!"<r><x p=\"zz\"/><x p=\"7\">yes</x></r>" b!"r.x.#(@p>=10)#" = .ret .null := by decide +kernel

end Verif.Props
