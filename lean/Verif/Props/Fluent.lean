import Verif.Lemmas.Fluent
import Verif.Props.Options
/- Properties of the methods of Result that query its content: C38 (Get, GetMany, GetWithOptions), C39 (Map, MapWithOptions). -/
namespace Verif.Props
open Spec

/-! ## C38 fluent chaining -/

/-- C38: a chained element path is followed from the element the first query found. (The content of the element is written back
by the parser, so that its size is a hypothesis; 29 bytes are for a wrapper the code may put around it.) -/
theorem C38_chain (env : Env) (ho : env.ord.IsPerm) (xml : Bytes) (i : Info) (h : Says xml i)
    (pre : List Bytes) (n : Bytes) (hp : ∀ m ∈ pre ++ [n], PlainName m) (hl : pre.length < 100)
    (nd : Node) (hnd : (i.select pre n).head? = some nd) (r : Result) (hr : get env xml (pathOf (pre ++ [n])) = .ret r)
    (hlen : r.raw.length + 29 ≤ 10485760) (qs : List Bytes) (q : Bytes) (hq : ∀ m ∈ qs ++ [q], PlainName m) (hql : qs.length < 99) :
    match (nd.kids.select qs q).head? with
    | none => r.get env (pathOf (qs ++ [q])) = .ret .null
    | some nd' => ∃ r', r.get env (pathOf (qs ++ [q])) = .ret r' ∧ IsElement r' nd' := by
  have hw := get_elementW env ho h hp hl hnd hr
  rw [Result.get_element env _ hw.typ]
  obtain ⟨r', h1, h2⟩ := getFromRaw_path (Q := IsElementW) (g := fun k => (k.named q).head?) env ho hw.raw hlen qs q [] hq (by simp; omega) [] rfl
    (fun root _ c k hc => step_elem env _ q root hc)
  rw [List.append_nil] at h1
  rw [Info.select, List.head?_flatMap]
  revert h2
  cases List.findSome? (fun k => (k.named q).head?) (nd.kids.reach qs) with
  | none => rintro rfl; exact h1
  | some nd => rintro ⟨-, h2⟩; exact ⟨r', h1, h2.spec⟩

/-- C38: if a chained query finds something then so does the full path, with the same type and string. -/
theorem C38_agree (env : Env) (ho : env.ord.IsPerm) (xml : Bytes) (i : Info) (h : Says xml i)
    (pre : List Bytes) (n : Bytes) (hp : ∀ m ∈ pre ++ [n], PlainName m)
    (qs : List Bytes) (q : Bytes) (hq : ∀ m ∈ qs ++ [q], PlainName m) (hl : pre.length + qs.length + 2 ≤ 100)
    (r : Result) (hr : get env xml (pathOf (pre ++ [n])) = .ret r) (hlen : r.raw.length + 29 ≤ 10485760)
    (r' : Result) (hr' : r.get env (pathOf (qs ++ [q])) = .ret r') (hx : r'.typ ≠ .null) :
    ∃ r'', get env xml (pathOf (pre ++ [n] ++ (qs ++ [q]))) = .ret r'' ∧ r''.typ = r'.typ ∧ r''.toStr = r'.toStr := by
  have g1 := C04_get_element env ho xml i h pre n hp (by omega)
  cases hnd : (i.select pre n).head? with
  | none =>
    rw [hnd] at g1
    rw [hr] at g1
    cases g1
    simp only [Result.null, Result.get] at hr'
    cases hr'
    exact absurd rfl hx
  | some nd =>
    have g2 := C38_chain env ho xml i h pre n hp (by omega) nd hnd r hr hlen qs q hq (by omega)
    cases hnd' : (nd.kids.select qs q).head? with
    | none =>
      rw [hnd', hr'] at g2
      cases g2
      exact absurd rfl hx
    | some nd' =>
      rw [hnd'] at g2
      obtain ⟨r2, e2, h2⟩ := g2
      rw [hr'] at e2
      cases e2
      have g3 := C04_get_element env ho xml i h (pre ++ [n] ++ qs) q (by
        intro m hm
        simp only [List.append_assoc, List.mem_append] at hm hp hq
        rcases hm with hm | hm | hm
        · exact hp m (Or.inl hm)
        · exact hp m (Or.inr hm)
        · exact hq m hm) (by simp; omega)
      have e : (i.select (pre ++ [n] ++ qs) q).head? = some nd' := by
        rw [select_append, List.head?_flatMap]
        cases hs : i.select pre n with
        | nil => rw [hs] at hnd; simp at hnd
        | cons a l =>
          rw [hs] at hnd
          simp only [List.head?_cons, Option.some.injEq] at hnd
          subst hnd
          rw [List.findSome?_cons, hnd']
      rw [e] at g3
      obtain ⟨r3, e3, h3⟩ := g3
      refine ⟨r3, ?_, h3.typ.trans h2.typ.symm, h3.str.trans h2.str.symm⟩
      rw [← e3, List.append_assoc (pre ++ [n])]

/-- `r` in the example document, then `a.b`. -/
example : ∃ r r', get exEnv exDoc.render b!"r" = .ret r ∧ r.get exEnv b!"a.b" = .ret r' ∧ r'.toStr = b!"y" := by
  refine ⟨.ofContent b!"<a k=\"1\">x<b>y</b><!--c--></a><n:a k=\"2\" j=\"3\"/>", .ofContent b!"y", by decide +kernel, by decide +kernel, by decide +kernel⟩

/-- C38: the converse fails: a chained query looks only below the first element found. -/
theorem C38_first_only : (∃ r, get exEnv b!"<r><a/><a><b>1</b></a></r>" b!"r.a" = .ret r ∧ r.get exEnv b!"b" = .ret .null) ∧
    get exEnv b!"<r><a/><a><b>1</b></a></r>" b!"r.a.b" = .ret (.ofContent b!"1") :=
  ⟨⟨.ofContent [], by decide +kernel, by decide +kernel⟩, by decide +kernel⟩

/-- C38: a chained attribute path. -/
theorem C38_attribute (env : Env) (ho : env.ord.IsPerm) (xml : Bytes) (i : Info) (h : Says xml i)
    (pre : List Bytes) (n : Bytes) (hp : ∀ m ∈ pre ++ [n], PlainName m) (hl : pre.length < 100)
    (nd : Node) (hnd : (i.select pre n).head? = some nd) (r : Result) (hr : get env xml (pathOf (pre ++ [n])) = .ret r)
    (hlen : r.raw.length + 29 ≤ 10485760) (qs : List Bytes) (q a : Bytes) (hq : ∀ m ∈ qs ++ [q], PlainName m) (ha : c!"|" ∉ a) (hql : qs.length < 98) :
    r.get env (pathOf (qs ++ [q] ++ [c!"@" :: a])) =
      match (nd.kids.reach qs).findSome? (fun k => (k.named q).head?.bind (·.attr a)) with
      | none => .ret .null
      | some v => .ret (.ofAttr v) := by
  have hw := get_elementW env ho h hp hl hnd hr
  rw [Result.get_element env _ hw.typ]
  have hs : parseParts [c!"@" :: a] = .ok [⟨.attr a, []⟩] := by
    have : parsePart (c!"@" :: a) = .seg ⟨.attr a, []⟩ := by
      unfold parsePart
      rw [parseModifiers_plain _ (by simp [ha])]
      simp [hasPrefix, List.isPrefixOf]
    simp [parseParts, this]
  obtain ⟨r', h1, h2⟩ := getFromRaw_path env ho hw.raw hlen qs q [c!"@" :: a] hq (by simp; omega) _ hs
    (fun root _ c k hc => step_attr env _ q a root hc)
  rw [h1]
  revert h2
  cases (nd.kids.reach qs).findSome? (fun k => (k.named q).head?.bind (·.attr a)) with
  | none => rintro rfl; rfl
  | some v => rintro ⟨-, rfl⟩; rfl

/-- C38: a chained count, at least one level further down. -/
theorem C38_count (env : Env) (ho : env.ord.IsPerm) (xml : Bytes) (i : Info) (h : Says xml i)
    (pre : List Bytes) (n : Bytes) (hp : ∀ m ∈ pre ++ [n], PlainName m) (hl : pre.length < 100)
    (nd : Node) (hnd : (i.select pre n).head? = some nd) (r : Result) (hr : get env xml (pathOf (pre ++ [n])) = .ret r)
    (hlen : r.raw.length + 29 ≤ 10485760) (qs : List Bytes) (q : Bytes) (hne : qs ≠ []) (hq : ∀ m ∈ qs ++ [q], PlainName m) (hql : qs.length < 98) :
    r.get env (pathOf (qs ++ [q] ++ [b!"#"])) =
      match (nd.kids.groups qs q).find? (fun g => !g.isEmpty) with
      | none => .ret .null
      | some g => .ret (.ofCount (min 1000 g.length)) := by
  have hw := get_elementW env ho h hp hl hnd hr
  rw [Result.get_element env _ hw.typ]
  obtain ⟨r', h1, h2⟩ := getFromRaw_path (Q := fun r m => r = .ofCount m)
    (g := fun k => if (k.hits false q).isEmpty then none else some (min 1000 (k.hits false q).length)) env ho hw.raw hlen qs q [b!"#"] hq (by simp; omega) [⟨.count, []⟩] rfl
    (fun root hroot c k hc => by rw [hroot hne]; exact step_count env _ q false hc)
  rw [h1]
  have hroot : qs.isEmpty = false := by cases qs <;> simp_all
  have e : (nd.kids.reach qs).findSome? (fun k => if (k.hits false q).isEmpty then none else some (min 1000 (k.hits false q).length)) =
      ((nd.kids.groups qs q).find? (fun g => !g.isEmpty)).map (fun g => min 1000 g.length) := by
    rw [Info.groups, hroot]
    induction nd.kids.reach qs with
    | nil => rfl
    | cons k ks ih =>
      simp only [List.findSome?_cons, List.map_cons, List.find?_cons]
      by_cases hk : (k.hits false q).isEmpty = true
      · simp [hk]; simpa using ih
      · simp [hk]
  rw [e] at h2
  revert h2
  cases (nd.kids.groups qs q).find? (fun g => !g.isEmpty) with
  | none => rintro rfl; rfl
  | some g => rintro ⟨-, rfl⟩; rfl

/-- C38: a count of the children themselves treats a prefixed name differently when there are several children, since then the
content is wrapped and the name is no longer the first step. -/
theorem C38_count_wrapped : Result.get exEnv b!"b.#" (.ofContent b!"<p:b/>") = .ret .null ∧
    Result.get exEnv b!"b.#" (.ofContent b!"<p:b/><p:b/>") = .ret (.ofCount 2) := by decide +kernel

/-- C38: GetMany is Get on each path; GetWithOptions with default options is Get. -/
theorem C38_many (env : Env) (r : Result) (paths : List Bytes) :
    r.getMany env paths = allOutcomes (paths.map fun p => r.get env p) := by
  unfold Result.getMany
  by_cases h : r.typ = .element ∨ r.typ = .array
  · rw [if_pos h]
  · rw [if_neg h]
    have e : ∀ p, r.get env p = .ret .null := by
      intro p
      obtain ⟨t, raw, s, n, l⟩ := r
      simp only [Result.typ, not_or] at h
      rw [Result.get.eq_def]
      simp only
      rw [if_neg h.2, if_neg h.1]
    simp only [e]
    induction paths with
    | nil => rfl
    | cons p ps ih => simp only [List.map_cons, allOutcomes]; rw [← ih]

theorem C38_default_options (env : Env) (r : Result) (path : Bytes) (opts : Option Options) (hd : isDefaultOptions opts = true) :
    r.getWithOptions env path opts = r.get env path := by
  obtain ⟨t, raw, s, n, l⟩ := r
  rw [Result.getWithOptions.eq_def]
  simp only
  by_cases h : t ≠ .element ∧ t ≠ .array
  · rw [if_pos h, Result.get.eq_def]
    simp only
    rw [if_neg h.2, if_neg h.1]
  · rw [if_neg h, hd]; rfl

/-- C38: an Array is queried through its first entry, anything but an Array or an Element yields nothing. -/
theorem C38_array (env : Env) (r : Result) (path : Bytes) (opts : Option Options) :
    (r.typ = .array → r.get env path = (r.results.head?.map (·.get env path)).getD (.ret .null) ∧
      r.getWithOptions env path opts = (r.results.head?.map (·.getWithOptions env path opts)).getD (.ret .null)) ∧
    (r.typ ≠ .array → r.typ ≠ .element → r.get env path = .ret .null ∧ r.getWithOptions env path opts = .ret .null) := by
  have key : r.typ = .array → r.get env path = (r.results.head?.map (·.get env path)).getD (.ret .null) := by
    intro h
    obtain ⟨t, raw, s, n, l⟩ := r
    simp only [Result.typ] at h
    subst h
    rw [Result.get.eq_def]
    cases l <;> rfl
  refine ⟨fun h => ⟨key h, ?_⟩, fun h1 h2 => ⟨?_, ?_⟩⟩
  · by_cases hd : isDefaultOptions opts = true
    · rw [C38_default_options env _ _ _ hd, key h]
      congr 2
      funext x
      rw [C38_default_options env _ _ _ hd]
    · obtain ⟨t, raw, s, n, l⟩ := r
      simp only [Result.typ] at h
      subst h
      rw [Result.getWithOptions.eq_def]
      simp only [ne_eq, not_true_eq_false, and_false, if_false]
      rw [if_neg hd]
      cases l <;> rfl
  · obtain ⟨t, raw, s, n, l⟩ := r
    rw [Result.get.eq_def]
    simp only [Result.typ] at h1 h2 ⊢
    rw [if_neg h1, if_neg h2]
  · obtain ⟨t, raw, s, n, l⟩ := r
    rw [Result.getWithOptions.eq_def]
    simp only [Result.typ] at h1 h2 ⊢
    rw [if_pos ⟨h2, h1⟩]

/-- C38: chaining with CaseSensitive off follows the names without regard to case. -/
theorem C38_chain_fold (env : Env) (ho : env.ord.IsPerm) (xml : Bytes) (i : Info) (h : Says xml i)
    (pre : List Bytes) (n : Bytes) (hp : ∀ m ∈ pre ++ [n], PlainName m) (hl : pre.length < 100)
    (nd : Node) (hnd : (i.select pre n).head? = some nd) (r : Result) (hr : get env xml (pathOf (pre ++ [n])) = .ret r)
    (hlen : r.raw.length + 29 ≤ 10485760) (qs : List Bytes) (q : Bytes) (hq : ∀ m ∈ qs ++ [q], PlainName m) (hql : qs.length < 99)
    (opts : Options) (hc : opts.caseSensitive = false) :
    match (nd.kids.selectFold qs q).head? with
    | none => r.getWithOptions env (pathOf (qs ++ [q])) (some opts) = .ret .null
    | some nd' => ∃ r', r.getWithOptions env (pathOf (qs ++ [q])) (some opts) = .ret r' ∧ IsElement r' nd' := by
  have hw := get_elementW env ho h hp hl hnd hr
  rw [Result.getWithOptions_element env _ (by simp [isDefaultOptions, hc]) hw.typ]
  obtain ⟨r', h1, h2⟩ := getFromRawOpt_path (Q := IsElementW) (g := fun k => (k.namedFold q).head?) env ho hc hw.raw hlen qs q [] hq (by simp; omega) [] rfl
    (fun root _ c k hc => stepOpt_elem env _ q root hc)
  rw [List.append_nil] at h1
  rw [Info.selectFold, List.head?_flatMap]
  revert h2
  cases List.findSome? (fun k => (k.namedFold q).head?) (nd.kids.reachFold qs) with
  | none => rintro rfl; exact h1
  | some nd => rintro ⟨-, h2⟩; exact ⟨r', h1, h2.spec⟩

/-- Case matters to Get but not to GetWithOptions, on a content of two elements (wrapped) as well as of one. -/
example : Result.getWithOptions exEnv b!"B.C" (some ciOpts) (.ofContent b!"<b><c>1</c></b><b/>") = .ret (.ofContent b!"1") ∧
    Result.getWithOptions exEnv b!"B.C" (some ciOpts) (.ofContent b!"<b><c>1</c></b>") = .ret (.ofContent b!"1") ∧
    Result.get exEnv b!"B.C" (.ofContent b!"<b><c>1</c></b>") = .ret .null := by decide +kernel

/-! ## C39 Map -/

/-- C39: under each key other than `%` the map holds the children of that name in document order (among the first 1000
children): nothing if there is none, the child if there is one, the Array of them if there are several. -/
theorem C39_children (env : Env) (ho : env.ord.IsPerm) (xml : Bytes) (i : Info) (h : Says xml i)
    (pre : List Bytes) (n : Bytes) (hp : ∀ m ∈ pre ++ [n], PlainName m) (hl : pre.length < 100)
    (nd : Node) (hnd : (i.select pre n).head? = some nd) (r : Result) (hr : get env xml (pathOf (pre ++ [n])) = .ret r)
    (hlen : r.raw.length ≤ 10485760) (k : Bytes) (hk : k ≠ b!"%") :
    match (nd.kids.elems.take 1000).filter (fun e => e.name = k) with
    | [] => (r.map env.ord).get? k = none
    | l => ∃ v, (r.map env.ord).get? k = some v ∧ IsList IsElement v l := by
  have hw := get_elementW env ho h hp hl hnd hr
  rw [Result.map_element _ hw.typ]
  exact mapChildren_child ho id hw.raw hlen hk

/-- C39: under `%` the map holds the element's own text, if that is not blank. -/
theorem C39_text (env : Env) (ho : env.ord.IsPerm) (xml : Bytes) (i : Info) (h : Says xml i)
    (pre : List Bytes) (n : Bytes) (hp : ∀ m ∈ pre ++ [n], PlainName m) (hl : pre.length < 100)
    (nd : Node) (hnd : (i.select pre n).head? = some nd) (r : Result) (hr : get env xml (pathOf (pre ++ [n])) = .ret r)
    (hlen : r.raw.length ≤ 10485760) (hg : nd.kids.Quiet) (hpc : ∀ k ∈ nd.kids.elems, k.name ≠ b!"%") :
    match nd.ownTexts with
    | [] => (r.map env.ord).get? b!"%" = none
    | t :: _ => ∃ v, (r.map env.ord).get? b!"%" = some v ∧ v.typ = .string ∧ v.toStr = t := by
  have hw := get_elementW env ho h hp hl hnd hr
  rw [Result.map_element _ hw.typ]
  exact mapChildren_text ho id (fun n h => h) hw.raw hlen hg hpc

/-- The map of `r.a` in the example document: the text and one child. -/
example : ∃ r, get exEnv exDoc.render b!"r.a" = .ret r ∧ (r.map exEnv.ord).map (fun e => (e.1, e.2.toStr)) = [(b!"%", b!"x"), (b!"b", b!"y")] :=
  ⟨.ofContent b!"x<b>y</b><!--c-->", by decide +kernel, by decide +kernel⟩
/-- Children of the same name become an Array. -/
example : (Result.map exEnv.ord (.ofContent b!"<b>1</b><c/><b>2</b><b>3</b>")).map (fun e => (e.1, e.2.results.map Result.toStr)) =
    [(b!"b", [b!"1", b!"2", b!"3"]), (b!"c", [])] := by decide +kernel

/-- C39: with CaseSensitive off the children are grouped by their lower-cased names (`lower` is strings.ToLower, a parameter). -/
theorem C39_fold (env : Env) (ho : env.ord.IsPerm) (lower : Bytes → Bytes) (xml : Bytes) (i : Info) (h : Says xml i)
    (pre : List Bytes) (n : Bytes) (hp : ∀ m ∈ pre ++ [n], PlainName m) (hl : pre.length < 100)
    (nd : Node) (hnd : (i.select pre n).head? = some nd) (r : Result) (hr : get env xml (pathOf (pre ++ [n])) = .ret r)
    (hlen : r.raw.length ≤ 10485760) (opts : Options) (hc : opts.caseSensitive = false) (k : Bytes) (hk : k ≠ b!"%") :
    match (nd.kids.elems.take 1000).filter (fun e => lower e.name = k) with
    | [] => (r.mapWithOptions env.ord lower (some opts)).get? k = none
    | l => ∃ v, (r.mapWithOptions env.ord lower (some opts)).get? k = some v ∧ IsList IsElement v l := by
  have hw := get_elementW env ho h hp hl hnd hr
  rw [Result.mapWithOptions_element _ _ (by simp [isDefaultOptions, hc]) hw.typ]
  simp only [Option.getD_some, hc, Bool.false_eq_true, if_false]
  exact mapChildren_child ho lower hw.raw hlen hk

/-- C39: the own text with CaseSensitive off, provided that only `%` is lower-cased to `%`. -/
theorem C39_fold_text (env : Env) (ho : env.ord.IsPerm) (lower : Bytes → Bytes) (hlow : ∀ s, lower s = b!"%" → s = b!"%") (xml : Bytes) (i : Info) (h : Says xml i)
    (pre : List Bytes) (n : Bytes) (hp : ∀ m ∈ pre ++ [n], PlainName m) (hl : pre.length < 100)
    (nd : Node) (hnd : (i.select pre n).head? = some nd) (r : Result) (hr : get env xml (pathOf (pre ++ [n])) = .ret r)
    (hlen : r.raw.length ≤ 10485760) (hg : nd.kids.Quiet) (hpc : ∀ k ∈ nd.kids.elems, k.name ≠ b!"%") (opts : Options) (hc : opts.caseSensitive = false) :
    match nd.ownTexts with
    | [] => (r.mapWithOptions env.ord lower (some opts)).get? b!"%" = none
    | t :: _ => ∃ v, (r.mapWithOptions env.ord lower (some opts)).get? b!"%" = some v ∧ v.typ = .string ∧ v.toStr = t := by
  have hw := get_elementW env ho h hp hl hnd hr
  rw [Result.mapWithOptions_element _ _ (by simp [isDefaultOptions, hc]) hw.typ]
  simp only [Option.getD_some, hc, Bool.false_eq_true, if_false]
  exact mapChildren_text ho lower hlow hw.raw hlen hg hpc

/-- C39: all this holds of every result that is an element, however it was found (by an index, a filter, an entry of an Array, a result of `Map`). -/
theorem C39_any (env : Env) (ho : env.ord.IsPerm) (r : Result) (nd : Node) (hr : IsElement r nd) (hlen : r.raw.length ≤ 10485760) :
    (∀ k, k ≠ b!"%" → match (nd.kids.elems.take 1000).filter (fun e => e.name = k) with
      | [] => (r.map env.ord).get? k = none
      | l => ∃ v, (r.map env.ord).get? k = some v ∧ IsList IsElement v l) ∧
    (nd.kids.Quiet → (∀ k ∈ nd.kids.elems, k.name ≠ b!"%") → match nd.ownTexts with
      | [] => (r.map env.ord).get? b!"%" = none
      | t :: _ => ∃ v, (r.map env.ord).get? b!"%" = some v ∧ v.typ = .string ∧ v.toStr = t) := by
  have hw := IsElementW.of hr
  rw [Result.map_element _ hw.typ]
  exact ⟨fun k hk => mapChildren_child ho id hw.raw hlen hk, fun hg hpc => mapChildren_text ho id (fun n h => h) hw.raw hlen hg hpc⟩

/-- C39: in particular of the entries of a map: `Map` can be called again, level by level. -/
theorem C39_again (env : Env) (ho : env.ord.IsPerm) (r : Result) (nd : Node) (hr : IsElement r nd) (hlen : r.raw.length ≤ 10485760) (k : Bytes) (hk : k ≠ b!"%")
    (c : Node) (hc : (nd.kids.elems.take 1000).filter (fun e => e.name = k) = [c]) :
    ∃ v, (r.map env.ord).get? k = some v ∧ IsElement v c ∧ (v.raw.length ≤ 10485760 → ∀ j, j ≠ b!"%" →
      match (c.kids.elems.take 1000).filter (fun e => e.name = j) with
      | [] => (v.map env.ord).get? j = none
      | l => ∃ w, (v.map env.ord).get? j = some w ∧ IsList IsElement w l) := by
  have h := (C39_any env ho r nd hr hlen).1 k hk
  rw [hc] at h
  obtain ⟨v, h1, h2⟩ := h
  have h3 : IsElement v c := h2
  exact ⟨v, h1, h3, fun hl j hj => (C39_any env ho v c h3 hl).1 j hj⟩

/-- An element found by an index, its map, and the map of an entry of it. -/
example : ∃ r v, get exEnv b!"<r><a/><a><b>1<c>2</c></b></a></r>" b!"r.a.1" = .ret r ∧ (r.map exEnv.ord).get? b!"b" = some v ∧
    (v.map exEnv.ord).map (fun e => (e.1, e.2.toStr)) = [(b!"%", b!"1"), (b!"c", b!"2")] :=
  ⟨.ofContent b!"<b>1<c>2</c></b>", .ofContent b!"1<c>2</c>", by decide +kernel, by decide +kernel, by decide +kernel⟩

/-- C39: any options with CaseSensitive on give Map. -/
theorem C39_options (o : Ord) (lower : Bytes → Bytes) (opts : Options) (hc : opts.caseSensitive = true) (r : Result) :
    r.mapWithOptions o lower (some opts) = r.map o := by
  have hd : ∀ t raw s n l, isDefaultOptions (some opts) = true → (Result.mk t raw s n l).mapWithOptions o lower (some opts) = (Result.mk t raw s n l).map o := by
    intro t raw s n l hd
    rw [Result.mapWithOptions.eq_def]
    simp only [hd, if_true]
  by_cases hdef : isDefaultOptions (some opts) = true
  · obtain ⟨t, raw, s, n, l⟩ := r; exact hd t raw s n l hdef
  · induction r using Result.map.induct with
    | case1 | case2 | case3 | case4 =>
      rw [Result.mapWithOptions.eq_def, Result.map.eq_def]
      simp_all

/-- C39: an Array has the map of its first entry; anything else but an Element has an empty map. -/
theorem C39_array (o : Ord) (r : Result) :
    (r.typ = .array → r.map o = (r.results.head?.map (·.map o)).getD []) ∧ (r.typ ≠ .array → r.typ ≠ .element → r.map o = []) := by
  obtain ⟨t, raw, s, n, l⟩ := r
  refine ⟨fun h => ?_, fun h1 h2 => ?_⟩
  · simp only [Result.typ] at h
    subst h
    rw [Result.map.eq_def]
    cases l <;> rfl
  · rw [Result.map.eq_def]
    simp only [Result.typ] at h1 h2 ⊢
    rw [if_neg h1, if_neg h2]

/-- C39: the map is truncated after 1000 children, whatever their names. -/
example : (Result.map exEnv.ord (.ofContent ((List.replicate 1000 b!"<b/>").flatten ++ b!"<c/>"))).map (fun e => (e.1, e.2.results.length)) =
    [(b!"b", 1000)] := by decide +kernel

end Verif.Props
