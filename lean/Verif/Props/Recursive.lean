import Verif.Lemmas.Recursive
import Verif.Props.Query
/- Properties of the recursive wildcard: C09. -/
namespace Verif.Props
open Spec

/-- Get on names, then `**`, a name, and final parts: what it is and that the path parses. -/
theorem get_rec (env : Env) {xml : Bytes} (hx : xml.length ≤ 10485760) (pre : List Bytes) (n : Bytes) (parts : List Bytes) (hp : ∀ m ∈ pre ++ [n], PlainName m)
    (hl : pre.length + 2 + parts.length ≤ 100) (ss : List Seg) (hs : parseParts parts = .ok ss) :
    get env xml (pathOf (pre ++ [b!"**", n] ++ parts)) =
      .ret (executeQuery env (pre.map nameSeg ++ (⟨.wild true, []⟩ :: nameSeg n :: fuseFields ss)) xml) := by
  have hd : maxDocumentSize = 10485760 := rfl
  unfold get
  have h1 : parseParts ([b!"**", n] ++ parts) = .ok (⟨.wild true, []⟩ :: nameSeg n :: ss) := by
    have h2 : parseParts (b!"**" :: (n :: parts)) = .ok (⟨.wild true, []⟩ :: (nameSeg n :: ss)) := by
      rw [parseParts, show parsePart b!"**" = .seg ⟨.wild true, []⟩ by decide]
      simp only
      rw [parseParts, parsePart_plain n (hp n (by simp)), hs]
      rfl
    exact h2
  rw [if_neg (by omega), parsePath_parts _ (by simp) (by cases pre <;> simp) (by simp; omega), List.append_assoc,
    parseParts_names pre _ (fun m hm => hp m (by simp [hm])) _ h1]
  simp only
  rw [fuseFields_names, fuseFields_cons (by simp), fuseFields_cons (by simp [nameSeg])]
  cases pre <;> rfl

theorem findSome_ite {α : Type} (l : List Info) (f : Info → List α) (m : Nat) :
    l.findSome? (fun k => if (f k).isEmpty then none else some ((f k).take m)) = (l.find? (fun k => !(f k).isEmpty)).map (fun k => (f k).take m) := by
  induction l with
  | nil => rfl
  | cons k ks ih =>
    simp only [List.findSome?_cons, List.find?_cons]
    cases (f k).isEmpty with
    | true => simpa using ih
    | false => rfl

/-- C09: `**.name` yields all matching descendants, at any depth, in post-order (at most 1000 of them), of the first content reached
that has any. The document has fewer than 9999 elements. -/
theorem C09_recursive (env : Env) (ho : env.ord.IsPerm) (xml : Bytes) (i : Info) (h : Says xml i)
    (pre : List Bytes) (n : Bytes) (hp : ∀ m ∈ pre ++ [n], PlainName m) (hl : pre.length < 99) (hc : i.descendants.length < 9999) :
    match (i.reach pre).find? (fun k => !((k.within 101).filter (fun e => nameMatches n e.name)).isEmpty) with
    | none => get env xml (pathOf (pre ++ [b!"**", n])) = .ret .null
    | some k => ∃ r, get env xml (pathOf (pre ++ [b!"**", n])) = .ret r ∧
        IsList IsElement r (((k.within 101).filter (fun e => nameMatches n e.name)).take 1000) := by
  have hq := get_rec env h.1 pre n [] hp (by simp; omega) [] rfl
  rw [List.append_nil] at hq
  have hy := exec_path_on (fun k => k.descendants.length < 9999) env ho (evalFilter env) pre ⟨.wild true, []⟩ (nameSeg n :: []) rfl
    (says_reads ho h) (fun k hk => by have := reach_le pre i k hk; omega)
    (fun c k hc hd => step_rec env ho _ (nameSeg n) [] _ (emit_elem env _) (fun r a hr => by rw [hr.typ]; simp) hc hd)
  rw [findSome_ite] at hy
  simp only [found_some, nameSeg, Seg.matches] at hy
  rw [hq]
  revert hy
  cases (i.reach pre).find? (fun k => !((k.within 101).filter (fun e => nameMatches n e.name)).isEmpty) with
  | none => intro hy; exact congrArg _ hy
  | some k => rintro ⟨-, h2⟩; exact ⟨_, rfl, IsList.imp h2 (fun _ _ h => h.spec)⟩

/-- C09 for attributes: `**.name.@a` yields the attribute values of the matching descendants having one. -/
theorem C09_recursive_attr (env : Env) (ho : env.ord.IsPerm) (xml : Bytes) (i : Info) (h : Says xml i)
    (pre : List Bytes) (n a : Bytes) (hp : ∀ m ∈ pre ++ [n], PlainName m) (ha : c!"|" ∉ a) (hl : pre.length < 98) (hc : i.descendants.length < 9999) :
    match (i.reach pre).find? (fun k => !(((k.within 101).filter (fun e => nameMatches n e.name)).filterMap (·.attr a)).isEmpty) with
    | none => get env xml (pathOf (pre ++ [b!"**", n] ++ [c!"@" :: a])) = .ret .null
    | some k => ∃ r, get env xml (pathOf (pre ++ [b!"**", n] ++ [c!"@" :: a])) = .ret r ∧
        IsList (fun r v => r = .ofAttr v) r ((((k.within 101).filter (fun e => nameMatches n e.name)).filterMap (·.attr a)).take 1000) := by
  have hs : parseParts [c!"@" :: a] = .ok [⟨.attr a, []⟩] := by
    have : parsePart (c!"@" :: a) = .seg ⟨.attr a, []⟩ := by
      unfold parsePart
      rw [parseModifiers_plain _ (by simp [ha])]
      simp [hasPrefix, List.isPrefixOf]
    simp [parseParts, this]
  have hq := get_rec env h.1 pre n [c!"@" :: a] hp (by simp; omega) _ hs
  have hy := exec_path_on (fun k => k.descendants.length < 9999) env ho (evalFilter env) pre ⟨.wild true, []⟩ (nameSeg n :: [⟨.attr a, []⟩]) rfl
    (says_reads ho h) (fun k hk => by have := reach_le pre i k hk; omega)
    (fun c k hc hd => step_rec env ho _ (nameSeg n) [⟨.attr a, []⟩] _ (emit_attr env _ a) (fun r v hr => by rw [hr]; simp) hc hd)
  rw [findSome_ite] at hy
  simp only [found, nameSeg, Seg.matches] at hy
  rw [hq]
  revert hy
  cases (i.reach pre).find? (fun k => !(((k.within 101).filter (fun e => nameMatches n e.name)).filterMap (·.attr a)).isEmpty) with
  | none => intro hy; exact congrArg _ hy
  | some k => rintro ⟨-, h2⟩; exact ⟨_, rfl, h2⟩

/-- C09: whatever the size of the document, the answer is nothing or a prefix of the matching descendants (in post-order) of one of the
contents reached, and never more than 1000. -/
theorem C09_recursive_prefix (env : Env) (ho : env.ord.IsPerm) (xml : Bytes) (i : Info) (h : Says xml i)
    (pre : List Bytes) (n : Bytes) (hp : ∀ m ∈ pre ++ [n], PlainName m) (hl : pre.length < 99) :
    ∃ r, get env xml (pathOf (pre ++ [b!"**", n])) = .ret r ∧
      (r = .null ∨ ∃ k ∈ i.reach pre, ∃ m ≤ 1000, IsList IsElement r (((k.within 101).filter (fun e => nameMatches n e.name)).take m)) := by
  have hq := get_rec env h.1 pre n [] hp (by simp; omega) [] rfl
  rw [List.append_nil] at hq
  refine ⟨_, hq, ?_⟩
  have hstep : ∀ root c k, Reads env.ord c k →
      (execQ env (evalFilter env) (⟨.wild true, []⟩ :: [nameSeg n]) root c = .null ∨ ∃ m ≤ 1000,
        IsList IsElement (execQ env (evalFilter env) (⟨.wild true, []⟩ :: [nameSeg n]) root c) (((k.within 101).filter (fun e => nameMatches n e.name)).take m)) := by
    intro root c k hr
    rcases step_rec_prefix env ho (evalFilter env) (nameSeg n) [] root (emit_elem env _) hr with h1 | ⟨m, rs, h1, h2, h3, h4⟩
    · exact .inl h1
    · right
      rw [found_some] at h1
      refine ⟨rs.length, h3, ?_⟩
      rw [h4]
      have hlen := h1.length
      rw [List.length_take] at hlen
      have e : ((k.within 101).filter (fun nd => (nameSeg n).matches nd.name)).take m = ((k.within 101).filter (fun nd => (nameSeg n).matches nd.name)).take rs.length := by
        rw [hlen, ← List.take_take, List.take_length]
      rw [e] at h1
      exact IsList.imp (packResults_is h1) (fun _ _ h => h.spec)
  cases pre with
  | nil =>
    rcases hstep true xml i (says_reads ho h) with h1 | ⟨m, hm, h1⟩
    · exact .inl h1
    · exact .inr ⟨i, by simp [Info.reach], m, hm, h1⟩
  | cons p ps =>
    have e := exec_names env (evalFilter env) (p :: ps) (by simp) ⟨.wild true, []⟩ [nameSeg n] true xml rfl
    have e' : executeQuery env ((p :: ps).map nameSeg ++ (⟨.wild true, []⟩ :: nameSeg n :: fuseFields [])) xml =
      firstSome (execQ env (evalFilter env) [⟨.wild true, []⟩, nameSeg n] false) (reachE env.ord (p :: ps) xml) := e
    rw [e']
    rcases firstSome_cases (execQ env (evalFilter env) [⟨.wild true, []⟩, nameSeg n] false) (reachE env.ord (p :: ps) xml) with h1 | ⟨c, hc, h1⟩
    · exact .inl h1
    · obtain ⟨k, hk, hr⟩ := (reachE_reads ho (p :: ps) (says_reads ho h)).mem_left hc
      rw [h1]
      rcases hstep false c k hr with h2 | ⟨m, hm, h2⟩
      · exact .inl h2
      · exact .inr ⟨k, hk, m, hm, h2⟩

/-- The example document has two descendants matching `a`, and `b` is found two levels down. -/
example : (exDoc.info.descendants.filter (fun e => nameMatches b!"a" e.name)).map (·.name) = [b!"a", b!"n:a"] := by decide +kernel
example : get exEnv exDoc.render b!"**.b" = .ret (.ofContent b!"y") := by decide +kernel
/-- Post-order: an inner match comes before the outer one. -/
example : get exEnv b!"<r><a>1<a>2</a></a></r>" b!"**.a" = .ret (.ofArray [.ofContent b!"2", .ofContent b!"1<a>2</a>"]) := by decide +kernel

end Verif.Props
