import Verif.Props.Size
import Verif.Props.Fluent
/- Documents whose results can all be queried again: the size conditions of C38, C39, C82 and C83, from the document alone (C56). -/
namespace Verif.Props
open Verif Verif.Spec

/-- Six times the document, plus 13 bytes for each `=` and 4 for each level, is below the limit. -/
def Roomy (xml : Bytes) (levels : Nat) : Prop := 6 * xml.length + levels * (13 * xml.count c!"=" + 4) + 29 ≤ 10485760

/-- C56: in such a document every result of a query is small enough to be queried again. -/
theorem C56_roomy (env : Env) (ho : env.ord.IsPerm) (xml : Bytes) (parts : List Bytes) (hb : ∀ p ∈ parts, c!"|" ∉ p) (hr : Roomy xml (pathLevels parts)) (opts : Option Options) (r : Result)
    (h : get env xml (pathOf parts) = .ret r ∨ getWithOptions env xml (pathOf parts) opts = .ret r) : ∀ x ∈ r.array, x.raw.length + 29 ≤ 10485760 := by
  intro x hx
  unfold Roomy at hr
  rcases h with h | h
  · have := (C56_get env ho xml parts hb r h x hx).1
    unfold room at this; omega
  · have := (C56_options env ho xml parts hb opts r h x hx).1
    unfold room at this; omega

theorem pathLevels_names {ns : List Bytes} (h : ∀ n ∈ ns, PlainName n) : pathLevels ns = ns.length := by
  induction ns with
  | nil => rfl
  | cons n ns ih =>
    have h1 : partLevels n = 1 := if_neg (h n (by simp)).notStar2
    have h2 := ih fun m hm => h m (by simp [hm])
    unfold pathLevels at *
    simp only [List.map_cons, List.sum_cons, List.length_cons, h1, h2]; omega

/-- C38: in such a document a chained path of names is followed from the element the first query found, without any condition on that result. -/
theorem C38_roomy (env : Env) (ho : env.ord.IsPerm) (xml : Bytes) (i : Info) (h : Says xml i) (pre : List Bytes) (n : Bytes) (hp : ∀ m ∈ pre ++ [n], PlainName m) (hl : pre.length < 100)
    (hroom : Roomy xml (pre.length + 1)) (qs : List Bytes) (q : Bytes) (hq : ∀ m ∈ qs ++ [q], PlainName m) (hql : qs.length < 99) :
    ∃ r, get env xml (pathOf (pre ++ [n])) = .ret r ∧
      match (i.select pre n).head? with
      | none => r.get env (pathOf (qs ++ [q])) = .ret .null
      | some nd => match (nd.kids.select qs q).head? with
        | none => r.get env (pathOf (qs ++ [q])) = .ret .null
        | some nd' => ∃ r', r.get env (pathOf (qs ++ [q])) = .ret r' ∧ IsElement r' nd' := by
  have g1 := C04_get_element env ho xml i h pre n hp (by omega)
  cases hnd : (i.select pre n).head? with
  | none => rw [hnd] at g1; exact ⟨.null, g1, by simp only [Result.null, Result.get]; simp⟩
  | some nd =>
    rw [hnd] at g1
    obtain ⟨r, hr, he⟩ := g1
    have hlen : r.raw.length + 29 ≤ 10485760 := by
      refine C56_roomy env ho xml _ (fun p hp' => (hp p hp').noBar) (by rw [pathLevels_names hp]; simpa using hroom) none r (.inl hr) r ?_
      have ht : r.typ = .element := he.typ
      obtain ⟨t, w, s, f, l⟩ := r
      simp only [Result.typ] at ht
      subst ht
      simp [Result.array]
    exact ⟨r, hr, C38_chain env ho xml i h pre n hp hl nd hnd r hr hlen qs q hq hql⟩

/-- C39: and Map lists its children. -/
theorem C39_roomy (env : Env) (ho : env.ord.IsPerm) (xml : Bytes) (i : Info) (h : Says xml i) (pre : List Bytes) (n : Bytes) (hp : ∀ m ∈ pre ++ [n], PlainName m) (hl : pre.length < 100)
    (hroom : Roomy xml (pre.length + 1)) (nd : Node) (hnd : (i.select pre n).head? = some nd) :
    ∃ r, get env xml (pathOf (pre ++ [n])) = .ret r ∧ IsElement r nd ∧ ∀ k, k ≠ b!"%" →
      match (nd.kids.elems.take 1000).filter (fun e => e.name = k) with
      | [] => (r.map env.ord).get? k = none
      | l => ∃ v, (r.map env.ord).get? k = some v ∧ IsList IsElement v l := by
  have g1 := C04_get_element env ho xml i h pre n hp (by omega)
  rw [hnd] at g1
  obtain ⟨r, hr, he⟩ := g1
  have hlen : r.raw.length + 29 ≤ 10485760 := by
    refine C56_roomy env ho xml _ (fun p hp' => (hp p hp').noBar) (by rw [pathLevels_names hp]; simpa using hroom) none r (.inl hr) r ?_
    have ht : r.typ = .element := he.typ
    obtain ⟨t, w, s, f, l⟩ := r
    simp only [Result.typ] at ht
    subst ht
    simp [Result.array]
  exact ⟨r, hr, he, fun k hk => C39_children env ho xml i h pre n hp hl nd hnd r hr (by omega) k hk⟩

/-- A document of a megabyte with a thousand attributes is roomy for paths of up to 300 levels; so is any document of 7000 bytes for paths of up to 100. -/
example (xml : Bytes) (h : xml.length ≤ 1048576) (h2 : xml.count c!"=" ≤ 1000) (n : Nat) (hn : n ≤ 300) : Roomy xml n := by
  unfold Roomy
  have : n * (13 * xml.count c!"=" + 4) ≤ 300 * 13004 := Nat.mul_le_mul hn (by omega)
  omega

example (xml : Bytes) (h : xml.length ≤ 7000) (n : Nat) (hn : n ≤ 100) : Roomy xml n := by
  unfold Roomy
  have h2 : xml.count c!"=" ≤ xml.length := List.count_le_length
  have : n * (13 * xml.count c!"=" + 4) ≤ 100 * (13 * 7000 + 4) := Nat.mul_le_mul hn (by omega)
  omega

end Verif.Props
