import Verif.Lemmas.ModsList
import Verif.Spec.Each
import Verif.Props.Mods
/- Modifiers at the end of a path through `*` or `#(…)#`: C52. -/
namespace Verif.Props
open Verif Verif.Spec

theorem fruits_fruitful {env : Env} {names : List Bytes} (hl : names.length ≤ 20) (hf : Fruits env.mods names) : Fruitful env names := by
  intro r hr
  obtain ⟨h1, h2⟩ := hf r _ (by simpa [Result.isArray] using hr.1) (by simpa [Result.exists?] using hr.2) ((C35_chain env.mods r _ names hl).mp rfl)
  exact ⟨h1, fun x hx => by have := h2 x hx; simpa [Result.isArray, Result.exists?, Single] using this⟩

theorem bundle_pack (rs : List Result) : Bundle rs (packResults rs) := by
  match rs with
  | [] => exact .list _ (by simp)
  | [r] => exact .one r
  | r :: q :: l => exact .list _ (by simp)

/-- C52: on any document, a path with one step that collects (`*` or a filter for all matches), steps to one element before it and at least one such step after it, with modifiers
written on its last part: the modifiers are applied to each of the results of the path without them. If there is just one part after the step that collects, they are applied once more,
to all these results together; with more parts after it they are not. -/
theorem C52_list (env : Env) (ho : env.ord.IsPerm) (xml : Bytes) {dp : Bool} {qs ps gs : List Bytes} {ns ms : List Move} {m : Move} {g : Goal}
    (hq : Spells env.parseFloat dp (.moves qs (ns ++ [m]))) (hs : Spells env.parseFloat dp (.moves ps ms)) (hg : GoalText gs g) (hgf : g.isField = false) (hp : Proper (ns ++ m :: ms))
    (hl : (qs ++ ps ++ gs).length ≤ 100) (hn1 : ∀ x ∈ ns, x.single = true) (hgm : m = .any ∨ ∃ n p, m = .satAll n p) (hne : ms ≠ []) (hm1 : ∀ x ∈ ms, x.single = true)
    {names : List Bytes} (hn : ∀ n ∈ names, ModName n) (hnl : names.length ≤ 20) (hk : Keeps env.mods names) (hf : Fruits env.mods names) :
    ∃ r out, get env xml (pathOf (qs ++ ps ++ gs)) = .ret r ∧ get env xml (pathOf (withMods names (qs ++ ps ++ gs))) = .ret out ∧
      (r.array = [] → out = r) ∧
      (r.array ≠ [] → ∃ each all, All2 (fun x y => Pipeline env.mods x names y) r.array each ∧ Bundle (each.flatMap Result.array) all ∧
        ((ps ++ gs).length = 1 → Pipeline env.mods all names out) ∧ ((ps ++ gs).length ≠ 1 → out = all)) := by
  obtain ⟨r, e1, e2, -⟩ := get_list env ho hq hs hg hgf hp hl hn1 hgm hne hm1 hn (keeps_noLoss hnl hk) (fruits_fruitful hnl hf) xml
  refine ⟨r, _, e1, e2, fun h => if_pos h, fun h => ⟨r.array.map fun x => applyModifiers env.mods x names, packResults (r.array.flatMap fun x => (applyModifiers env.mods x names).array), ?_, ?_, fun hc => ?_, fun hc => ?_⟩⟩
  · generalize r.array = l
    induction l with
    | nil => exact .nil
    | cons x l ih => exact .cons ((C35_chain env.mods x _ names hnl).mp rfl) ih
  · rw [List.flatMap_map]; exact bundle_pack _
  · rw [modEach, if_neg h]
    simp only [hc, beq_self_eq_true, if_true]
    exact (C35_chain env.mods _ _ names hnl).mp rfl
  · rw [modEach, if_neg h]
    have : ((ps ++ gs).length == 1) = false := beq_false_of_ne hc
    simp only [this, Bool.false_eq_true, if_false]

/-- C52: `@reverse`, `@sort`, `@first`, `@last`, `@flatten` and `@ugly` make results of results. -/
theorem C52_builtins_fruits (srt : Sorter) (hsrt : ∀ less l, (srt less l).Perm l) (pf : Bytes → Option FVal) (pretty : Result → Result)
    {mods : Bytes → Option (Result → Result)} {names : List Bytes} (hm : ∀ n ∈ names, mods n = builtinMods srt pf pretty n)
    (h : ∀ n ∈ names, n ∈ [b!"reverse", b!"sort", b!"first", b!"last", b!"flatten", b!"ugly"]) : Fruits mods names := by
  intro r out h1 h2 hp
  have hr : Found r := found_one ⟨h1, h2⟩
  have hb := fun n hn => builtin_found srt hsrt pf pretty n (h n hn)
  suffices Found out from ⟨this.1, this.2.1⟩
  clear h h1 h2
  induction hp with
  | done r => exact hr
  | unknown r n ns he =>
    obtain ⟨f, e, -⟩ := hb n (by simp)
    rw [hm n (by simp), e] at he; simp at he
  | stop r n ns f he hx =>
    obtain ⟨f', e, hk⟩ := hb n (by simp)
    rw [hm n (by simp), e] at he; simp at he; subst he
    exact hk r hr
  | next r out n ns f he hx hp ih =>
    obtain ⟨f', e, hk⟩ := hb n (by simp)
    rw [hm n (by simp), e] at he; simp at he; subst he
    exact ih (fun x hx => hm x (by simp [hx])) (hk r hr) (fun x hx => hb x (by simp [hx]))

/-- `r.*.c|@reverse|@first` and `r.*.b.c|@reverse|@first` on any document. -/
theorem C52_list_instance (xml : Bytes) :
    (∃ r out, get exModEnv xml b!"r.*.c" = .ret r ∧ get exModEnv xml b!"r.*.c|@reverse|@first" = .ret out ∧ (r.array = [] → out = r) ∧
      (r.array ≠ [] → ∃ each all, All2 (fun x y => Pipeline exModEnv.mods x [b!"reverse", b!"first"] y) r.array each ∧ Bundle (each.flatMap Result.array) all ∧
        Pipeline exModEnv.mods all [b!"reverse", b!"first"] out)) ∧
    (∃ r out, get exModEnv xml b!"r.*.b.c" = .ret r ∧ get exModEnv xml b!"r.*.b.c|@reverse|@first" = .ret out ∧ (r.array = [] → out = r) ∧
      (r.array ≠ [] → ∃ each, All2 (fun x y => Pipeline exModEnv.mods x [b!"reverse", b!"first"] y) r.array each ∧ Bundle (each.flatMap Result.array) out)) := by
  have hq : Spells exModEnv.parseFloat false (.moves [b!"r", b!"*"] ([.name b!"r"] ++ [.any])) := .cons (ps := [b!"r"]) (.name (plain_of (by decide))) (.cons (ps := [b!"*"]) .any .nil)
  have h1 : Spells exModEnv.parseFloat false (.moves [b!"c"] [.name b!"c"]) := .cons (ps := [b!"c"]) (.name (plain_of (by decide))) .nil
  have h2 : Spells exModEnv.parseFloat false (.moves [b!"b", b!"c"] [.name b!"b", .name b!"c"]) := .cons (ps := [b!"b"]) (.name (plain_of (by decide))) h1
  have hn : ∀ n ∈ [b!"reverse", b!"first"], ModName n := fun n hn => by simp at hn; rcases hn with rfl | rfl <;> exact ⟨by decide, by decide⟩
  have hf : Fruits exModEnv.mods [b!"reverse", b!"first"] := by
    refine C52_builtins_fruits (fun _ l => l) (fun _ _ => .refl _) exEnv.parseFloat id (fun n hn => ?_) (by decide)
    simp only [List.mem_cons, List.not_mem_nil, or_false] at hn
    rcases hn with rfl | rfl <;> rfl
  refine ⟨?_, ?_⟩
  · obtain ⟨r, out, e1, e2, e3, e4⟩ := C52_list exModEnv exEnv_perm xml hq h1 .elem rfl ⟨trivial, trivial⟩ (by simp) (by simp [Move.single]) (.inl rfl) (by simp) (by simp [Move.single]) hn (by simp) exModEnv_keeps hf
    exact ⟨r, out, e1, e2, e3, fun h => by obtain ⟨each, all, i1, i2, i3, -⟩ := e4 h; exact ⟨each, all, i1, i2, i3 rfl⟩⟩
  · obtain ⟨r, out, e1, e2, e3, e4⟩ := C52_list exModEnv exEnv_perm xml hq h2 .elem rfl ⟨trivial, trivial, trivial⟩ (by simp) (by simp [Move.single]) (.inl rfl) (by simp) (by simp [Move.single]) hn (by simp) exModEnv_keeps hf
    exact ⟨r, out, e1, e2, e3, fun h => by obtain ⟨each, all, i1, i2, -, i4⟩ := e4 h; exact ⟨each, i1, i4 (by simp) ▸ i2⟩⟩

end Verif.Props
