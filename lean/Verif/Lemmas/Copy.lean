import Verif.Spec.Copy
import Verif.Lemmas.ShapeDoc
import Verif.Lemmas.Ask
import Verif.Lemmas.Create
import Verif.Lemmas.RawForest
/- Content taken from one element and written into another. -/
namespace Verif
open Spec

/-! ### levels and entities belong to what a forest says -/

def Spec.Info.NoEntity : Info → Prop
  | .nil => True
  | .text _ next => next.NoEntity
  | .misc (.decl b) next => ¬ b!"ENTITY" <+: b ∧ b.head? ≠ some c!"-" ∧ next.NoEntity
  | .misc (.pi b) next => b.head? ≠ some c!"-" ∧ next.NoEntity
  | .misc _ next => next.NoEntity
  | .elem _ _ kids next => kids.NoEntity ∧ next.NoEntity

theorem levels_info (f : Forest) : f.info.levels = f.levels := by
  induction f with
  | nil => rfl
  | text b next ih => simpa [Forest.info, Info.levels, Forest.levels] using ih
  | misc m next ih => simpa [Forest.info, Info.levels, Forest.levels] using ih
  | leaf n as ws next ih => simp [Forest.info, Info.levels, Forest.levels, ih]
  | node n as ws kids cws next ihk ih => simp [Forest.info, Info.levels, Forest.levels, ihk, ih]

theorem noEntity_info (f : Forest) : f.info.NoEntity ↔ f.NoEntity := by
  induction f with
  | nil => exact Iff.rfl
  | text b next ih => simpa [Forest.info, Info.NoEntity, Forest.NoEntity] using ih
  | misc m next ih => cases m <;> simp [Forest.info, Info.NoEntity, Forest.NoEntity, ih]
  | leaf n as ws next ih => simp [Forest.info, Info.NoEntity, Forest.NoEntity, ih]
  | node n as ws kids cws next ihk ih => simp [Forest.info, Info.NoEntity, Forest.NoEntity, ihk, ih]

/-- Content may be put deeper if there are levels enough. -/
theorem legal_deeper {f : Forest} : ∀ {d e : Nat}, f.Legal d → 0 < d → 0 < e → e + f.levels ≤ 100 → f.Legal e := by
  induction f with
  | nil => intros; trivial
  | text b next ih => intro d e h hd he hl; exact ⟨h.1, by omega, ih h.2.2 hd he hl⟩
  | misc m next ih => intro d e h hd he hl; exact ⟨h.1, ih h.2 hd he hl⟩
  | leaf n as ws next ih =>
    intro d e h hd he hl
    simp only [Forest.levels] at hl
    exact ⟨h.1, h.2.1, h.2.2.1, by omega, ih h.2.2.2.2 hd he (by omega)⟩
  | node n as ws kids cws next ihk ih =>
    intro d e h hd he hl
    simp only [Forest.levels] at hl
    obtain ⟨h1, h2, h3, h4, h5, h6, h7⟩ := h
    exact ⟨h1, h2, h3, by omega, ihk h5 (by omega) (by omega) (by omega), h6, ih h7 hd he (by omega)⟩

/-! ### what Raw is -/

/-- Content as the parser writes it, of fewer than `N` levels, that SetRaw accepts. -/
def CopyContent (N : Nat) (c : Bytes) : Prop := ∃ g : Forest, CanonF g ∧ g.Legal 1 ∧ g.Tame false ∧ g.NoEntity ∧ g.levels < N ∧ g.render = c

theorem topElems_copy {o : Ord} (ho : o.IsPerm) {N : Nat} {f : Forest} {d : Nat} {top : Bool} (hl : f.Legal d) (ht : f.Tame top) (hne : f.NoEntity) (hN : f.levels ≤ N) :
    ∀ e ∈ topElems o f.render, CopyContent N e.content := by
  induction f with
  | nil => rw [Forest.render, topElems_empty]; simp
  | text b next ih =>
    obtain ⟨hb, -, hl⟩ := hl
    rw [Forest.render, topElems_skip (skipToNext_text hb _)]
    exact ih hl ht hne hN
  | misc m next ih =>
    obtain ⟨hm, hl⟩ := hl
    obtain ⟨hi, ht⟩ := ht
    have hout : m.Outer := by
      cases top
      · exact Misc.inner_outer (by simpa using hi)
      · simpa using hi
    rw [Forest.render, topElems_skip (skipToNext_outer hm hout _)]
    refine ih hl ht ?_ hN
    cases m <;> simp only [Forest.NoEntity] at hne
    all_goals first | exact hne.2.2 | exact hne.2 | exact hne
  | leaf n as ws next ih =>
    have hlo := Forest.Legal.loose hl
    obtain ⟨hn, ha, hws, -⟩ := hlo
    obtain ⟨-, ht⟩ := ht
    simp only [Forest.levels] at hN
    have e : (Forest.leaf n as ws next).render = openTag n as ws ++ c!"/" :: c!">" :: next.render := by simp [Forest.render]
    rw [e, topElems_some (skipToNext_open hn as ws _), elemAt_self hn ha hws]
    intro x hx
    rcases List.mem_cons.mp hx with rfl | hx
    · exact ⟨.nil, trivial, trivial, trivial, trivial, by simp only [Forest.levels]; omega, rfl⟩
    · exact ih hl.2.2.2.2 ht hne (by omega) x hx
  | node n as ws kids cws next ihk ihn =>
    have hlo := Forest.Legal.loose hl
    obtain ⟨hn, ha, hws, hlk, hcws, -⟩ := hlo
    obtain ⟨-, hlen, htk, ht⟩ := ht
    simp only [Forest.levels] at hN
    obtain ⟨g, h1, h2, h3, h4, -, h5⟩ := elemAt_open ho (r := next.render) hn ha hws hlk htk hcws hlen
    have e : (Forest.node n as ws kids cws next).render = openTag n as ws ++ c!">" :: (kids.render ++ (closeTag n cws ++ next.render)) := by simp [Forest.render]
    rw [e, topElems_some (skipToNext_open hn as ws _), h5]
    intro x hx
    rcases List.mem_cons.mp hx with rfl | hx
    · refine ⟨g, h1, legal_lower (d := 0) (k := d) ?_, h3, ?_, ?_, rfl⟩
      · have := h2.2 (d + 1) hl.2.2.2.2.1
        rw [show 0 + d + 1 = d + 1 by omega]; exact this
      · rw [← noEntity_info, h4, noEntity_info]; exact hne.1
      · rw [← levels_info, h4, levels_info]; omega
    · exact ihn hl.2.2.2.2.2.2 ht hne.2 (by omega) x hx

theorem closed_copy {o : Ord} (ho : o.IsPerm) (N : Nat) :
    Closed o (fun x => ∃ (f : Forest) (d : Nat) (top : Bool), f.Legal d ∧ f.Tame top ∧ f.NoEntity ∧ f.levels ≤ N ∧ f.render = x) (CopyContent N) where
  step := by rintro x ⟨f, d, top, hl, ht, hne, hN, rfl⟩; exact topElems_copy ho hl ht hne hN
  again := by rintro x ⟨g, -, hl, ht, hne, hN, rfl⟩; exact ⟨g, 1, false, hl, ht, hne, by omega, rfl⟩

/-! ### Get follows the steps that Set follows -/

/-- The goals for which Get and Set agree on where a path leads. -/
def Goal.Settable (g : Goal) : Prop := g = .elem ∨ ∃ a, g = .attr a

theorem last_name {root : Bool} {n : Bytes} {i : Info} {nd : Node} {g : Goal} {x : Item} (hf : (i.named n)[0]? = some nd) (hg : Goal.Settable g)
    (hx : g.items nd = [x]) : (Move.name n).last root i g = .one x := by
  cases h : i.named n with
  | nil => simp [h] at hf
  | cons y ys =>
    simp [h] at hf; subst hf
    rcases hg with rfl | ⟨a, rfl⟩ <;> simp [Move.last, Goal.isField, h, hx, pack]

theorem last_nth {n : Bytes} {j : Nat} (hj : j < 1000) {i : Info} {nd : Node} {g : Goal} {x : Item} (hf : (i.named n)[j]? = some nd) (hg : Goal.Settable g)
    (hx : g.items nd = [x]) : (Move.nth n j).last false i g = .one x := by
  have h : ((i.named n).take 1000)[j]? = some nd := by rw [List.getElem?_take, if_pos hj, hf]
  rcases hg with rfl | ⟨a, rfl⟩ <;> simp [Move.last, Goal.isField, Move.nodes, Info.hits, h, hx, pack]

theorem ask_steps {pf : Bytes → Option FVal} {ps : List Step} {parts : List Bytes} (h : StepsText ps parts) (hj : ∀ p ∈ ps, p.2 < 1000) (hne : ps ≠ []) :
    ∃ ms, Spells pf false (.moves parts ms) ∧ Proper ms ∧ (∃ m ms', ms = m :: ms' ∧ m.Free) ∧
      ∀ i nd g x, i.follow ps = some nd → Goal.Settable g → g.items nd = [x] → ask ms g false i = .one x := by
  induction h with
  | nil => exact absurd rfl hne
  | @name n ps parts hn h ih =>
    cases ps with
    | nil =>
      cases h
      refine ⟨[.name n], .cons (.name hn) .nil, trivial, ⟨_, _, rfl, trivial⟩, fun i nd g x hf hg hx => last_name ?_ hg hx⟩
      simpa [Info.follow] using hf
    | cons p ps =>
      obtain ⟨ms, h1, h2, ⟨m, ms', rfl, h3⟩, h4⟩ := ih (fun q hq => hj q (by simp [hq])) (by simp)
      refine ⟨.name n :: m :: ms', .cons (.name hn) h1, ⟨h3, h2⟩, ⟨_, _, rfl, trivial⟩, fun i nd g x hf hg hx => ?_⟩
      simp only [Info.follow] at hf
      cases hx' : i.named n with
      | nil => simp [hx'] at hf
      | cons y ys =>
        simp only [hx', List.getElem?_cons_zero, Option.bind_some] at hf
        simp [ask, Move.nodes, Move.join, hx', h4 _ _ _ _ hf hg hx, firstAnswer]
  | @index n ds j ps parts hn hd hj0 h ih =>
    have hj1 : j < 1000 := hj (n, j) (by simp)
    cases ps with
    | nil =>
      cases h
      refine ⟨[.nth n j], .cons (.nth hn hd) .nil, trivial, ⟨_, _, rfl, trivial⟩, fun i nd g x hf hg hx => last_nth hj1 ?_ hg hx⟩
      simpa [Info.follow] using hf
    | cons p ps =>
      obtain ⟨ms, h1, h2, ⟨m, ms', rfl, h3⟩, h4⟩ := ih (fun q hq => hj q (by simp [hq])) (by simp)
      refine ⟨.nth n j :: m :: ms', .cons (.nth hn hd) h1, h2, ⟨_, _, rfl, trivial⟩, fun i nd g x hf hg hx => ?_⟩
      simp only [Info.follow] at hf
      cases hx0 : (i.named n)[j]? with
      | none => simp [hx0] at hf
      | some y =>
        simp only [hx0, Option.bind_some] at hf
        have hx' : ((i.named n).take 1000)[j]? = some y := by rw [List.getElem?_take, if_pos hj1, hx0]
        simp [ask, Move.nodes, Move.join, Info.hits, hx', h4 _ _ _ _ hf hg hx, firstAnswer]

/-- At the top of the document, where the first step is a name without an index. -/
theorem ask_steps_goal {pf : Bytes → Option FVal} {n : Bytes} {ps : List Step} {parts : List Bytes} (hn : PlainName n) (h : StepsText ps parts) (hj : ∀ p ∈ ps, p.2 < 1000) :
    ∃ ms, Spells pf false (.moves (n :: parts) ms) ∧ Proper ms ∧
      ∀ i nd g x, i.follow ((n, 0) :: ps) = some nd → Goal.Settable g → g.items nd = [x] → ask ms g true i = .one x := by
  cases ps with
  | nil =>
    cases h
    refine ⟨[.name n], .cons (.name hn) .nil, trivial, fun i nd g x hf hg hx => last_name ?_ hg hx⟩
    simpa [Info.follow] using hf
  | cons p ps =>
    obtain ⟨ms, h1, h2, ⟨m, ms', rfl, h3⟩, h4⟩ := ask_steps (pf := pf) h hj (by simp)
    refine ⟨.name n :: m :: ms', .cons (.name hn) h1, ⟨h3, h2⟩, fun i nd g x hf hg hx => ?_⟩
    simp only [Info.follow] at hf
    cases hx' : i.named n with
    | nil => simp [hx'] at hf
    | cons y ys =>
      simp only [hx', List.getElem?_cons_zero, Option.bind_some] at hf
      simp [ask, Move.nodes, Move.join, hx', h4 _ _ _ _ hf hg hx, firstAnswer]

theorem ask_steps_top {pf : Bytes → Option FVal} {n : Bytes} {ps : List Step} {parts : List Bytes} (hn : PlainName n) (h : StepsText ps parts) (hj : ∀ p ∈ ps, p.2 < 1000) :
    ∃ ms, Spells pf false (.moves (n :: parts) ms) ∧ Proper ms ∧ ∀ i nd, i.follow ((n, 0) :: ps) = some nd → ask ms .elem true i = .one (.elem nd) := by
  obtain ⟨ms, h1, h2, h3⟩ := ask_steps_goal (pf := pf) hn h hj
  exact ⟨ms, h1, h2, fun i nd hf => h3 i nd .elem _ hf (.inl rfl) rfl⟩

end Verif
