import Verif.Lemmas.Limit
import Verif.Lemmas.Spell
/- Modifiers on the last part of a path. -/
namespace Verif
open Spec

/-- Modifiers on the last segment. -/
def addMods (names : List Bytes) : List Seg → List Seg
  | [] => []
  | [s] => [⟨s.kind, names⟩]
  | s :: t :: r => s :: addMods names (t :: r)

theorem addMods_cons {names : List Bytes} {s : Seg} {r : List Seg} (h : r ≠ []) : addMods names (s :: r) = s :: addMods names r := by
  cases r with
  | nil => exact absurd rfl h
  | cons t r => rfl

theorem addMods_append {names : List Bytes} {l r : List Seg} (h : r ≠ []) : addMods names (l ++ r) = l ++ addMods names r := by
  induction l with
  | nil => rfl
  | cons s l ih => rw [List.cons_append, addMods_cons (by simp [h]), ih]; rfl

theorem addMods_head {names : List Bytes} (s : Seg) (r : List Seg) : ∃ s' r', addMods names (s :: r) = s' :: r' ∧ s'.kind = s.kind ∧ (r = [] ↔ r' = []) := by
  cases r with
  | nil => exact ⟨_, _, rfl, rfl, by simp⟩
  | cons t r =>
    refine ⟨s, addMods names (t :: r), rfl, rfl, ?_⟩
    cases r <;> simp [addMods]

/-- A result with the modifiers applied: not to a missing result, nor to an empty list. -/
def modOn (env : Env) (names : List Bytes) (r : Result) : Result :=
  if r.array = [] then r else applyModifiers env.mods r names

/-- The modifiers do not lose a result: what a query found, they do not turn into a missing result. -/
def NoLoss (env : Env) (names : List Bytes) : Prop :=
  ∀ r : Result, r.array ≠ [] → (∀ x ∈ r.array, Single x) → (r.typ = .array → r.raw = []) → (applyModifiers env.mods r names).typ ≠ .null

section
variable {env : Env} {ev : Filter → Elem → Bool} {names : List Bytes}

theorem modOn_null : modOn env names .null = .null := if_pos rfl

theorem null_array {r : Result} (h : r.typ = .null) : r.array = [] := by simp [Result.array, h]

theorem array_ne {r : Result} (h : Single r) : r.array ≠ [] := by
  rw [Result.array, if_neg h.1, if_neg h.2]; simp

theorem modOn_typ (hk : NoLoss env names) {r : Result} (hr : (∀ x ∈ r.array, Single x) ∧ (r.typ = .array → r.raw = [])) :
    (modOn env names r).typ = .null ↔ r.typ = .null := by
  unfold modOn
  split
  · rfl
  · rename_i h
    exact ⟨fun e => absurd e (hk r h hr.1 hr.2), fun e => absurd (null_array e) h⟩

theorem modOn_some {r : Result} (h : r.array ≠ []) : modOn env names r = applyModifiers env.mods r names := if_neg h

theorem modOn_field (ms : List Elem) (f : Bytes) : modOn env names (fieldExtraction env ms f []) = fieldExtraction env ms f names := by
  unfold fieldExtraction
  simp only [runMods_nil]
  split
  · exact modOn_null
  · split
    · exact if_pos rfl
    · rename_i h
      exact if_neg (by simp [Result.array, Result.ofArray, Result.results]; simpa using h)

theorem firstSome_mod {K : Bytes → Result} {m : Result → Result} (h0 : m .null = .null) (h1 : ∀ x, (m (K x)).typ = .null ↔ (K x).typ = .null) (l : List Bytes) :
    firstSome (fun x => m (K x)) l = m (firstSome K l) := by
  induction l with
  | nil => exact h0.symm
  | cons c l ih =>
    simp only [firstSome, h1, ih]
    split <;> rfl

end

def Spec.Goal.isElem : Goal → Bool
  | .elem => true
  | _ => false

/-- Paths below the document on which the code forgets the modifiers. -/
def ForgetsAt (root : Bool) (ms : List Move) (g : Goal) : Prop :=
  (root = true ∧ (∃ n j, ms = [.nth n j]) ∧ (g = .elem ∨ g = .text ∨ ∃ a, g = .attr a)) ∨ (root = true ∧ (∃ n, ms = [.name n]) ∧ g = .count)

section
variable {env : Env} {ev : Filter → Elem → Bool} {d t : Prop} {names : List Bytes}

theorem routeFilter_mods {K K' : Bytes → Result} (hK : ∀ x, K' x = modOn env names (K x)) {ms : List Elem} {seg s s' : Seg} {r r' : List Seg}
    (hs : s.kind.isMove = true) (hs' : s'.kind = s.kind) :
    routeFilter env ms seg false (s' :: r') K' = modOn env names (routeFilter env ms seg false (s :: r) K) := by
  cases ms with
  | nil => exact modOn_null.symm
  | cons m ms =>
    simp only [routeFilter, Bool.false_eq_true, if_false]
    rw [processFirst_move (hs' ▸ hs), processFirst_move hs, hK]

/-- Going on after a move to one element. -/
theorem single_mods (hk : NoLoss env names) {S : List Seg} {m : Move} (hm : MoveSegs d t ev S m)
    (h1 : m.single = true) {s s' : Seg} {r r' : List Seg} (hs : s.kind.isMove = true) (hs' : s'.kind = s.kind)
    (hfree : (∃ x, m = .name x) → s.kind.isStep = true)
    (hK : ∀ x, execQ env ev (s' :: r') false x = modOn env names (execQ env ev (s :: r) false x)) (hn : ∀ u ∈ s :: r, u.mods = []) (root : Bool) (xml : Bytes) :
    execQ env ev (S ++ s' :: r') root xml = modOn env names (execQ env ev (S ++ s :: r) root xml) := by
  cases hm with
  | name n =>
    have h2 := hfree ⟨n, rfl⟩
    rw [List.singleton_append, List.singleton_append, exec_step env ev n s r root xml h2, exec_step env ev n s' r' root xml (hs' ▸ h2)]
    rw [← firstSome_mod modOn_null (fun x => modOn_typ hk (execQ_inv (s :: r) hn false x).2)]
    congr 1
    funext x; exact hK x
  | nth n j i hij =>
    simp only [List.cons_append, List.nil_append, execQ]
    obtain ⟨kind, md⟩ := s
    obtain ⟨kind', md'⟩ := s'
    simp only at hs'; subst hs'
    cases root with
    | true =>
      simp only [execBody, nameSeg, isFragmentQuery, SegKind.isRootOp, Bool.and_self, if_true, fragmentRoots]
      split
      · exact modOn_null.symm
      · split
        · exact modOn_null.symm
        · split
          · exact modOn_null.symm
          · cases kind' <;> simp [SegKind.isMove] at hs <;> exact hK _
    | false =>
      simp only [execBody, nameSeg, isFragmentQuery, Bool.false_and, Bool.false_eq_true, if_false, execElem, arrayOp]
      split
      · exact modOn_null.symm
      · split
        · exact modOn_null.symm
        · split
          · exact modOn_null.symm
          · cases kind' <;> simp [SegKind.isMove] at hs <;> exact hK _
  | sat n f p hp =>
    simp only [List.cons_append, List.nil_append, exec_name_filter]
    exact routeFilter_mods hK hs hs'
  | satF f p hp =>
    simp only [List.cons_append, List.nil_append, exec_filter]
    exact routeFilter_mods hK hs hs'
  | _ => simp [Move.single] at h1

theorem modOn_content (c : Bytes) : modOn env names (.ofContent c) = applyModifiers env.mods (.ofContent c) names := modOn_some (array_ne (content_single _))
theorem modOn_attr (c : Bytes) : modOn env names (.ofAttr c) = applyModifiers env.mods (.ofAttr c) names := modOn_some (array_ne (attr_single _))
theorem modOn_text (c : Bytes) : modOn env names (.ofText c) = applyModifiers env.mods (.ofText c) names := modOn_some (array_ne (text_single _))
theorem modOn_count (n : Nat) : modOn env names (.ofCount n) = applyModifiers env.mods (.ofCount n) names := modOn_some (array_ne ⟨by simp, by simp⟩)

theorem modOn_array {rs : List Result} (h : rs ≠ []) : modOn env names (.ofArray rs) = applyModifiers env.mods (.ofArray rs) names := modOn_some h

theorem modOn_pack {rs : List Result} (hne : rs ≠ []) (h : ∀ r ∈ rs, Single r) : modOn env names (packResults rs) = applyModifiers env.mods (packResults rs) names := by
  apply modOn_some
  match rs with
  | [] => exact absurd rfl hne
  | [r] => exact array_ne (h r (by simp))
  | r :: q :: l => simp [packResults, Result.array, Result.ofArray, Result.typ, Result.results]

theorem modOn_ite (p : Prop) [Decidable p] : modOn env names (if p then .ofArray [] else .null) = if p then .ofArray [] else .null := by
  split
  · exact if_pos rfl
  · exact modOn_null

/-- What a filter hands on at the end of a path. -/
theorem route_mods {ms : List Elem} {kind : SegKind} {all : Bool} (g : Goal) :
    routeFilter env ms ⟨kind, if g.isElem then names else []⟩ all (addMods names (goalSegs g)) (execQ env ev (addMods names (goalSegs g)) false) =
      modOn env names (routeFilter env ms ⟨kind, []⟩ all (goalSegs g) (execQ env ev (goalSegs g) false)) := by
  cases ms with
  | nil => exact modOn_null.symm
  | cons m ms =>
    simp only [routeFilter]
    cases all with
    | false =>
      simp only [Bool.false_eq_true, if_false]
      cases g <;> simp only [goalSegs, addMods, processFirst, runMods_nil, Goal.isField, Goal.isElem, if_true, Bool.false_eq_true, if_false, modOn_field, modOn_content, modOn_text]
      · split <;> simp only [modOn_attr, modOn_null]
      · simp only [execQ, execBody, modOn_null]
    | true =>
      simp only [if_true]
      cases g <;> simp only [goalSegs, addMods, processAll, runMods_nil, Goal.isField, Goal.isElem, if_true, Bool.false_eq_true, if_false, modOn_field]
      · exact (modOn_array (by simp)).symm
      · split
        · exact modOn_null.symm
        · rename_i hne
          rw [modOn_pack (by simpa using hne)]
          intro r hr
          obtain ⟨e, -, he⟩ := List.mem_flatMap.mp hr
          split at he <;> simp at he; subst he; exact attr_single _
      · split
        · exact modOn_null.symm
        · rename_i hne
          rw [modOn_pack (by simpa using hne)]
          intro r hr
          obtain ⟨e, -, he⟩ := List.mem_flatMap.mp hr
          simp at he; subst he; exact text_single _
      · simp [execQ, execBody, asList, modOn_null]

theorem firstMatch_mods (v : Bytes) (g : Goal) (hg : g = .elem ∨ g = .text ∨ ∃ a, g = .attr a) (es : List Elem) (K K' : Bytes → Result) :
    firstMatch env ⟨.elem v, if g.isElem then names else []⟩ (addMods names (goalSegs g)) K' es =
      modOn env names (firstMatch env ⟨.elem v, []⟩ (goalSegs g) K es) := by
  cases es with
  | nil => exact modOn_null.symm
  | cons m ms =>
    rcases hg with rfl | rfl | ⟨a, rfl⟩ <;> simp only [goalSegs, addMods, firstMatch, runMods_nil, Goal.isField, Goal.isElem, if_true, Bool.false_eq_true, if_false, modOn_content, modOn_text]
    split <;> simp [modOn_attr, modOn_null]

/-- The last move and the goal. -/
theorem last_mods {S : List Seg} {m : Move} (hm : MoveSegs d t ev S m) (g : Goal) (hdeep : ∀ n, m ≠ .deep n) (root : Bool) (hfg : ¬ ForgetsAt root [m] g) (xml : Bytes) :
    execQ env ev (addMods names (S ++ goalSegs g)) root xml = modOn env names (execQ env ev (S ++ goalSegs g) root xml) := by
  cases hm with
  | sat n f p hp =>
    have h := route_mods (env := env) (ev := ev) (names := names) (ms := ((namedE env.ord n xml).take maxWildcardResults).filter (ev f)) (kind := .filter f false) (all := false) g
    simp only [List.cons_append, List.nil_append, exec_name_filter]
    rw [← h]
    cases g <;> simp only [goalSegs, addMods, execQ, execBody, nameSeg, isFragmentQuery, SegKind.isRootOp, Bool.and_false, Bool.false_eq_true, if_false, execElem, namedE_filter] <;> rfl
  | satF f p hp =>
    have h := route_mods (env := env) (ev := ev) (names := names) (ms := ((topElems env.ord xml).filter (ev f)).take maxWildcardResults) (kind := .filter f false) (all := false) g
    simp only [List.cons_append, List.nil_append, exec_filter]
    rw [← h]
    cases g <;> simp only [goalSegs, addMods, execQ, execBody] <;> rfl
  | satAll n f p hp =>
    have h := route_mods (env := env) (ev := ev) (names := names) (ms := ((namedE env.ord n xml).take maxWildcardResults).filter (ev f)) (kind := .filter f true) (all := true) g
    simp only [List.cons_append, List.nil_append, exec_name_filter]
    rw [← h]
    cases g <;> simp only [goalSegs, addMods, execQ, execBody, nameSeg, isFragmentQuery, SegKind.isRootOp, Bool.and_false, Bool.false_eq_true, if_false, execElem, namedE_filter] <;> rfl
  | satAllF f p hp =>
    have h := route_mods (env := env) (ev := ev) (names := names) (ms := ((topElems env.ord xml).filter (ev f)).take maxWildcardResults) (kind := .filter f true) (all := true) g
    simp only [List.cons_append, List.nil_append, exec_filter]
    rw [← h]
    cases g <;> simp only [goalSegs, addMods, execQ, execBody] <;> rfl
  | name n =>
    have h := fun hg => firstMatch_mods (env := env) (names := names) n g hg (namedE env.ord n xml) (execQ env ev (goalSegs g) false) (execQ env ev (addMods names (goalSegs g)) false)
    cases g with
    | count =>
      cases root with
      | true => exact absurd (.inr ⟨rfl, ⟨n, rfl⟩, rfl⟩) hfg
      | false =>
        simp only [List.cons_append, List.nil_append, goalSegs, addMods, execQ, execBody, nameSeg, isFragmentQuery, Bool.false_and, Bool.false_eq_true, if_false, execElem, arrayOp, runMods_nil, Goal.isField]
        split
        · exact modOn_null.symm
        · exact (modOn_count _).symm
    | elem =>
      have h := h (.inl rfl)
      simp only [List.cons_append, List.nil_append, goalSegs, addMods, execQ, execBody, nameSeg, isFragmentQuery, SegKind.isRootOp, Bool.and_false, Bool.false_eq_true, if_false, execElem, namedE_filter, Goal.isElem, if_true] at h ⊢
      exact h
    | text =>
      have h := h (.inr (.inl rfl))
      simp only [List.cons_append, List.nil_append, goalSegs, addMods, execQ, execBody, nameSeg, isFragmentQuery, SegKind.isRootOp, Bool.and_false, Bool.false_eq_true, if_false, execElem, namedE_filter, Goal.isElem, if_true] at h ⊢
      exact h
    | attr a =>
      have h := h (.inr (.inr ⟨a, rfl⟩))
      simp only [List.cons_append, List.nil_append, goalSegs, addMods, execQ, execBody, nameSeg, isFragmentQuery, SegKind.isRootOp, Bool.and_false, Bool.false_eq_true, if_false, execElem, namedE_filter, Goal.isElem, if_true] at h ⊢
      exact h
    | _ =>
      cases root <;>
      simp only [List.cons_append, List.nil_append, goalSegs, addMods, execQ, execBody, nameSeg, isFragmentQuery, SegKind.isRootOp, Bool.and_self, Bool.false_and, Bool.false_eq_true, if_false, if_true, execElem, fragmentRoots, Goal.isField, modOn_field]
      split <;> simp only [modOn_null, modOn_field]
  | nth n j i hij =>
    cases root with
    | true =>
      cases g with
      | elem => exact absurd (.inl ⟨rfl, ⟨_, _, rfl⟩, .inl rfl⟩) hfg
      | text => exact absurd (.inl ⟨rfl, ⟨_, _, rfl⟩, .inr (.inl rfl)⟩) hfg
      | attr a => exact absurd (.inl ⟨rfl, ⟨_, _, rfl⟩, .inr (.inr ⟨a, rfl⟩)⟩) hfg
      | _ =>
        simp only [List.cons_append, List.nil_append, goalSegs, addMods, execQ, execBody, nameSeg, isFragmentQuery, SegKind.isRootOp, Bool.and_self, if_true, fragmentRoots, Goal.isField]
        split
        · exact modOn_null.symm
        · split
          · exact modOn_null.symm
          · split
            · exact modOn_null.symm
            · first | exact modOn_null.symm | exact (if_pos rfl).symm
    | false =>
      cases g <;>
        simp only [List.cons_append, List.nil_append, goalSegs, addMods, execQ, execBody, nameSeg, isFragmentQuery, Bool.false_and, Bool.false_eq_true, if_false, execElem, arrayOp, Goal.isField, runMods_nil,
          List.isEmpty_nil, if_true]
      all_goals
        split
        · exact modOn_null.symm
        · split
          · exact modOn_null.symm
          · split
            · exact modOn_null.symm
            · first
              | exact modOn_null.symm
              | exact (if_pos rfl).symm
              | exact (modOn_content _).symm
              | (split
                 · exact (modOn_attr _).symm
                 · exact modOn_null.symm)
  | any =>
    cases g <;> simp only [List.cons_append, List.nil_append, goalSegs, addMods, execQ, execBody, List.isEmpty_nil, List.isEmpty_cons, Bool.false_eq_true, if_true, if_false, handleWildcard, Goal.isField, runMods_nil]
    · split
      · exact modOn_null.symm
      · rename_i h
        rw [modOn_pack (by simpa using h)]
        intro r hr
        obtain ⟨e, -, rfl⟩ := List.mem_map.mp hr
        exact content_single _
    · split
      · exact modOn_null.symm
      · have hf : ∀ l : List Elem, (l.any fun _ => false) = false := by simp
        simp only [hf, Bool.false_eq_true, if_false]
        split
        · exact modOn_null.symm
        · rename_i hne
          rw [modOn_pack (by simpa using hne)]
          intro r hr
          obtain ⟨e, -, he⟩ := List.mem_flatMap.mp hr
          split at he <;> simp at he; subst he; exact attr_single _
    · split
      · exact modOn_null.symm
      · have hf : ∀ l : List Elem, (l.any fun _ => false) = false := by simp
        simp only [hf, Bool.false_eq_true, if_false]
        split
        · exact modOn_null.symm
        · rename_i hne
          rw [modOn_pack (by simpa using hne)]
          intro r hr
          obtain ⟨e, -, he⟩ := List.mem_flatMap.mp hr
          simp at he; subst he; exact text_single _
    · split
      · exact modOn_null.symm
      · simp [asList, modOn_null]
    all_goals
      split
      · exact modOn_null.symm
      · rename_i h
        have hb : ∀ l : List Elem, (l.flatMap fun _ => asList (.ofArray [])) = [] := by simp [asList]
        simp only [hb, List.isEmpty_nil, if_true]
        exact (modOn_ite _).symm
  | deep n => exact absurd rfl (hdeep _)
  | deepAny b => exact absurd rfl (hdeep _)

theorem moveSegs_mods {Ss : List (List Seg)} {ms : List Move} (h : All2 (MoveSegs d t ev) Ss ms) : ∀ x ∈ Ss.flatten, x.mods = [] := by
  induction h with
  | nil => simp
  | cons hS hSs ih =>
    intro x hx
    rw [List.flatten_cons] at hx
    rcases List.mem_append.mp hx with hx | hx
    · cases hS <;> simp [nameSeg] at hx <;> first | (rcases hx with rfl | rfl <;> rfl) | (subst hx; rfl)
    · exact ih x hx

theorem exec_mods (hk : NoLoss env names) {Ss : List (List Seg)} {ms : List Move}
    (hm : All2 (MoveSegs d t ev) Ss ms) (hp : Proper ms) (h1 : ∀ m ∈ ms.dropLast, m.single = true) (hdeep : ∀ n, .deep n ∉ ms) (g : Goal) (root : Bool)
    (hfg : ¬ ForgetsAt root ms g) (xml : Bytes) :
    execQ env ev (addMods names (Ss.flatten ++ goalSegs g)) root xml = modOn env names (execQ env ev (Ss.flatten ++ goalSegs g) root xml) := by
  induction hm generalizing root xml with
  | nil =>
    simp only [List.flatten_nil, List.nil_append]
    cases g <;> simp only [goalSegs, addMods, execQ, execBody] <;> first | exact modOn_null.symm | exact (if_pos rfl).symm
  | @cons S m Ss ms hS hSs ih =>
    cases hSs with
    | nil =>
      simp only [List.flatten_cons, List.flatten_nil, List.append_nil]
      exact last_mods hS g (fun n e => hdeep n (by simp [e])) root hfg xml
    | @cons S2 m2 Ss2 ms2 hS2 hSs2 =>
      obtain ⟨s, S', rfl, hs, -, hst, -⟩ := moveSegs_head hS2
      have hp2 : Proper (m2 :: ms2) := by cases m <;> first | exact hp.2 | exact hp
      have hfree : (∃ x, m = .name x) → s.kind.isStep = true := by
        rintro ⟨x, rfl⟩; exact hst hp.1
      have ih' := ih hp2 (fun x hx => h1 x (by rw [List.dropLast_cons_of_ne_nil (by simp)]; simp [hx])) (fun n hn => hdeep n (by simp [hn])) false
        (by rintro (⟨h, -⟩ | ⟨h, -⟩) <;> simp at h)
      simp only [List.flatten_cons, List.cons_append, List.append_assoc] at ih' ⊢
      rw [addMods_append (by simp)]
      obtain ⟨s', r', e1, e2, -⟩ := addMods_head (names := names) s (S' ++ (Ss2.flatten ++ goalSegs g))
      rw [e1]
      have hnm : ∀ u ∈ s :: (S' ++ (Ss2.flatten ++ goalSegs g)), u.mods = [] := by
        intro u hu
        have hu : u ∈ ((s :: S') :: Ss2).flatten ++ goalSegs g := by simpa using hu
        rcases List.mem_append.mp hu with hu | hu
        · exact moveSegs_mods (All2.cons hS2 hSs2) u hu
        · exact goalSegs_mods g u hu
      refine single_mods hk hS (h1 m (by simp)) hs e2 hfree (fun x => ?_) ?_ root xml
      · rw [← e1]; exact ih' x
      · exact hnm

end

/-! ### forgotten modifiers -/

section
variable {env : Env} {ev : Filter → Elem → Bool} {d t : Prop} {names : List Bytes}

theorem recEmit_move {s : Seg} (hs : s.kind.isMove = true) (R : List Seg) (K : Bytes → Result) : recEmit env (s :: R) K = fun e => asList (K e.content) := by
  funext e
  obtain ⟨kind, md⟩ := s
  cases kind <;> simp [SegKind.isMove] at hs <;> rfl

theorem deep_congr {s tgt : Seg} (hs : s.kind.isMove = true) {r r' : List Seg} (hK : execQ env ev (s :: r') false = execQ env ev (s :: r) false) (root : Bool) (xml : Bytes) :
    execQ env ev (⟨.wild true, []⟩ :: tgt :: s :: r') root xml = execQ env ev (⟨.wild true, []⟩ :: tgt :: s :: r) root xml := by
  simp only [execQ, execBody, handleRecursive, hK, recEmit_move hs]

theorem deep_congr' {tgt tgt' : Seg} {R R' : List Seg} (ht : tgt'.kind = tgt.kind) (hK : ∀ e, recEmit env R' (execQ env ev R' false) e = recEmit env R (execQ env ev R false) e)
    (root : Bool) (xml : Bytes) :
    execQ env ev (⟨.wild true, []⟩ :: tgt' :: R') root xml = execQ env ev (⟨.wild true, []⟩ :: tgt :: R) root xml := by
  have e1 : Seg.matches tgt' = Seg.matches tgt := by
    funext n; unfold Seg.matches; rw [ht]
  simp only [execQ, execBody, handleRecursive, e1, funext hK]

/-- What comes after a move only matters through its results. -/
theorem exec_congr {S : List Seg} {m : Move} (hm : MoveSegs d t ev S m) {s : Seg} {r r' : List Seg} (hs : s.kind.isMove = true) (hfree : (∃ x, m = .name x) → s.kind.isStep = true)
    (hK : ∀ x, execQ env ev (s :: r') false x = execQ env ev (s :: r) false x) (root : Bool) (xml : Bytes) :
    execQ env ev (S ++ s :: r') root xml = execQ env ev (S ++ s :: r) root xml := by
  have hK' : execQ env ev (s :: r') false = execQ env ev (s :: r) false := funext hK
  cases hm with
  | name n =>
    have h2 := hfree ⟨n, rfl⟩
    rw [List.singleton_append, List.singleton_append, exec_step env ev n s r root xml h2, exec_step env ev n s r' root xml h2, hK']
  | nth n j i hij =>
    simp only [List.cons_append, List.nil_append, execQ]
    obtain ⟨kind, md⟩ := s
    cases root with
    | true =>
      simp only [execBody, nameSeg, isFragmentQuery, SegKind.isRootOp, Bool.and_self, if_true, fragmentRoots]
      split
      · rfl
      · split
        · rfl
        · split
          · rfl
          · cases kind <;> simp [SegKind.isMove] at hs <;> exact hK _
    | false =>
      simp only [execBody, nameSeg, isFragmentQuery, Bool.false_and, Bool.false_eq_true, if_false, execElem, arrayOp]
      split
      · rfl
      · split
        · rfl
        · split
          · rfl
          · cases kind <;> simp [SegKind.isMove] at hs <;> exact hK _
  | sat n f p hp =>
    simp only [List.cons_append, List.nil_append, exec_name_filter, hK']
    generalize ((namedE env.ord n xml).take maxWildcardResults).filter (ev f) = l
    cases l with
    | nil => rfl
    | cons a l => simp only [routeFilter, Bool.false_eq_true, if_false]; rw [processFirst_move hs, processFirst_move hs]
  | satF f p hp =>
    simp only [List.cons_append, List.nil_append, exec_filter, hK']
    generalize ((topElems env.ord xml).filter (ev f)).take maxWildcardResults = l
    cases l with
    | nil => rfl
    | cons a l => simp only [routeFilter, Bool.false_eq_true, if_false]; rw [processFirst_move hs, processFirst_move hs]
  | satAll n f p hp =>
    simp only [List.cons_append, List.nil_append, exec_name_filter, hK']
    rfl
  | satAllF f p hp =>
    simp only [List.cons_append, List.nil_append, exec_filter, hK']
    rfl
  | any =>
    simp only [List.cons_append, List.nil_append, exec_wild, hK']
    obtain ⟨kind, md⟩ := s
    cases kind <;> simp [SegKind.isMove] at hs <;> rfl
  | deep n => exact deep_congr hs hK' root xml
  | deepAny b => exact deep_congr hs hK' root xml

theorem deep_forgets (s : Seg) (g : Goal) (hg : g.isField = false) (root : Bool) (xml : Bytes) :
    execQ env ev (addMods names (⟨.wild true, []⟩ :: s :: goalSegs g)) root xml = execQ env ev (⟨.wild true, []⟩ :: s :: goalSegs g) root xml := by
  cases g <;> simp [Goal.isField] at hg <;> simp only [goalSegs, addMods]
  · exact deep_congr' rfl (fun e => rfl) root xml
  · exact deep_congr' rfl (fun e => rfl) root xml
  · exact deep_congr' rfl (fun e => rfl) root xml
  · exact deep_congr' rfl (fun e => by simp only [recEmit, execQ, execBody]) root xml

theorem exec_forgets {Ss : List (List Seg)} {ms : List Move} (hm : All2 (MoveSegs d t ev) Ss ms) (hp : Proper ms) (g : Goal) (hg : g.isField = false)
    (hd : ∃ n, ms.getLast? = some (.deep n)) (root : Bool) (xml : Bytes) :
    execQ env ev (addMods names (Ss.flatten ++ goalSegs g)) root xml = execQ env ev (Ss.flatten ++ goalSegs g) root xml := by
  induction hm generalizing root xml with
  | nil => simp at hd
  | @cons S m Ss ms hS hSs ih =>
    cases hSs with
    | nil =>
      obtain ⟨n, hd⟩ := hd
      simp only [List.getLast?_singleton, Option.some.injEq] at hd
      subst hd
      simp only [List.flatten_cons, List.flatten_nil, List.append_nil]
      cases hS with
      | deep n => exact deep_forgets _ g hg root xml
      | deepAny b => exact deep_forgets _ g hg root xml
    | @cons S2 m2 Ss2 ms2 hS2 hSs2 =>
      have hp2 : Proper (m2 :: ms2) := by cases m <;> first | exact hp.2 | exact hp
      have ih' := ih hp2 (by simpa [List.getLast?_cons_cons] using hd) false
      obtain ⟨s, S', rfl, hs, -, hst, -⟩ := moveSegs_head hS2
      have hfree : (∃ x, m = .name x) → s.kind.isStep = true := by
        rintro ⟨x, rfl⟩; exact hst hp.1
      simp only [List.flatten_cons, List.cons_append, List.append_assoc] at ih' ⊢
      rw [addMods_append (by simp)]
      have hne : S' ++ (Ss2.flatten ++ goalSegs g) ≠ [] := by
        cases hS2 <;> simp
        all_goals
          intro h1 h2
          cases hSs2 with
          | nil => obtain ⟨n, hd⟩ := hd; simp at hd
          | @cons S3 m3 Ss3 ms3 hS3 hSs3 => obtain ⟨s3, S3', rfl, -⟩ := moveSegs_head hS3; simp at h1
      rw [addMods_cons hne] at ih' ⊢
      exact exec_congr hS hs hfree ih' root xml

theorem root_forgets {S : List Seg} {m : Move} (hm : MoveSegs d t ev S m) (g : Goal)
    (h : ((∃ n j, m = .nth n j) ∧ (g = .elem ∨ g = .text ∨ ∃ a, g = .attr a)) ∨ ((∃ n, m = .name n) ∧ g = .count)) (xml : Bytes) :
    execQ env ev (addMods names (S ++ goalSegs g)) true xml = execQ env ev (S ++ goalSegs g) true xml := by
  rcases h with ⟨⟨n, j, rfl⟩, h⟩ | ⟨⟨n, rfl⟩, rfl⟩
  · cases hm
    rcases h with rfl | rfl | ⟨a, rfl⟩ <;> simp only [List.cons_append, List.nil_append, goalSegs, addMods, execQ, execBody, nameSeg, isFragmentQuery, SegKind.isRootOp, Bool.and_self, if_true] <;> rfl
  · cases hm
    simp only [List.cons_append, List.nil_append, goalSegs, addMods, execQ, execBody, nameSeg, isFragmentQuery, SegKind.isRootOp, Bool.and_self, if_true]; rfl

end

/-! ### parsing -/

theorem splitOn_append (sep : UInt8) {s : Bytes} (h : sep ∉ s) (t : Bytes) : splitOn sep (s ++ sep :: t) = s :: splitOn sep t := by
  induction s with
  | nil => simp [splitOn]
  | cons c cs ih =>
    simp only [List.mem_cons, not_or] at h
    rw [List.cons_append, splitOn, if_neg (Ne.symm h.1), ih h.2]

theorem modName_trim {n : Bytes} (h : ModName n) : trimSpace (c!"@" :: n) = c!"@" :: n := by
  refine trimSpace_ends (by simp) fun c hc => ?_
  cases n with
  | nil => simp at hc; subst hc; decide
  | cons a l =>
    rw [List.getLast?_cons_cons] at hc
    have := h.2 c hc
    refine ⟨this.1, ?_⟩
    have := this.2
    simp only [UInt8.le_iff_toNat_le] at this ⊢
    simp at this ⊢; omega

theorem splitOn_mods {p : Bytes} (hp : c!"|" ∉ p) {names : List Bytes} (hn : ∀ n ∈ names, ModName n) :
    splitOn c!"|" (p ++ names.flatMap (fun n => b!"|@" ++ n)) = p :: names.map (fun n => c!"@" :: n) := by
  induction names generalizing p with
  | nil => simp [splitOn_of_not_mem _ _ hp]
  | cons n ns ih =>
    have h1 := hn n (by simp)
    have h2 := ih (p := c!"@" :: n) (by simp [h1.1]) (fun m hm => hn m (by simp [hm]))
    simp only [List.flatMap_cons, List.cons_append, List.nil_append, List.map_cons] at h2 ⊢
    rw [splitOn_append _ hp, h2]

theorem parseModifiers_mods {p : Bytes} (hp : c!"|" ∉ p) {names : List Bytes} (hn : ∀ n ∈ names, ModName n) :
    parseModifiers (p ++ names.flatMap (fun n => b!"|@" ++ n)) = (p, names) := by
  unfold parseModifiers
  rw [splitOn_mods hp hn]
  simp only [Prod.mk.injEq, true_and]
  induction names with
  | nil => rfl
  | cons n ns ih =>
    rw [List.map_cons, List.filterMap_cons, modName_trim (hn n (by simp))]
    simp only [if_true]
    rw [ih (fun m hm => hn m (by simp [hm]))]

/-- A part without modifiers that is a segment. -/
def Clean (p : Bytes) : Prop := c!"|" ∉ p ∧ ∃ s, parsePart p = .seg s

theorem parsePart_mods {p : Bytes} (hp : c!"|" ∉ p) {s : Seg} (h : parsePart p = .seg s) {names : List Bytes} (hn : ∀ n ∈ names, ModName n) :
    parsePart (p ++ names.flatMap (fun n => b!"|@" ++ n)) = .seg ⟨s.kind, names⟩ := by
  unfold parsePart at h ⊢
  rw [parseModifiers_plain p hp] at h
  rw [parseModifiers_mods hp hn]
  split at h
  · simp at h
  · rename_i hne
    rw [if_neg (by simp at hne ⊢; exact fun e => absurd e hne)]
    simp only at h ⊢
    split at h
    · rename_i h1
      rw [if_pos h1]
      unfold parseFilterPart at h ⊢
      simp only at h ⊢
      split at h
      · rename_i h2
        rw [if_pos h2]
        split at h
        · simp at h
        · rename_i h3
          rw [if_neg h3]
          split at h
          · simp at h
          · simp at h
          · simp at h; subst h; rfl
      · rename_i h2
        rw [if_neg h2]
        split at h
        · rename_i h5
          rw [if_pos h5]
          split at h
          · simp at h
          · rename_i h3
            rw [if_neg h3]
            split at h
            · simp at h
            · simp at h
            · simp at h; subst h; rfl
        · simp at h
    · rename_i h1
      rw [if_neg h1]
      repeat' split at h
      all_goals (simp only [PartRes.seg.injEq] at h; subst h)
      all_goals first | (simp [*]; done) | (rename_i h9; subst h9; rfl)

theorem parseParts_mods {names : List Bytes} (hn : ∀ n ∈ names, ModName n) {ps : List Bytes} {S : List Seg} (h : parseParts ps = .ok S) (hc : ∀ p ∈ ps, Clean p) :
    parseParts (withMods names ps) = .ok (addMods names S) ∧ (ps = [] ↔ S = []) := by
  induction ps generalizing S with
  | nil => simp only [parseParts, Parse.ok.injEq] at h; subst h; exact ⟨rfl, by simp⟩
  | cons p ps ih =>
    obtain ⟨h1, s, h2⟩ := hc p (by simp)
    rw [parseParts, h2] at h
    simp only at h
    cases hq : parseParts ps with
    | panic => rw [hq] at h; simp at h
    | err => rw [hq] at h; simp at h
    | ok ss =>
      rw [hq] at h
      simp only [Parse.ok.injEq] at h
      subst h
      obtain ⟨i1, i2⟩ := ih hq (fun q hq => hc q (by simp [hq]))
      refine ⟨?_, by simp⟩
      cases ps with
      | nil =>
        have := i2.mp rfl
        subst this
        simp only [withMods, parseParts, parsePart_mods h1 h2 hn, addMods]
      | cons q ps =>
        have hne : ss ≠ [] := fun e => by simpa using i2.mpr e
        rw [withMods, parseParts, h2, addMods_cons hne]
        simp only [i1]

theorem fuseFields_mods (names : List Bytes) (ss : List Seg) : fuseFields (addMods names ss) = addMods names (fuseFields ss) := by
  match ss with
  | [] => rfl
  | [s] => simp [addMods, fuseFields]
  | [s, t] =>
    simp only [addMods, fuseFields]
    split
    · split
      · split <;> simp [addMods]
      · simp [addMods]
    · simp [addMods]
  | s :: t :: u :: r =>
    have h1 := fuseFields_mods names (u :: r)
    have h2 := fuseFields_mods names (t :: u :: r)
    have hne : ∀ (a : Seg) (l : List Seg), fuseFields (a :: l) ≠ [] := by
      intro a l
      cases l with
      | nil => simp [fuseFields]
      | cons b l =>
        rw [fuseFields]
        split
        · split
          · split <;> simp
          · simp
        · simp
    obtain ⟨u', r', e1, e2, -⟩ := addMods_head (names := names) u r
    simp only [addMods] at h1 h2 ⊢
    rw [e1] at h1 h2 ⊢
    have e3 : ∀ r : List Seg, fuseFields (s :: t :: r) = if s.kind = .count then
        match fieldOf t.kind with
        | some f =>
          if isValidFieldName f && f.length ≤ maxFieldNameLength then ⟨.field f, t.mods⟩ :: fuseFields r
          else s :: fuseFields (t :: r)
        | none => s :: fuseFields (t :: r)
      else s :: fuseFields (t :: r) := fun r => by rw [fuseFields]; cases fieldOf t.kind <;> rfl
    rw [e3 (u' :: r'), e3 (u :: r), h2, h1]
    split
    · split
      · split
        · rw [addMods_cons (hne _ _)]
        · rw [addMods_cons (hne _ _)]
      · rw [addMods_cons (hne _ _)]
    · rw [addMods_cons (hne _ _)]
termination_by ss.length

theorem cond_clean {expr p v : Bytes} {op : FilterOp} (h : CondText expr p op v) (all : Bool) : Clean (filterPart expr all) := by
  refine ⟨?_, _, parsePart_cond h all⟩
  have := h.1
  cases all <;> simp [filterPart, this]

theorem plain_clean {n : Bytes} (h : PlainName n) : Clean n := ⟨h.noBar, _, parsePart_plain n h⟩

theorem decimal_clean {ds : Bytes} {j : Nat} (h : Decimal ds j) : Clean ds := by
  refine ⟨fun hm => ?_, _, parsePart_decimal h⟩
  have := (decimal_facts h).2.1 _ hm
  revert this; decide

theorem clean2 {a b : Bytes} (ha : Clean a) (hb : Clean b) : ∀ p ∈ [a, b], Clean p := by
  intro p hp; simp at hp; rcases hp with rfl | rfl <;> assumption

/-- The parts of a spelled path carry no modifiers. -/
def Spec.Meaning.Clean : Meaning → Prop
  | .move parts _ => ∀ p ∈ parts, Verif.Clean p
  | .moves parts _ => ∀ p ∈ parts, Verif.Clean p
  | .test _ _ => True

theorem spells_clean {pf : Bytes → Option FVal} {dp : Bool} {M : Meaning} (h : Spells pf dp M) : M.Clean := by
  have k1 : Clean b!"*" := ⟨by decide, _, rfl⟩
  have k2 : Clean b!"**" := ⟨by decide, _, rfl⟩
  induction h with
  | name hn => intro p hp; simp at hp; subst hp; exact plain_clean hn
  | nth hn hd => exact clean2 (plain_clean hn) (decimal_clean hd)
  | sat hn hc ht hq => exact clean2 (plain_clean hn) (cond_clean hc _)
  | satF hc ht hq => intro p hp; simp at hp; subst hp; exact cond_clean hc _
  | satAll hn hc ht hq => exact clean2 (plain_clean hn) (cond_clean hc _)
  | satAllF hc ht hq => intro p hp; simp at hp; subst hp; exact cond_clean hc _
  | any => intro p hp; simp at hp; subst hp; exact k1
  | deep hd hn => exact clean2 (k2) (plain_clean hn)
  | deepAny hd hs => intro p hp; simp at hp; rcases hs with rfl | rfl <;> rcases hp with rfl | rfl <;> assumption
  | nil => intro p hp; simp at hp
  | cons h hs ih ihs => intro p hp; exact (List.mem_append.mp hp).elim (ih p) (ihs p)
  | attr => trivial
  | path => trivial

theorem goal_clean {gs : List Bytes} {g : Goal} (h : GoalText gs g) : ∀ p ∈ gs, Clean p := by
  have k1 : Clean b!"#" := ⟨by decide, _, rfl⟩
  have k2 : Clean b!"%" := ⟨by decide, _, rfl⟩
  cases h with
  | elem => simp
  | attr h => intro p hp; simp at hp; subst hp; exact ⟨by simp [h], _, parsePart_at h⟩
  | text => intro p hp; simp at hp; subst hp; exact k2
  | count => intro p hp; simp at hp; subst hp; exact k1
  | fieldElem h hl => exact clean2 (k1) (plain_clean (identifier_plain h))
  | @fieldAttr a h hl =>
    intro p hp; simp at hp
    rcases hp with rfl | rfl
    · exact k1
    · have := (identifier_plain h).noBar; exact ⟨by simp [this], _, parsePart_at this⟩
  | fieldText => exact clean2 (k1) (k2)

theorem withMods_cons {names : List Bytes} {p : Bytes} {ps : List Bytes} (h : ps ≠ []) : withMods names (p :: ps) = p :: withMods names ps := by
  cases ps with
  | nil => exact absurd rfl h
  | cons q ps => rfl

theorem withMods_facts (names : List Bytes) (ps : List Bytes) : (withMods names ps).length = ps.length ∧ (withMods names ps = [[]] → ps = [[]]) := by
  induction ps with
  | nil => simp [withMods]
  | cons p ps ih =>
    cases ps with
    | nil =>
      simp only [withMods, List.length_cons, List.length_nil, true_and, List.cons.injEq, and_true]
      intro h
      rw [List.append_eq_nil_iff] at h
      exact h.1
    | cons q ps =>
      rw [withMods_cons (by simp)]
      refine ⟨by simp [ih.1], fun h => ?_⟩
      have := ih.1
      simp only [List.cons.injEq] at h
      rw [h.2] at this; simp at this

theorem mods_parse (env : Env) (ho : env.ord.IsPerm) {dp : Bool} {ps gs : List Bytes} {ms : List Move} {g : Goal} (h : Spells env.parseFloat dp (.moves ps ms))
    (hg : GoalText gs g) (hne : ps ++ gs ≠ []) (hl : (ps ++ gs).length ≤ 100) {names : List Bytes} (hn : ∀ n ∈ names, ModName n) :
    ∃ Ss, All2 (MoveSegs (dp = true) True (evalFilter env)) Ss ms ∧ parsePath (pathOf (ps ++ gs)) = .ok (Ss.flatten ++ goalSegs g) ∧
      parsePath (pathOf (withMods names (ps ++ gs))) = .ok (addMods names (Ss.flatten ++ goalSegs g)) := by
  obtain ⟨Ss, e1, e2, hd, e3⟩ := spells_parsed ho True h
  obtain ⟨⟨ss, e4, e5⟩, -, e6⟩ := goal_parse hg
  have hnil : ps ++ gs ≠ [[]] := by
    intro e
    rcases e3 with ⟨rfl, -⟩ | ⟨p, ps', rfl, hp, -⟩
    · exact e6 (by simpa using e)
    · simp only [List.cons_append, List.cons.injEq] at e
      exact hp e.1
  have hpp := parseParts_append e1 e4
  have hcl : ∀ p ∈ ps ++ gs, Clean p := fun p hp => (List.mem_append.mp hp).elim (spells_clean h p) (goal_clean hg p)
  obtain ⟨m1, m2⟩ := parseParts_mods hn hpp hcl
  obtain ⟨w1, w2⟩ := withMods_facts names (ps ++ gs)
  refine ⟨Ss, e2, ?_, ?_⟩
  · rw [parsePath_parts _ hne hnil hl, hpp]; simp only; rw [fuse_moves e2, e5]
  · rw [parsePath_parts _ (fun e => hne (List.eq_nil_of_length_eq_zero (by rw [← w1, e]; rfl))) (fun e => hnil (w2 e)) (by omega), m1]
    simp only; rw [fuseFields_mods, fuse_moves e2, e5]

theorem get_parsed {env : Env} {path : Bytes} {ss : List Seg} (h : parsePath path = .ok ss) (xml : Bytes) (hx : ¬ xml.length > maxDocumentSize) :
    get env xml path = .ret (execQ env (evalFilter env) ss true xml) := by
  unfold get
  rw [if_neg hx, h]
  cases ss with
  | nil => simp only; rw [execQ]
  | cons s ss => simp only [executeQuery]

theorem get_large {env : Env} {path : Bytes} (xml : Bytes) (hx : xml.length > maxDocumentSize) : get env xml path = .ret .null := by
  unfold get; rw [if_pos hx]

theorem get_mods (env : Env) (ho : env.ord.IsPerm) {dp : Bool} {ps gs : List Bytes} {ms : List Move} {g : Goal} (h : Spells env.parseFloat dp (.moves ps ms))
    (hg : GoalText gs g) (hp : Proper ms) (hne : ps ++ gs ≠ []) (hl : (ps ++ gs).length ≤ 100) (h1 : ∀ m ∈ ms.dropLast, m.single = true) (hdeep : ∀ n, .deep n ∉ ms)
    (hfg : ¬ Forgets ms g) {names : List Bytes} (hn : ∀ n ∈ names, ModName n) (hk : NoLoss env names) (xml : Bytes) :
    ∃ r, get env xml (pathOf (ps ++ gs)) = .ret r ∧ get env xml (pathOf (withMods names (ps ++ gs))) = .ret (modOn env names r) := by
  obtain ⟨Ss, e2, p1, p2⟩ := mods_parse env ho h hg hne hl hn
  by_cases hx : xml.length > maxDocumentSize
  · exact ⟨.null, get_large _ hx, by rw [modOn_null]; exact get_large _ hx⟩
  · exact ⟨_, get_parsed p1 _ hx, by
      rw [get_parsed p2 _ hx, exec_mods hk e2 hp h1 hdeep g true (fun h => h.elim (fun h => hfg (.inl h.2)) (fun h => hfg (.inr (.inl h.2)))) xml]⟩

theorem get_forgets (env : Env) (ho : env.ord.IsPerm) {dp : Bool} {ps gs : List Bytes} {ms : List Move} {g : Goal} (h : Spells env.parseFloat dp (.moves ps ms))
    (hg : GoalText gs g) (hp : Proper ms) (hne : ps ++ gs ≠ []) (hl : (ps ++ gs).length ≤ 100) (hfg : Forgets ms g) {names : List Bytes} (hn : ∀ n ∈ names, ModName n) (xml : Bytes) :
    get env xml (pathOf (withMods names (ps ++ gs))) = get env xml (pathOf (ps ++ gs)) := by
  obtain ⟨Ss, e2, p1, p2⟩ := mods_parse env ho h hg hne hl hn
  by_cases hx : xml.length > maxDocumentSize
  · rw [get_large _ hx, get_large _ hx]
  · rw [get_parsed p1 _ hx, get_parsed p2 _ hx]
    rcases hfg with ⟨⟨n, j, rfl⟩, hf⟩ | ⟨⟨n, rfl⟩, hf⟩ | ⟨hd, hf⟩
    · cases e2 with
      | cons hS hSs =>
        cases hSs
        have := root_forgets (env := env) (names := names) hS g (.inl ⟨⟨_, _, rfl⟩, hf⟩) xml
        simpa using this
    · cases e2 with
      | cons hS hSs =>
        cases hSs
        have := root_forgets (env := env) (names := names) hS g (.inr ⟨⟨_, rfl⟩, hf⟩) xml
        simpa using this
    · rw [exec_forgets e2 hp g hf hd]

end Verif
