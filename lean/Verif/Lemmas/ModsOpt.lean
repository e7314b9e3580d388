import Verif.Lemmas.ModsMid
import Verif.Lemmas.Mods
import Verif.Lemmas.SensePath
/- Modifiers at the end of a path with options: C52. -/
namespace Verif
open Spec

/-! ### what a query with options finds -/

/-- The results are there and are not lists, and a list has no text of its own. -/
def Well (r : Result) : Prop := (∀ x ∈ r.array, Single x) ∧ (r.typ = .array → r.raw = [])

def AllSingle (l : List Result) : Prop := ∀ x ∈ l, Single x

theorem allSingle_nil : AllSingle [] := by intro x h; simp at h
theorem allSingle_one {r : Result} (h : Single r) : AllSingle [r] := by intro x hx; simp at hx; exact hx ▸ h
theorem allSingle_flat {α : Type} {l : List α} {g : α → List Result} (h : ∀ a, AllSingle (g a)) : AllSingle (l.flatMap g) := by
  intro x hx
  obtain ⟨a, -, h2⟩ := List.mem_flatMap.mp hx
  exact h a x h2
theorem allSingle_map {α : Type} {l : List α} {g : α → Result} (h : ∀ a, Single (g a)) : AllSingle (l.map g) := by
  intro x hx
  obtain ⟨a, -, h2⟩ := List.mem_map.mp hx
  exact h2 ▸ h a
theorem allSingle_take {l : List Result} (h : AllSingle l) (n : Nat) : AllSingle (l.take n) := fun x hx => h x (List.mem_of_mem_take hx)

theorem well_single {r : Result} (h : r.typ ≠ .array) : Well r := by
  have := inv_single (B := 1) h (Nat.le_refl 1)
  exact this.2
theorem well_null : Well .null := well_single (by simp [Result.null, Result.typ])
theorem well_arr {l : List Result} (h : AllSingle l) : Well (.ofArray l) := ⟨h, fun _ => rfl⟩
theorem well_content (c : Bytes) : Well (.ofContent c) := well_single (content_single c).1
theorem well_text (c : Bytes) : Well (.ofText c) := well_single (text_single c).1
theorem well_attr (c : Bytes) : Well (.ofAttr c) := well_single (attr_single c).1
theorem well_count (n : Nat) : Well (.ofCount n) := well_single (by simp)
theorem well_as {r : Result} (h : Well r) : AllSingle (asList r) := by rw [asList_eq]; exact h.1
theorem well_pack {l : List Result} (h : AllSingle l) : Well (packResults l) := by
  match l with
  | [] => exact well_arr h
  | [r] => exact well_single (h r (by simp)).1
  | a :: b :: c => exact well_arr h

theorem well_listed {l : List Result} (h : AllSingle l) : Well (if l.isEmpty then .null else packResults l) := by
  split
  · exact well_null
  · exact well_pack h

section
variable {env : Env} {ev : Filter → Elem → Bool} {cs : Bool}

theorem attrs_single (a : Bytes) (m : Elem) : AllSingle ((attrsOpt env.ord cs a m).map .ofAttr) := allSingle_map attr_single

theorem fieldValues_single (f : Bytes) (m : Elem) : AllSingle (fieldValuesOpt env.ord cs f m) := by
  unfold fieldValuesOpt
  split
  · exact allSingle_map attr_single
  · split
    · simp only
      split
      · exact allSingle_nil
      · exact allSingle_one ⟨by simp [Result.typ], by simp [Result.typ]⟩
    · exact allSingle_map fun e => content_single _

theorem well_field (ms : List Elem) (f : Bytes) : Well (fieldExtractionOpt env cs ms f []) := by
  unfold fieldExtractionOpt
  simp only [runMods_nil]
  split
  · exact well_null
  · split
    · exact well_arr allSingle_nil
    · exact well_arr (allSingle_take (allSingle_flat fun m => fieldValues_single f m) _)

theorem well_first {rest : List Seg} {k : Bytes → Result} (hk : ∀ c, Well (k c)) (ms : List Elem) : Well (firstMatchOpt env cs rest k ms) := by
  induction ms with
  | nil => exact well_null
  | cons m ms ih =>
    unfold firstMatchOpt
    repeat' split
    all_goals first | exact well_null | exact well_content _ | exact well_text _ | exact well_attr _ | exact ih | exact hk _

theorem well_array {ms : List Elem} {d : Seg} {r : List Seg} {k : Bytes → Result} (hk : ∀ c, Well (k c)) : Well (arrayOpOpt env cs ms d r k) := by
  unfold arrayOpOpt
  repeat' split
  all_goals first | exact well_null | exact well_content _ | exact well_text _ | exact well_attr _ | exact well_count _ | exact hk _

theorem well_fragment {ms : List Elem} {d : Seg} (hd : d.mods = []) {r : List Seg} {k : Bytes → Result} (hk : ∀ c, Well (k c)) : Well (fragmentRootsOpt env ms d r k) := by
  unfold fragmentRootsOpt
  rw [hd]
  repeat' split
  all_goals first | exact well_null | exact well_content _ | exact well_text _ | exact well_attr _ | exact well_count _ | exact hk _ | exact well_field _ _

theorem well_wild {ms : List Elem} {r : List Seg} (hr : ∀ s ∈ r, s.mods = []) {k : Bytes → Result} (hk : ∀ c, Well (k c)) : Well (handleWildcardOpt env cs ms r k) := by
  cases r with
  | nil => exact well_pack (allSingle_map fun m => content_single _)
  | cons d r =>
    simp only [handleWildcardOpt, hr d (by simp), runMods_nil]
    split
    · refine well_listed (allSingle_flat fun m => ?_)
      split
      · exact attrs_single _ _
      · exact allSingle_nil
    · exact well_listed (allSingle_flat fun m => allSingle_one (text_single _))
    · exact well_listed (allSingle_flat fun m => well_as (hk _))

theorem well_processFirst {m : Elem} {c : Seg} (hc : c.mods = []) {r : List Seg} (hr : ∀ s ∈ r, s.mods = []) {k : Bytes → Result} (hk : ∀ c, Well (k c)) :
    Well (processFirstOpt env cs m c r k) := by
  cases r with
  | nil => simp only [processFirstOpt, hc, runMods_nil]; exact well_content _
  | cons d r =>
    simp only [processFirstOpt, hr d (by simp), runMods_nil]
    repeat' split
    all_goals first | exact well_null | exact well_text _ | exact well_attr _ | exact well_field _ _ | exact hk _

theorem well_processAll {ms : List Elem} {c : Seg} (hc : c.mods = []) {r : List Seg} (hr : ∀ s ∈ r, s.mods = []) {k : Bytes → Result} (hk : ∀ c, Well (k c)) :
    Well (processAllOpt env cs ms c r k) := by
  cases r with
  | nil => simp only [processAllOpt, hc, runMods_nil]; exact well_arr (allSingle_map fun m => content_single _)
  | cons d r =>
    simp only [processAllOpt, hr d (by simp), runMods_nil]
    split
    · exact well_field _ _
    · split
      · exact well_null
      · refine well_pack (allSingle_flat fun m => ?_)
        split
        · exact attrs_single _ _
        · exact allSingle_one (text_single _)
        · exact well_as (hk _)

theorem well_route {ms : List Elem} {c : Seg} (hc : c.mods = []) {all : Bool} {r : List Seg} (hr : ∀ s ∈ r, s.mods = []) {k : Bytes → Result} (hk : ∀ c, Well (k c)) :
    Well (routeFilterOpt env cs ms c all r k) := by
  cases ms with
  | nil => exact well_null
  | cons m ms =>
    cases all
    · exact well_processFirst hc hr hk
    · exact well_processAll hc hr hk

theorem recLoop_single {inner : Bytes → SearchSt → SearchSt} {tgt : Elem → Bool} {emit : Elem → List Result} (hi : ∀ x st, AllSingle st.res → AllSingle (inner x st).res)
    (he : ∀ e, AllSingle (emit e)) (es : List Elem) : ∀ st : SearchSt, AllSingle st.res → AllSingle (recLoop inner tgt emit es st).res := by
  induction es with
  | nil => intro st h; exact h
  | cons e es ih =>
    intro st h
    have h1 : AllSingle (if !e.selfClosing && !e.content.isEmpty then inner e.content st else st).res := by
      split
      · exact hi _ _ h
      · exact h
    simp only [recLoop]
    generalize (if !e.selfClosing && !e.content.isEmpty then inner e.content st else st) = st1 at h1 ⊢
    split
    · exact h1
    · split
      · split
        · exact h1
        · refine ih _ ?_
          intro x hx
          rcases List.mem_append.mp hx with hx | hx
          · exact h1 x hx
          · exact he e x hx
      · exact ih _ h1

theorem recSearch_single {o : Ord} {tgt : Elem → Bool} {emit : Elem → List Result} (he : ∀ e, AllSingle (emit e)) :
    ∀ (n : Nat) (xml : Bytes) (st : SearchSt), AllSingle st.res → AllSingle (recSearch o tgt emit n xml st).res := by
  intro n
  induction n with
  | zero => intro xml st h; exact h
  | succ n ih =>
    intro xml st h
    simp only [recSearch]
    split
    · exact h
    · exact recLoop_single ih he _ _ h

theorem recEmit_single {r : List Seg} {k : Bytes → Result} (hk : ∀ c, Well (k c)) (e : Elem) : AllSingle (recEmitOpt env cs r k e) := by
  cases r with
  | nil => exact allSingle_one (content_single _)
  | cons d r =>
    simp only [recEmitOpt]
    split
    · split
      · exact attrs_single _ _
      · exact allSingle_nil
    · exact allSingle_one (text_single _)
    · exact well_as (hk _)

theorem well_recursive {r : List Seg} {k : Bytes → Result} (hk : ∀ c, Well (k c)) (xml : Bytes) : Well (handleRecursiveOpt env cs r k xml) := by
  cases r with
  | nil => exact well_null
  | cons d r =>
    have := recSearch_single (o := env.ord) (tgt := fun e => d.matchesOpt e.name cs) (recEmit_single (env := env) (cs := cs) (r := r) hk) (maxNestingDepth + 1) xml ⟨0, []⟩ allSingle_nil
    simp only [handleRecursiveOpt]
    split
    · exact well_null
    · exact well_pack this

theorem well_elem {c : Seg} {r : List Seg} (hr : ∀ s ∈ r, s.mods = []) {k1 k2 : Bytes → Result} (h1 : ∀ c, Well (k1 c)) (h2 : ∀ c, Well (k2 c)) (xml : Bytes) :
    Well (execElemOpt env ev cs c r k1 k2 xml) := by
  cases r with
  | nil => exact well_first h1 _
  | cons d r =>
    have hd := hr d (by simp)
    simp only [execElemOpt]
    split
    · rw [hd]; exact well_field _ _
    · exact well_route hd (fun s hs => hr s (by simp [hs])) h2
    · exact well_array h2
    · exact well_array h2
    · exact well_first h1 _

theorem well_body {root : Bool} {c : Seg} (hc : c.mods = []) {r : List Seg} (hr : ∀ s ∈ r, s.mods = []) {k1 k2 : Bytes → Result} (h1 : ∀ c, Well (k1 c)) (h2 : ∀ c, Well (k2 c))
    (xml : Bytes) : Well (execBodyOpt env ev cs root c r k1 k2 xml) := by
  unfold execBodyOpt
  split
  · split
    · split
      · exact well_null
      · exact well_fragment (hr _ (by simp)) h2
    · exact well_elem hr h1 h2 xml
  · exact well_route hc hr h1
  · exact well_arr allSingle_nil
  · exact well_null
  · exact well_null
  · exact well_null
  · exact well_null
  · exact well_recursive h2 xml
  · simp only
    split
    · exact well_null
    · exact well_wild hr h1

theorem execQ_well : ∀ (ss : List Seg), (∀ s ∈ ss, s.mods = []) → ∀ (root : Bool) (xml : Bytes), Well (execQOpt env ev cs ss root xml)
  | [], _, _, _ => well_null
  | [c], h, root, xml => well_body (h c (by simp)) (by simp) (fun _ => well_null) (fun _ => well_null) xml
  | c :: d :: r, h, root, xml =>
    well_body (h c (by simp)) (fun s hs => h s (List.mem_cons_of_mem _ hs)) (fun x => execQ_well (d :: r) (fun s hs => h s (List.mem_cons_of_mem _ hs)) false x)
      (fun x => execQ_well r (fun s hs => h s (List.mem_cons_of_mem _ (List.mem_cons_of_mem _ hs))) false x) xml

variable {names : List Bytes}

/-! ### modifiers on the last segment -/

/-- The modifiers on this last segment are looked at, once. -/
def Seg.hot (b : Prev) (s : Seg) : Prop :=
  match s.kind with
  | .field _ => True
  | .filter _ _ => b ≠ .list
  | .attr _ => b ≠ .plain
  | .text => b ≠ .plain
  | _ => b = .list

/-- All segments but the last lead to one element, except that the last but one may make a list. -/
def Hot : Prev → List Seg → Prop
  | _, [] => False
  | b, [s] => s.hot b
  | _, c :: d :: r => c.step ∧ c.kind ≠ .wild true ∧ (c.prev = .list → r = []) ∧ Hot c.prev (d :: r)

theorem modOn_fieldO (ms : List Elem) (f : Bytes) : modOn env names (fieldExtractionOpt env cs ms f []) = fieldExtractionOpt env cs ms f names := by
  unfold fieldExtractionOpt
  simp only [runMods_nil]
  split
  · exact modOn_null
  · split
    · exact if_pos rfl
    · rename_i h
      exact modOn_array (by simpa using h)

theorem modOn_listed {l : List Result} (h : AllSingle l) :
    modOn env names (if l.isEmpty then .null else packResults l) = if l.isEmpty then .null else applyModifiers env.mods (packResults l) names := by
  split
  · exact modOn_null
  · rename_i h2
    exact modOn_pack (by simpa using h2) h

/-- Where elements are looked up one after the other. -/
theorem firstMatch_modsO (hk : NoLoss env names) {d d' : Seg} {r r' : List Seg} {k k' : Bytes → Result} (hd : d'.kind = d.kind) (ha : ∀ a, d.kind ≠ .attr a) (ht : d.kind ≠ .text)
    (hw : ∀ c, Well (k c)) (hkk : ∀ c, k' c = modOn env names (k c)) (ms : List Elem) :
    firstMatchOpt env cs (d' :: r') k' ms = modOn env names (firstMatchOpt env cs (d :: r) k ms) := by
  induction ms with
  | nil => exact modOn_null.symm
  | cons m ms ih =>
    simp only [firstMatchOpt, hd, hkk, ih, modOn_typ hk (hw m.content)]
    cases he : d.kind <;> first | exact absurd he (ha _) | exact absurd he ht | (split <;> rfl)

theorem processFirst_modsO {m : Elem} {c d d' : Seg} {r r' : List Seg} {k k' : Bytes → Result} (hd : d'.kind = d.kind) (hdm : d.mods = [])
    (h : ((∃ a, d.kind = .attr a) ∨ d.kind = .text ∨ ∃ f, d.kind = .field f) → d'.mods = names) (hkk : d.step → ∀ c, k' c = modOn env names (k c))
    (hc : d.kind = .count → ∀ c, k' c = modOn env names (k c)) :
    processFirstOpt env cs m c (d' :: r') k' = modOn env names (processFirstOpt env cs m c (d :: r) k) := by
  simp only [processFirstOpt, hd, hdm, runMods_nil]
  cases he : d.kind with
  | attr a =>
    simp only [h (.inl ⟨a, he⟩)]
    split
    · exact (modOn_attr _).symm
    · exact modOn_null.symm
  | text => simp only [h (.inr (.inl he))]; exact (modOn_text _).symm
  | field f => simp only [h (.inr (.inr ⟨f, he⟩))]; exact (modOn_fieldO _ _).symm
  | count => exact hc he _
  | elem n => exact hkk (.inl ⟨_, he⟩) _
  | index n => exact hkk (.inr (.inl ⟨_, he⟩)) _
  | wild n => exact hkk (.inr (.inr (.inl ⟨_, he⟩))) _
  | filter f n => exact hkk (.inr (.inr (.inr ⟨_, _, he⟩))) _

theorem processAll_modsO {ms : List Elem} {c d d' : Seg} {r r' : List Seg} {k : Bytes → Result} (hd : d'.kind = d.kind) (hdm : d.mods = []) (hm : d'.mods = names) (hw : ∀ c, Well (k c)) :
    processAllOpt env cs ms c (d' :: r') k = modOn env names (processAllOpt env cs ms c (d :: r) k) := by
  simp only [processAllOpt, hd, hdm, hm, runMods_nil]
  cases he : d.kind with
  | field f => exact (modOn_fieldO _ _).symm
  | attr a => exact (modOn_listed (allSingle_flat fun m => attrs_single _ _)).symm
  | text => exact (modOn_listed (allSingle_flat fun m => allSingle_one (text_single _))).symm
  | _ => exact (modOn_listed (allSingle_flat fun m => well_as (hw _))).symm

theorem wildcard_modsO {ms : List Elem} {d d' : Seg} {k : Bytes → Result} (hd : d'.kind = d.kind) (hdm : d.mods = []) (hm : d'.mods = names) (hw : ∀ c, Well (k c)) :
    handleWildcardOpt env cs ms [d'] k = modOn env names (handleWildcardOpt env cs ms [d] k) := by
  simp only [handleWildcardOpt, hd, hdm, hm, runMods_nil]
  cases he : d.kind with
  | attr a => exact (modOn_listed (allSingle_flat fun m => attrs_single _ _)).symm
  | text => exact (modOn_listed (allSingle_flat fun m => allSingle_one (text_single _))).symm
  | _ => exact (modOn_listed (allSingle_flat fun m => well_as (hw _))).symm

/-- A filter at the end. -/
theorem route_endO {ms : List Elem} {kind : SegKind} {all : Bool} {k k' : Bytes → Result} :
    routeFilterOpt env cs ms ⟨kind, names⟩ all [] k' = modOn env names (routeFilterOpt env cs ms ⟨kind, []⟩ all [] k) := by
  cases ms with
  | nil => exact modOn_null.symm
  | cons m ms =>
    cases all
    · simp only [routeFilterOpt, Bool.false_eq_true, if_false, processFirstOpt, runMods_nil]; exact (modOn_content _).symm
    · simp only [routeFilterOpt, if_true, processAllOpt, runMods_nil]; exact (modOn_array (by simp)).symm

/-- After a list, the modifiers on a segment that is not a filter are not looked at in the elements. -/
theorem hot_unseen {s : Seg} (h : s.hot .list) : execQOpt env ev cs [⟨s.kind, names⟩] false = execQOpt env ev cs [s] false := by
  funext xml
  have key : ∀ {s : Seg}, s.lax true .plain true → execQOpt env ev cs [⟨s.kind, names⟩] false xml = execQOpt env ev cs [s] false xml := by
    intro s h
    exact (execBody_lastO (b := .plain) (c := s) (c' := ⟨s.kind, names⟩) ⟨rfl, .inr h⟩ _ _ xml).symm
  unfold Seg.hot at h
  cases he : s.kind with
  | field f => simp only [execQOpt, execBodyOpt, he]
  | filter f all => rw [he] at h; exact absurd rfl h
  | attr a => rw [← he]; exact key ⟨by simp, .inr ⟨rfl, .inr (.inr (.inr (.inr ⟨rfl, .inl ⟨a, he⟩⟩)))⟩⟩
  | text => rw [← he]; exact key ⟨by simp, .inr ⟨rfl, .inr (.inr (.inr (.inr ⟨rfl, .inr he⟩)))⟩⟩
  | elem n => rw [← he]; exact key ⟨by simp, .inr ⟨rfl, .inl ⟨n, he⟩⟩⟩
  | index i => rw [← he]; exact key ⟨by simp, .inr ⟨rfl, .inr (.inl ⟨i, he⟩)⟩⟩
  | wild w => rw [← he]; exact key ⟨by simp, .inr ⟨rfl, .inr (.inr (.inl ⟨w, he⟩))⟩⟩
  | count => rw [← he]; exact key ⟨by simp, .inr ⟨rfl, .inr (.inr (.inr (.inl he)))⟩⟩

/-- What modifiers on the last segment do to the segments from the next one on. -/
theorem addMods_next (d : Seg) (r : List Seg) : ∃ d' r', addMods names (d :: r) = d' :: r' ∧ d'.kind = d.kind ∧ ((r = [] ∧ r' = [] ∧ d' = ⟨d.kind, names⟩) ∨ (r ≠ [] ∧ d' = d ∧ r' = addMods names r)) := by
  cases r with
  | nil => exact ⟨_, _, rfl, rfl, .inl ⟨rfl, rfl, rfl⟩⟩
  | cons e r => exact ⟨_, _, rfl, rfl, .inr ⟨by simp, rfl, rfl⟩⟩

theorem hot_mid {b : Prev} {d : Seg} {r : List Seg} (h : Hot b (d :: r)) (hr : r ≠ []) : d.step ∧ d.kind ≠ .wild true ∧ (d.prev = .list → ∃ s, r = [s] ∧ s.hot .list) ∧ Hot d.prev r := by
  cases r with
  | nil => exact absurd rfl hr
  | cons e r =>
    obtain ⟨h1, h2, h3, h4⟩ := h
    refine ⟨h1, h2, fun hl => ?_, h4⟩
    obtain rfl := h3 hl
    rw [hl] at h4
    exact ⟨e, rfl, h4⟩

/-- Segments that are not moves come last. -/
theorem hot_last {b : Prev} {d : Seg} {r : List Seg} (h : Hot b (d :: r)) (hd : ¬ d.step) : r = [] ∧ d.hot b := by
  cases r with
  | nil => exact ⟨rfl, h⟩
  | cons e r => exact absurd h.1 hd

theorem not_step_field {d : Seg} {f : Bytes} (h : d.kind = .field f) : ¬ d.step := by
  rintro (⟨_, e⟩ | ⟨_, e⟩ | ⟨_, e⟩ | ⟨_, _, e⟩) <;> rw [h] at e <;> cases e
theorem not_step_attr {d : Seg} {f : Bytes} (h : d.kind = .attr f) : ¬ d.step := by
  rintro (⟨_, e⟩ | ⟨_, e⟩ | ⟨_, e⟩ | ⟨_, _, e⟩) <;> rw [h] at e <;> cases e
theorem not_step_text {d : Seg} (h : d.kind = .text) : ¬ d.step := by
  rintro (⟨_, e⟩ | ⟨_, e⟩ | ⟨_, e⟩ | ⟨_, _, e⟩) <;> rw [h] at e <;> cases e
theorem not_step_count {d : Seg} (h : d.kind = .count) : ¬ d.step := by
  rintro (⟨_, e⟩ | ⟨_, e⟩ | ⟨_, e⟩ | ⟨_, _, e⟩) <;> rw [h] at e <;> cases e

/-- A filter, with what comes after it. -/
theorem route_modsO {ms : List Elem} {c : Seg} {f : Filter} {all : Bool} (hc : c.kind = .filter f all) {d : Seg} {r : List Seg} (hh : Hot c.prev (d :: r)) (hl : c.prev = .list → r = [])
    (hn : ∀ s ∈ d :: r, s.mods = []) (ih : c.prev ≠ .list → ∀ x, execQOpt env ev cs (addMods names (d :: r)) false x = modOn env names (execQOpt env ev cs (d :: r) false x)) :
    routeFilterOpt env cs ms c all (addMods names (d :: r)) (execQOpt env ev cs (addMods names (d :: r)) false) =
      modOn env names (routeFilterOpt env cs ms c all (d :: r) (execQOpt env ev cs (d :: r) false)) := by
  cases ms with
  | nil => exact modOn_null.symm
  | cons m ms =>
    cases all with
    | true =>
      have hp : c.prev = .list := by simp only [Seg.prev, hc]
      obtain rfl := hl hp
      rw [hp] at hh
      simp only [routeFilterOpt, if_true, addMods]
      rw [hot_unseen hh]
      exact processAll_modsO rfl (hn d (by simp)) rfl (fun x => execQ_well _ (by simpa using hn) false x)
    | false =>
      have hp : c.prev = .pick := by simp only [Seg.prev, hc]
      have ih' := ih (by rw [hp]; simp)
      simp only [routeFilterOpt, Bool.false_eq_true, if_false]
      obtain ⟨d', r', e1, e2, e3⟩ := addMods_next (names := names) d r
      rw [e1] at ih' ⊢
      refine processFirst_modsO e2 (hn d (by simp)) ?_ (fun _ => ih') (fun _ => ih')
      intro hk
      have : r = [] := by
        rcases hk with ⟨a, hk⟩ | hk | ⟨g, hk⟩
        · exact (hot_last hh (not_step_attr hk)).1
        · exact (hot_last hh (not_step_text hk)).1
        · exact (hot_last hh (not_step_field hk)).1
      subst this
      rcases e3 with ⟨-, -, e3⟩ | ⟨e3, -⟩
      · rw [e3]
      · exact absurd rfl e3

/-- A position, with what comes after it. -/
theorem array_modsO {ms : List Elem} {d : Seg} {i : Int} (hd : d.kind = .index i) {r : List Seg} (hr : r ≠ []) (hh : Hot .plain r)
    (ih : ∀ x, execQOpt env ev cs (addMods names r) false x = modOn env names (execQOpt env ev cs r false x)) :
    arrayOpOpt env cs ms d (addMods names r) (execQOpt env ev cs (addMods names r) false) = modOn env names (arrayOpOpt env cs ms d r (execQOpt env ev cs r false)) ∧
    fragmentRootsOpt env ms d (addMods names r) (execQOpt env ev cs (addMods names r) false) = modOn env names (fragmentRootsOpt env ms d r (execQOpt env ev cs r false)) := by
  cases r with
  | nil => exact absurd rfl hr
  | cons s t =>
    obtain ⟨s', t', e1, e2, e3⟩ := addMods_next (names := names) s t
    rw [e1] at ih ⊢
    have hs : (∀ a, s.kind ≠ .attr a) ∧ s.kind ≠ .text := by
      constructor
      · intro a e
        have := (hot_last hh (not_step_attr e)).2
        simp only [Seg.hot, e] at this
        exact absurd rfl this
      · intro e
        have := (hot_last hh (not_step_text e)).2
        simp only [Seg.hot, e] at this
        exact absurd rfl this
    simp only [arrayOpOpt, fragmentRootsOpt, hd, e2]
    refine ⟨?_, ?_⟩ <;> split
    · exact modOn_null.symm
    · split
      · exact modOn_null.symm
      · split
        · exact modOn_null.symm
        · cases he : s.kind <;> first | exact absurd he (hs.1 _) | exact ih _
    · exact modOn_null.symm
    · split
      · exact modOn_null.symm
      · split
        · exact modOn_null.symm
        · cases he : s.kind <;> first | exact absurd he (hs.1 _) | exact absurd he hs.2 | exact ih _

/-- Modifiers that are looked at are applied to what is found without them. -/
theorem execQ_modsO (hk : NoLoss env names) : ∀ (n : Nat) {b : Prev} {S : List Seg}, S.length ≤ n → b ≠ .list → Hot b S → (∀ s ∈ S, s.mods = []) → ∀ (root : Bool) (xml : Bytes),
    execQOpt env ev cs (addMods names S) root xml = modOn env names (execQOpt env ev cs S root xml) := by
  intro n
  induction n with
  | zero =>
    intro b S hl hb hh
    obtain rfl := List.eq_nil_of_length_eq_zero (Nat.le_zero.mp hl)
    exact absurd hh (by simp [Hot])
  | succ n ih =>
    intro b S hl hb hh hn root xml
    match S, hh with
    | [s], hh =>
      have hs := hn s (by simp)
      obtain ⟨kind, md⟩ := s
      simp only at hs; subst hs
      simp only [addMods, execQOpt]
      simp only [Hot, Seg.hot] at hh
      cases kind with
      | field f => exact (if_pos rfl).symm
      | filter f all => exact route_endO
      | attr a => exact modOn_null.symm
      | text => exact modOn_null.symm
      | _ => exact absurd hh hb
    | c :: d :: r, hh =>
      obtain ⟨hc, hcw, hcl, hd⟩ := hh
      simp only [List.length_cons] at hl
      have hn' : ∀ s ∈ d :: r, s.mods = [] := fun s hs => hn s (List.mem_cons_of_mem _ hs)
      have hdm := hn' d (by simp)
      obtain ⟨d', r', e1, e2, e3⟩ := addMods_next (names := names) d r
      have ih1 : c.prev ≠ .list → ∀ x, execQOpt env ev cs (addMods names (d :: r)) false x = modOn env names (execQOpt env ev cs (d :: r) false x) :=
        fun hp x => ih (by simp only [List.length_cons]; omega) hp hd hn' false x
      rw [addMods_cons (by simp), e1, execQ_cons2O, execQ_cons2O]
      rw [e1] at ih1
      rcases hc with ⟨v, hk1⟩ | ⟨i, hk1⟩ | ⟨w, hk1⟩ | ⟨f, all, hk1⟩
      · have hp : c.prev = .plain := by simp only [Seg.prev, hk1]
        have ihp := ih1 (by rw [hp]; simp)
        rw [hp] at hd
        have he : execElemOpt env ev cs c (d' :: r') (execQOpt env ev cs (d' :: r') false) (execQOpt env ev cs r' false) xml =
              modOn env names (execElemOpt env ev cs c (d :: r) (execQOpt env ev cs (d :: r) false) (execQOpt env ev cs r false) xml) ∧
            ∀ ms, d.kind.isRootOp = true → fragmentRootsOpt env ms d' r' (execQOpt env ev cs r' false) = modOn env names (fragmentRootsOpt env ms d r (execQOpt env ev cs r false)) := by
          have hfm : (∀ a, d.kind ≠ .attr a) → d.kind ≠ .text → ∀ ms, firstMatchOpt env cs (d' :: r') (execQOpt env ev cs (d' :: r') false) ms =
              modOn env names (firstMatchOpt env cs (d :: r) (execQOpt env ev cs (d :: r) false) ms) := fun ha ht ms =>
            firstMatch_modsO hk e2 ha ht (fun x => execQ_well _ hn' false x) ihp ms
          cases hdk : d.kind with
          | elem m => simp only [execElemOpt, e2, hdk, hfm (by simp [hdk]) (by simp [hdk])]; simp [SegKind.isRootOp]
          | wild m => simp only [execElemOpt, e2, hdk, hfm (by simp [hdk]) (by simp [hdk])]; simp [SegKind.isRootOp]
          | attr a => have := (hot_last hd (not_step_attr hdk)).2; simp [Seg.hot, hdk] at this
          | text => have := (hot_last hd (not_step_text hdk)).2; simp [Seg.hot, hdk] at this
          | count => have := (hot_last hd (not_step_count hdk)).2; simp [Seg.hot, hdk] at this
          | field f =>
            obtain ⟨rfl, -⟩ := hot_last hd (not_step_field hdk)
            rcases e3 with ⟨-, rfl, rfl⟩ | ⟨e3, -⟩
            · simp only [execElemOpt, hdk, hdm, fragmentRootsOpt]
              refine ⟨(modOn_fieldO _ _).symm, fun ms _ => ?_⟩
              split
              · exact modOn_null.symm
              · exact (modOn_fieldO _ _).symm
            · exact absurd rfl e3
          | index i =>
            rcases e3 with ⟨rfl, -, -⟩ | ⟨hr, rfl, rfl⟩
            · simp [Hot, Seg.hot, hdk] at hd
            · have hm := hot_mid hd hr
              have hdp : d'.prev = .plain := by simp only [Seg.prev, hdk]
              rw [hdp] at hm
              have h2 := fun ms => array_modsO (env := env) (ev := ev) (cs := cs) (names := names) (ms := ms) hdk hr hm.2.2.2
                (fun x => ih (by omega) (by simp) hm.2.2.2 (fun s hs => hn' s (List.mem_cons_of_mem _ hs)) false x)
              simp only [execElemOpt, hdk]
              exact ⟨(h2 _).1, fun ms _ => (h2 ms).2⟩
          | filter f all =>
            simp only [SegKind.isRootOp, Bool.false_eq_true, false_implies, implies_true, and_true]
            simp only [execElemOpt, e2, hdk]
            rcases e3 with ⟨rfl, rfl, rfl⟩ | ⟨hr, rfl, rfl⟩
            · obtain ⟨kd, md⟩ := d
              simp only at hdm hdk; subst hdm; subst hdk
              exact route_endO
            · have hm := hot_mid hd hr
              cases r with
              | nil => exact absurd rfl hr
              | cons s t =>
                refine route_modsO hdk hm.2.2.2 (fun hpl => ?_) (fun s hs => hn' s (List.mem_cons_of_mem _ hs)) (fun hpl x => ?_)
                · obtain ⟨s', e, -⟩ := hm.2.2.1 hpl
                  simp at e; exact e.2
                · exact ih (by omega) hpl hm.2.2.2 (fun s hs => hn' s (List.mem_cons_of_mem _ hs)) false x
        have hfq : isFragmentQuery root (d' :: r') = isFragmentQuery root (d :: r) := by simp only [isFragmentQuery, e2]
        simp only [execBodyOpt, hk1, hfq, he.1]
        cases hx : (isFragmentQuery root (d :: r) && cs) with
        | true =>
          simp only [if_true]
          simp only [Bool.and_eq_true, isFragmentQuery] at hx
          exact he.2 _ hx.1.2
        | false => simp only [Bool.false_eq_true, if_false]
      · simp only [execBodyOpt, hk1]; exact modOn_null.symm
      · cases w with
        | true => exact absurd hk1 hcw
        | false =>
          have hp : c.prev = .list := by simp only [Seg.prev, hk1]
          obtain rfl := hcl hp
          rw [hp] at hd
          rcases e3 with ⟨-, rfl, rfl⟩ | ⟨e3, -⟩
          · simp only [execBodyOpt, hk1]
            split
            · exact modOn_null.symm
            · rw [hot_unseen hd]
              exact wildcard_modsO rfl hdm rfl (fun x => execQ_well _ hn' false x)
          · exact absurd rfl e3
      · simp only [execBodyOpt, hk1]
        rw [← e1]
        rw [← e1] at ih1
        exact route_modsO hk1 hd hcl hn' ih1

end

/-! ### from the text of the steps -/

theorem plain_mods {p : Bytes} {s : Seg} (h : IsSeg p s) (hp : c!"|" ∉ p) : s.mods = [] := by
  have := parsePart_mods hp h (names := []) (by simp)
  simp only [List.flatMap_nil, List.append_nil] at this
  unfold IsSeg at h
  rw [h] at this
  simp only [PartRes.seg.injEq] at this
  rw [this]

theorem segs_mods {names ss : List Bytes} {segs : List Seg} (h : All2 IsSeg ss segs) (hb : ∀ p ∈ ss, c!"|" ∉ p) (hn : ∀ n ∈ names, ModName n) :
    All2 IsSeg (withMods names ss) (addMods names segs) ∧ ∀ s ∈ segs, s.mods = [] := by
  induction h with
  | nil => exact ⟨.nil, by simp⟩
  | @cons p s ps ss' hp hs ih =>
    obtain ⟨i1, i2⟩ := ih (fun q hq => hb q (List.mem_cons_of_mem _ hq))
    refine ⟨?_, ?_⟩
    · cases hs with
      | nil => exact .cons (parsePart_mods (hb p (by simp)) hp hn) .nil
      | cons hq hs => exact .cons hp i1
    · intro t ht
      rcases List.mem_cons.mp ht with rfl | ht
      · exact plain_mods hp (hb p (by simp))
      · exact i2 t ht

theorem fuse_addMods {names : List Bytes} : ∀ (n : Nat) {S : List Seg}, S.length ≤ n → fuseFields (addMods names S) = addMods names (fuseFields S) := by
  intro n
  induction n with
  | zero =>
    intro S hl
    obtain rfl := List.eq_nil_of_length_eq_zero (Nat.le_zero.mp hl)
    rfl
  | succ n ih =>
    intro S hl
    match S with
    | [] => rfl
    | [s] => rfl
    | s :: t :: r =>
      simp only [List.length_cons] at hl
      obtain ⟨t', r', e1, e2, e3⟩ := addMods_next (names := names) t r
      have hrest : fuseFields (t' :: r') = addMods names (fuseFields (t :: r)) := by
        rw [← e1]; exact ih (by simp only [List.length_cons]; omega)
      have hne : fuseFields (t :: r) ≠ [] := by
        intro e
        have := fuse_isEmpty (t :: r)
        rw [e] at this; simp at this
      rw [addMods_cons (by simp), e1, fuseFields, fuseFields, e2, hrest]
      split
      · split
        · split
          · rcases e3 with ⟨rfl, rfl, rfl⟩ | ⟨hr, rfl, rfl⟩
            · rfl
            · rw [addMods_cons (fun e => hr (by have := fuse_isEmpty r; rw [e] at this; simpa using this.symm)), ih (by omega)]
          · rw [addMods_cons hne]
        · rw [addMods_cons hne]
      · rw [addMods_cons hne]

theorem hot_of {b : Prev} {ss : List Bytes} (h : AppliedEnd b ss) : ∀ {segs : List Seg}, All2 IsSeg ss segs → Hot b (fuseFields segs) := by
  induction h with
  | @last b p h =>
    intro segs hs
    cases hs with
    | @cons _ s _ _ hp hs =>
    cases hs
    have hk := isSeg_kind hp
    show Seg.hot b s
    unfold Seg.hot
    rcases h with ⟨h1, h2⟩ | ⟨h1, h2⟩ | ⟨h1, h2⟩
    · obtain ⟨f, all, e⟩ := isSeg_filter hp h1
      rw [e]; exact h2
    · rcases h1 with h1 | h1
      · obtain ⟨a, e⟩ := hk.1.mp h1
        rw [e]; exact h2
      · have hf : ¬ b!"#(" <+: p := fun hf => by
          have hb := (prefix_beforeBar (z := b!"#(") (by decide)).mp hf
          rw [h1] at hb; simp at hb
        have e := (isSeg_not_filter hp hf).2
        rw [h1] at e
        rw [show s.kind = .text from e.trans (by decide)]; exact h2
    · subst h2
      cases e : s.kind with
      | filter f all => exact absurd ((isSeg_filter_iff hp).mpr ⟨f, all, e⟩) h1
      | _ => simp
  | @fields b p h =>
    intro segs hs
    cases hs with
    | @cons _ s _ _ hp hs =>
    cases hs with
    | @cons _ t _ _ hq hs =>
    cases hs
    obtain ⟨x, hx⟩ := (joined_field hp hq).mpr ⟨rfl, h⟩
    unfold joined at hx
    rw [fuseFields]
    split at hx
    · rename_i hc
      rw [if_pos hc]
      split at hx
      · rename_i f hf
        split at hx
        · rename_i hv
          rw [hf]
          simp only [hv, if_true]
          exact trivial
        · cases hx
      · cases hx
    · cases hx
  | @move b c ss hc hw hl h ih =>
    intro segs hs
    cases hs with
    | @cons _ s _ segs hp hs =>
    have hst := isSeg_move hp hc
    have hcount : s.kind ≠ .count := fun e => not_step_count e hst
    rw [fuse_free hcount]
    have hh := ih hs
    rw [← isSeg_prev hp] at hh hl
    cases hf : fuseFields segs with
    | nil => rw [hf] at hh; exact absurd hh (by simp [Hot])
    | cons d r =>
      rw [hf] at hh
      refine ⟨hst, fun e => ?_, fun e => ?_, hh⟩
      · have := isSeg_wild hp
        rcases this.mpr ⟨_, e⟩ with h1 | h1
        · have hff : ¬ b!"#(" <+: c := fun hf => by
            have hb := (prefix_beforeBar (z := b!"#(") (by decide)).mp hf
            rw [h1] at hb; simp at hb
          have e2 := (isSeg_not_filter hp hff).2
          rw [h1] at e2
          rw [e] at e2
          exact absurd e2 (by decide)
        · exact hw h1
      · have hl' : (fuseFields segs).length ≤ 1 := by
          rcases hl e with h1 | h1
          · cases hs with
            | nil => simp at h1
            | cons hq hs =>
              simp only [List.length_cons] at h1
              cases hs with
              | nil => simp [fuseFields]
              | cons _ _ => simp at h1
          · cases h with
            | last h =>
              cases hs with
              | cons hq hs => cases hs; simp [fuseFields]
            | @fields _ q h =>
              have := hf
              cases hs with
              | @cons _ u _ _ hu hs =>
              cases hs with
              | @cons _ v _ _ hv hs =>
              cases hs
              obtain ⟨x, hx⟩ := (joined_field hu hv).mpr ⟨rfl, h⟩
              unfold joined at hx
              rw [fuseFields]
              split at hx
              · rename_i hc
                rw [if_pos hc]
                split at hx
                · rename_i f hf
                  split at hx
                  · rename_i hv
                    rw [hf]
                    simp only [hv, if_true]
                    simp [fuseFields]
                  · cases hx
                · cases hx
              · cases hx
            | move hc' _ _ _ =>
              simp only [List.head?_cons, Option.some.injEq] at h1
              subst h1
              exact absurd rfl hc'.2.2
        rw [hf] at hl'
        simp only [List.length_cons] at hl'
        exact List.eq_nil_of_length_eq_zero (by omega)

theorem addMods_low {names : List Bytes} (cs : Bool) (S : List Seg) : (addMods names S).map (lowIf cs) = addMods names (S.map (lowIf cs)) := by
  induction S with
  | nil => rfl
  | cons s r ih =>
    cases r with
    | nil =>
      obtain ⟨k, m⟩ := s
      cases cs <;> cases k <;> rfl
    | cons t r =>
      rw [addMods_cons (s := s) (r := t :: r) (by simp), List.map_cons, List.map_cons, addMods_cons (s := lowIf cs s) (r := (t :: r).map (lowIf cs)) (by simp), ih]

theorem hot_low (cs : Bool) {b : Prev} : ∀ {S : List Seg}, Hot b S → Hot b (S.map (lowIf cs)) := by
  intro S
  induction S generalizing b with
  | nil => intro h; exact absurd h (by simp [Hot])
  | cons s r ih =>
    intro h
    cases r with
    | nil =>
      obtain ⟨k, m⟩ := s
      cases cs <;> cases k <;> exact h
    | cons t r =>
      obtain ⟨h1, h2, h3, h4⟩ := h
      have h5 := ih h4
      rw [List.map_cons] at h5 ⊢
      refine ⟨?_, ?_, ?_, ?_⟩
      · obtain ⟨k, m⟩ := s
        cases cs
        · cases k <;> simp_all [lowIf, lowerSeg, Seg.step]
        · exact h1
      · obtain ⟨k, m⟩ := s
        cases cs
        · cases k <;> simp_all [lowIf, lowerSeg]
        · exact h2
      · rw [lowIf_prev]; intro e; rw [h3 e]; rfl
      · rw [lowIf_prev]; exact h5

theorem lowAll_mods (cs : Bool) {S : List Seg} (h : ∀ s ∈ S, s.mods = []) : ∀ s ∈ S.map (lowIf cs), s.mods = [] := by
  intro s hs
  obtain ⟨t, ht, rfl⟩ := List.mem_map.mp hs
  have := h t ht
  obtain ⟨k, m⟩ := t
  cases cs <;> cases k <;> exact this

theorem fuse_mods {S : List Seg} (h : ∀ s ∈ S, s.mods = []) : ∀ s ∈ fuseFields S, s.mods = [] := by
  have key : ∀ n (S : List Seg), S.length ≤ n → (∀ s ∈ S, s.mods = []) → ∀ s ∈ fuseFields S, s.mods = [] := by
    intro n
    induction n with
    | zero =>
      intro S hl h
      obtain rfl := List.eq_nil_of_length_eq_zero (Nat.le_zero.mp hl)
      simp [fuseFields]
    | succ n ih =>
      intro S hl h
      match S with
      | [] => simp [fuseFields]
      | [s] => exact h
      | s :: t :: r =>
        simp only [List.length_cons] at hl
        have h1 := ih (t :: r) (by simp only [List.length_cons]; omega) (fun x hx => h x (List.mem_cons_of_mem _ hx))
        have hfree : ∀ x ∈ s :: fuseFields (t :: r), x.mods = [] := by
          intro x hx
          rcases List.mem_cons.mp hx with rfl | hx
          · exact h _ (by simp)
          · exact h1 x hx
        rw [fuseFields]
        split
        · split
          · split
            · intro x hx
              rcases List.mem_cons.mp hx with rfl | hx
              · exact h t (by simp)
              · exact ih r (by omega) (fun y hy => h y (by simp [hy])) x hx
            · exact hfree
          · exact hfree
        · exact hfree
  exact key _ S (Nat.le_refl _) h

end Verif
