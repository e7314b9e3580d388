import Verif.Lemmas.Limit
import Verif.Spec.Shape
/- The shape of answers: an invariant of the query. -/
namespace Verif
open Spec

/-- What an answer may consist of, when of every content met `P` is known. -/
class Atoms (P : outParam (Bytes → Prop)) (A : Result → Prop) : Prop where
  elem : ∀ {c}, P c → A (.ofContent c)
  attr : ∀ v, A (.ofAttr v)
  text : ∀ {c}, P c → A (.ofText c)
  own : ∀ t, A (.mk .string t (unescapeXML t) (.fin 0) [])
  count : ∀ n, A (.ofCount n)
  single : ∀ {r}, A r → Single r

variable {P : Bytes → Prop} {A : Result → Prop} {env : Env}

theorem shape_null : Flat A .null := .inl ⟨rfl, rfl, rfl, rfl⟩
theorem shape_atom {r : Result} (h : A r) : Flat A r := .inr (.inl h)
theorem shape_array {rs : List Result} (h : ∀ x ∈ rs, A x) : Flat A (.ofArray rs) := .inr (.inr ⟨rfl, ⟨rfl, rfl, rfl⟩, h⟩)

theorem shape_list [Atoms P A] {r : Result} (h : Flat A r) : ∀ x ∈ asList r, A x := by
  rcases h with ⟨h, -⟩ | h | ⟨h, -, h2⟩
  · simp [asList, h]
  · have := Atoms.single h
    simp only [asList, if_neg this.1, if_neg this.2, List.mem_singleton]
    rintro x rfl; exact h
  · simpa [asList, h] using h2

theorem shape_pack {rs : List Result} (h : ∀ x ∈ rs, A x) : Flat A (packResults rs) := by
  match rs with
  | [] => exact shape_array h
  | [r] => exact shape_atom (h r (by simp))
  | a :: b :: c => exact shape_array h

theorem shape_ite {p : Prop} [Decidable p] {a b : Result} (ha : Flat A a) (hb : Flat A b) : Flat A (if p then a else b) := by split <;> assumption

/-- The registered modifiers keep the shape. -/
def KeepsShape (A : Result → Prop) (mods : Bytes → Option (Result → Result)) : Prop := ∀ n m, mods n = some m → ∀ r, Flat A r → Flat A (m r)

theorem shape_mods (hm : KeepsShape A env.mods) {r : Result} (h : Flat A r) (ns : List Bytes) : Flat A (applyModifiers env.mods r ns) := by
  unfold applyModifiers
  split
  · exact shape_null
  · rename_i hl
    clear hl
    induction ns generalizing r with
    | nil => exact h
    | cons n ns ih =>
      rw [runMods]
      split
      · exact shape_null
      · rename_i m hn
        have := hm n m hn r h
        split
        · exact this
        · exact ih this

/-- The modifiers of the segments keep the shape. -/
def SegsKeep (A : Result → Prop) (env : Env) (ss : List Seg) : Prop := ∀ s ∈ ss, ∀ r, Flat A r → Flat A (applyModifiers env.mods r s.mods)

theorem SegsKeep.head {s : Seg} {ss : List Seg} (h : SegsKeep A env (s :: ss)) {r : Result} (hr : Flat A r) : Flat A (applyModifiers env.mods r s.mods) := h s (by simp) r hr
theorem SegsKeep.tail {s : Seg} {ss : List Seg} (h : SegsKeep A env (s :: ss)) : SegsKeep A env ss := fun x hx => h x (by simp [hx])

theorem keeps_all (hm : KeepsShape A env.mods) (ss : List Seg) : SegsKeep A env ss := fun s _ _ hr => shape_mods hm hr s.mods

theorem keeps_none {ss : List Seg} (h : ∀ s ∈ ss, s.mods = []) : SegsKeep A env ss := by
  intro s hs r hr
  rw [h s hs]
  simpa [applyModifiers, runMods] using hr

theorem km_app {ms : List Bytes} {r : Result} (hr : Flat A r) (h : ∀ r, Flat A r → Flat A (applyModifiers env.mods r ms)) : Flat A (applyModifiers env.mods r ms) := h r hr

set_option hygiene false in
/-- Modifiers of one of the segments at hand. -/
macro "km" : tactic => `(tactic| (intro r hr; first | exact hm r hr | exact hm.head hr | exact hm.tail.head hr | exact hm.tail.tail.head hr))

/-- Contents read from `D` are in `P`, and can be read again. -/
structure Closed (o : Ord) (D P : Bytes → Prop) : Prop where
  step : ∀ x, D x → ∀ e ∈ topElems o x, P e.content
  again : ∀ x, P x → D x

variable {D : Bytes → Prop} [Atoms P A]

theorem fieldValues_shape (hc : Closed env.ord D P) (f : Bytes) {m : Elem} (h : P m.content) : ∀ x ∈ fieldValues env.ord f m, A x := by
  intro x hx
  unfold fieldValues at hx
  simp only at hx
  split at hx
  · split at hx
    · simp only [List.mem_singleton] at hx; subst hx; exact Atoms.attr _
    · simp at hx
  · split at hx
    · split at hx
      · simp at hx
      · rename_i hne
        simp only [List.mem_singleton] at hx; subst hx; exact Atoms.own _
    · obtain ⟨e, he, rfl⟩ := List.mem_map.mp hx
      exact Atoms.elem (hc.step _ (hc.again _ h) e ((List.mem_filter.mp he).1))

theorem fieldValuesOpt_shape (hc : Closed env.ord D P) (cs : Bool) (f : Bytes) {m : Elem} (h : P m.content) : ∀ x ∈ fieldValuesOpt env.ord cs f m, A x := by
  intro x hx
  unfold fieldValuesOpt at hx
  simp only at hx
  split at hx
  · obtain ⟨v, -, rfl⟩ := List.mem_map.mp hx; exact Atoms.attr _
  · split at hx
    · split at hx
      · simp at hx
      · rename_i hne
        simp only [List.mem_singleton] at hx; subst hx; exact Atoms.own _
    · obtain ⟨e, he, rfl⟩ := List.mem_map.mp hx
      exact Atoms.elem (hc.step _ (hc.again _ h) e ((List.mem_filter.mp he).1))

theorem flat_shape {ms : List Elem} {g : Elem → List Result} (h : ∀ m ∈ ms, ∀ x ∈ g m, A x) : ∀ x ∈ ms.flatMap g, A x := by
  intro x hx
  obtain ⟨m, hm, hx⟩ := List.mem_flatMap.mp hx
  exact h m hm x hx

theorem fieldExtraction_shape (hc : Closed env.ord D P) {ms : List Elem} (h : ∀ m ∈ ms, P m.content) (f : Bytes) (mods : List Bytes) (hm : ∀ r, Flat A r → Flat A (applyModifiers env.mods r mods)) :
    Flat A (fieldExtraction env ms f mods) := by
  unfold fieldExtraction
  split
  · exact shape_null
  · simp only
    split
    · exact shape_array (by simp)
    · exact km_app (shape_array fun x hx => flat_shape (fun m hm => fieldValues_shape hc f (h m hm)) x (List.mem_of_mem_take hx)) (by km)

theorem fieldExtractionOpt_shape (hc : Closed env.ord D P) (cs : Bool) {ms : List Elem} (h : ∀ m ∈ ms, P m.content) (f : Bytes)
    (mods : List Bytes) (hm : ∀ r, Flat A r → Flat A (applyModifiers env.mods r mods)) : Flat A (fieldExtractionOpt env cs ms f mods) := by
  unfold fieldExtractionOpt
  split
  · exact shape_null
  · simp only
    split
    · exact shape_array (by simp)
    · exact km_app (shape_array fun x hx => flat_shape (fun m hm => fieldValuesOpt_shape hc cs f (h m hm)) x (List.mem_of_mem_take hx)) (by km)

theorem contents_shape {ms : List Elem} (h : ∀ m ∈ ms, P m.content) : ∀ x ∈ ms.map (fun m => Result.ofContent m.content), A x := by
  intro x hx
  obtain ⟨m, hm, rfl⟩ := List.mem_map.mp hx
  exact Atoms.elem (h m hm)

theorem nil_shape : ∀ x ∈ ([] : List Result), A x := by simp
theorem one_shape {r : Result} (h : A r) : ∀ x ∈ [r], A x := by simpa using h
theorem attrs_shape {Q : Bytes → Prop} [Atoms Q A] (vs : List Bytes) : ∀ x ∈ vs.map Result.ofAttr, A x := by
  intro x hx
  obtain ⟨v, -, rfl⟩ := List.mem_map.mp hx
  exact Atoms.attr v

theorem handleWildcard_shape {ms : List Elem} (h : ∀ m ∈ ms, P m.content) (rest : List Seg) {k : Bytes → Result}
    (hk : ∀ c, P c → Flat A (k c)) (hm : SegsKeep A env rest) : Flat A (handleWildcard env ms rest k) := by
  cases rest with
  | nil => exact shape_pack (contents_shape h)
  | cons nxt rest2 =>
    simp only [handleWildcard]
    refine shape_ite (shape_ite (shape_array (by simp)) shape_null) ?_
    · refine km_app (shape_pack (flat_shape fun m hmm => ?_)) (by km)
      split
      · split
        · split
          · exact one_shape (Atoms.attr _)
          · exact nil_shape
        · exact nil_shape
      · exact one_shape (Atoms.text (h m hmm))
      · exact shape_list (hk _ (h m hmm))

theorem handleWildcardOpt_shape (cs : Bool) {ms : List Elem} (h : ∀ m ∈ ms, P m.content) (rest : List Seg) {k : Bytes → Result}
    (hk : ∀ c, P c → Flat A (k c)) (hm : SegsKeep A env rest) : Flat A (handleWildcardOpt env cs ms rest k) := by
  cases rest with
  | nil => exact shape_pack (contents_shape h)
  | cons nxt rest2 =>
    simp only [handleWildcardOpt]
    refine shape_ite shape_null ?_
    · refine km_app (shape_pack (flat_shape fun m hmm => ?_)) (by km)
      split
      · split
        · exact attrs_shape _
        · exact nil_shape
      · exact one_shape (Atoms.text (h m hmm))
      · exact shape_list (hk _ (h m hmm))

theorem recEmit_shape (hc : Closed env.ord D P) (rest : List Seg) {k : Bytes → Result} (hk : ∀ c, P c → Flat A (k c)) {e : Elem} (h : P e.content) (hm : SegsKeep A env rest) :
    ∀ x ∈ recEmit env rest k e, A x := by
  cases rest with
  | nil => exact one_shape (Atoms.elem h)
  | cons nxt rest2 =>
    simp only [recEmit]
    split
    · split
      · split
        · exact one_shape (Atoms.attr _)
        · exact nil_shape
      · exact nil_shape
    · exact one_shape (Atoms.text h)
    · rename_i f _
      have := fieldExtraction_shape hc (ms := [e]) (by simpa using h) f nxt.mods (by km)
      split
      · rename_i ht
        have h2 := shape_list this
        rw [asList, if_neg (by rw [ht]; simp), if_pos ht] at h2
        exact h2
      · exact nil_shape
    · exact shape_list (hk _ h)

theorem recEmitOpt_shape (cs : Bool) (rest : List Seg) {k : Bytes → Result} (hk : ∀ c, P c → Flat A (k c)) {e : Elem} (h : P e.content) :
    ∀ x ∈ recEmitOpt env cs rest k e, A x := by
  cases rest with
  | nil => exact one_shape (Atoms.elem h)
  | cons nxt rest2 =>
    simp only [recEmitOpt]
    split
    · split
      · exact attrs_shape _
      · exact nil_shape
    · exact one_shape (Atoms.text h)
    · exact shape_list (hk _ h)

omit [Atoms P A] in
theorem recLoop_shape {inner : Bytes → SearchSt → SearchSt} {tgt : Elem → Bool} {emit : Elem → List Result}
    (hin : ∀ c, P c → ∀ st, (∀ x ∈ st.res, A x) → ∀ x ∈ (inner c st).res, A x) (hem : ∀ e, P e.content → ∀ x ∈ emit e, A x)
    {es : List Elem} (h : ∀ e ∈ es, P e.content) {st : SearchSt} (hs : ∀ x ∈ st.res, A x) : ∀ x ∈ (recLoop inner tgt emit es st).res, A x := by
  induction es generalizing st with
  | nil => exact hs
  | cons e es ih =>
    have he := h e (by simp)
    have ih := fun (st : SearchSt) hs => ih (fun e h' => h e (by simp [h'])) (st := st) hs
    simp only [recLoop]
    have h1 : ∀ x ∈ (if (!e.selfClosing && !e.content.isEmpty) = true then inner e.content st else st).res, A x := by
      split
      · exact hin _ he _ hs
      · exact hs
    generalize (if (!e.selfClosing && !e.content.isEmpty) = true then inner e.content st else st) = st1 at h1
    split
    · exact h1
    · split
      · split
        · exact h1
        · refine ih _ ?_
          intro x hx
          rcases List.mem_append.mp hx with hx | hx
          · exact h1 x hx
          · exact hem e he x hx
      · exact ih _ h1

omit [Atoms P A] in
theorem recSearch_shape (hc : Closed env.ord D P) {tgt : Elem → Bool} {emit : Elem → List Result} (hem : ∀ e, P e.content → ∀ x ∈ emit e, A x) (n : Nat)
    {c : Bytes} (h : D c) {st : SearchSt} (hs : ∀ x ∈ st.res, A x) : ∀ x ∈ (recSearch env.ord tgt emit n c st).res, A x := by
  induction n generalizing c st with
  | zero => exact hs
  | succ n ih =>
    rw [recSearch]
    split
    · exact hs
    · exact recLoop_shape (fun c hp st hs => ih (hc.again c hp) hs) hem (hc.step c h) hs

theorem handleRecursive_shape (hc : Closed env.ord D P) (rest : List Seg) {k : Bytes → Result} (hk : ∀ c, P c → Flat A (k c)) {c : Bytes}
    (h : D c) (hm : SegsKeep A env rest) : Flat A (handleRecursive env rest k c) := by
  cases rest with
  | nil => exact shape_null
  | cons tgt rest2 =>
    simp only [handleRecursive]
    split
    · exact shape_null
    · exact shape_pack (recSearch_shape hc (fun e he => recEmit_shape hc rest2 hk he hm.tail) _ h (by simp))

theorem handleRecursiveOpt_shape (hc : Closed env.ord D P) (cs : Bool) (rest : List Seg) {k : Bytes → Result} (hk : ∀ c, P c → Flat A (k c)) {c : Bytes}
    (h : D c) : Flat A (handleRecursiveOpt env cs rest k c) := by
  cases rest with
  | nil => exact shape_null
  | cons tgt rest2 =>
    simp only [handleRecursiveOpt]
    split
    · exact shape_null
    · exact shape_pack (recSearch_shape hc (fun e he => recEmitOpt_shape cs rest2 hk he) _ h (by simp))

theorem processFirst_shape (hc : Closed env.ord D P) {m : Elem} (h : P m.content) (seg : Seg) (rest : List Seg) {k : Bytes → Result}
    (hk : ∀ c, P c → Flat A (k c)) (hm : SegsKeep A env (seg :: rest)) : Flat A (processFirst env m seg rest k) := by
  cases rest with
  | nil => exact km_app (shape_atom (Atoms.elem h)) (by km)
  | cons nxt rest2 =>
    simp only [processFirst]
    split
    · split
      · exact km_app (shape_atom (Atoms.attr _)) (by km)
      · exact shape_null
    · exact km_app (shape_atom (Atoms.text h)) (by km)
    · exact fieldExtraction_shape hc (by simpa using h) _ _ (by km)
    · exact hk _ h

theorem processFirstOpt_shape (hc : Closed env.ord D P) (cs : Bool) {m : Elem} (h : P m.content) (seg : Seg) (rest : List Seg) {k : Bytes → Result}
    (hk : ∀ c, P c → Flat A (k c)) (hm : SegsKeep A env (seg :: rest)) : Flat A (processFirstOpt env cs m seg rest k) := by
  cases rest with
  | nil => exact km_app (shape_atom (Atoms.elem h)) (by km)
  | cons nxt rest2 =>
    simp only [processFirstOpt]
    split
    · split
      · exact km_app (shape_atom (Atoms.attr _)) (by km)
      · exact shape_null
    · exact km_app (shape_atom (Atoms.text h)) (by km)
    · exact fieldExtractionOpt_shape hc cs (by simpa using h) _ _ (by km)
    · exact hk _ h

theorem processAll_shape (hc : Closed env.ord D P) {ms : List Elem} (h : ∀ m ∈ ms, P m.content) (seg : Seg) (rest : List Seg) {k : Bytes → Result}
    (hk : ∀ c, P c → Flat A (k c)) (hm : SegsKeep A env (seg :: rest)) : Flat A (processAll env ms seg rest k) := by
  cases rest with
  | nil => exact km_app (shape_array (contents_shape h)) (by km)
  | cons nxt rest2 =>
    simp only [processAll]
    split
    · exact fieldExtraction_shape hc h _ _ (by km)
    · refine shape_ite shape_null ?_
      · refine km_app (shape_pack (flat_shape fun m hmm => ?_)) (by km)
        split
        · split
          · exact one_shape (Atoms.attr _)
          · exact nil_shape
        · exact one_shape (Atoms.text (h m hmm))
        · exact shape_list (hk _ (h m hmm))

theorem processAllOpt_shape (hc : Closed env.ord D P) (cs : Bool) {ms : List Elem} (h : ∀ m ∈ ms, P m.content) (seg : Seg) (rest : List Seg)
    {k : Bytes → Result} (hk : ∀ c, P c → Flat A (k c)) (hm : SegsKeep A env (seg :: rest)) : Flat A (processAllOpt env cs ms seg rest k) := by
  cases rest with
  | nil => exact km_app (shape_array (contents_shape h)) (by km)
  | cons nxt rest2 =>
    simp only [processAllOpt]
    split
    · exact fieldExtractionOpt_shape hc cs h _ _ (by km)
    · refine shape_ite shape_null ?_
      · refine km_app (shape_pack (flat_shape fun m hmm => ?_)) (by km)
        split
        · exact attrs_shape _
        · exact one_shape (Atoms.text (h m hmm))
        · exact shape_list (hk _ (h m hmm))

theorem routeFilter_shape (hc : Closed env.ord D P) {ms : List Elem} (h : ∀ m ∈ ms, P m.content) (seg : Seg) (all : Bool) (rest : List Seg)
    {k : Bytes → Result} (hk : ∀ c, P c → Flat A (k c)) (hm : SegsKeep A env (seg :: rest)) : Flat A (routeFilter env ms seg all rest k) := by
  unfold routeFilter
  split
  · exact shape_null
  · split
    · exact processAll_shape hc h _ _ hk hm
    · exact processFirst_shape hc (h _ (by simp)) _ _ hk hm

theorem routeFilterOpt_shape (hc : Closed env.ord D P) (cs : Bool) {ms : List Elem} (h : ∀ m ∈ ms, P m.content) (seg : Seg) (all : Bool)
    (rest : List Seg) {k : Bytes → Result} (hk : ∀ c, P c → Flat A (k c)) (hm : SegsKeep A env (seg :: rest)) : Flat A (routeFilterOpt env cs ms seg all rest k) := by
  unfold routeFilterOpt
  split
  · exact shape_null
  · split
    · exact processAllOpt_shape hc cs h _ _ hk hm
    · exact processFirstOpt_shape hc cs (h _ (by simp)) _ _ hk hm

theorem fragmentRoots_shape (hc : Closed env.ord D P) {ms : List Elem} (h : ∀ m ∈ ms, P m.content) (nxt : Seg) (rest2 : List Seg)
    {k : Bytes → Result} (hk : ∀ c, P c → Flat A (k c)) (hm : SegsKeep A env (nxt :: rest2)) : Flat A (fragmentRoots env ms nxt rest2 k) := by
  unfold fragmentRoots
  split
  · exact shape_null
  · split
    · exact fieldExtraction_shape hc h _ _ (by km)
    · split
      · exact shape_null
      · split
        · exact shape_null
        · rename_i m hmm
          have hp := h m (List.mem_of_getElem? hmm)
          repeat' split
          all_goals first | exact shape_null | exact shape_atom (Atoms.elem hp) | exact shape_atom (Atoms.attr _) | exact shape_atom (Atoms.text hp) | exact hk _ hp
    · exact shape_atom (Atoms.count _)
    · exact shape_null

theorem fragmentRootsOpt_shape (hc : Closed env.ord D P) {ms : List Elem} (h : ∀ m ∈ ms, P m.content) (nxt : Seg) (rest2 : List Seg)
    {k : Bytes → Result} (hk : ∀ c, P c → Flat A (k c)) (hm : SegsKeep A env (nxt :: rest2)) : Flat A (fragmentRootsOpt env ms nxt rest2 k) := by
  unfold fragmentRootsOpt
  split
  · exact shape_null
  · split
    · exact fieldExtractionOpt_shape hc _ h _ _ (by km)
    · split
      · exact shape_null
      · split
        · exact shape_null
        · rename_i m hmm
          have hp := h m (List.mem_of_getElem? hmm)
          repeat' split
          all_goals first | exact shape_null | exact shape_atom (Atoms.elem hp) | exact shape_atom (Atoms.attr _) | exact shape_atom (Atoms.text hp) | exact hk _ hp
    · exact shape_atom (Atoms.count _)
    · exact shape_null

theorem arrayOp_shape {ms : List Elem} (h : ∀ m ∈ ms, P m.content) (nxt : Seg) (rest2 : List Seg)
    {k : Bytes → Result} (hk : ∀ c, P c → Flat A (k c)) (hm : SegsKeep A env (nxt :: rest2)) : Flat A (arrayOp env ms nxt rest2 k) := by
  unfold arrayOp
  split
  · exact shape_null
  · split
    · split
      · exact shape_null
      · split
        · exact shape_null
        · rename_i m hmm
          have hp := h m (List.mem_of_getElem? hmm)
          repeat' split
          all_goals first | exact shape_null | exact km_app (shape_atom (Atoms.elem hp)) (by km) | exact km_app (shape_atom (Atoms.attr _)) (by km) | exact shape_atom (Atoms.attr _) | exact hk _ hp
    · exact km_app (shape_atom (Atoms.count _)) (by km)
    · exact shape_null

theorem arrayOpOpt_shape (cs : Bool) {ms : List Elem} (h : ∀ m ∈ ms, P m.content) (nxt : Seg) (rest2 : List Seg)
    {k : Bytes → Result} (hk : ∀ c, P c → Flat A (k c)) : Flat A (arrayOpOpt env cs ms nxt rest2 k) := by
  unfold arrayOpOpt
  split
  · exact shape_null
  · split
    · split
      · exact shape_null
      · split
        · exact shape_null
        · rename_i m hmm
          have hp := h m (List.mem_of_getElem? hmm)
          repeat' split
          all_goals first | exact shape_null | exact shape_atom (Atoms.elem hp) | exact shape_atom (Atoms.attr _) | exact hk _ hp
    · exact shape_atom (Atoms.count _)
    · exact shape_null

theorem firstMatch_shape (cur : Seg) (rest : List Seg) {k : Bytes → Result} (hk : ∀ c, P c → Flat A (k c)) {ms : List Elem}
    (h : ∀ m ∈ ms, P m.content) (hm : SegsKeep A env (cur :: rest)) : Flat A (firstMatch env cur rest k ms) := by
  induction ms with
  | nil => exact shape_null
  | cons m ms ih =>
    have hp := h m (by simp)
    have ih := ih (fun m h' => h m (by simp [h']))
    unfold firstMatch
    repeat' split
    all_goals (first | exact shape_null | exact km_app (shape_atom (Atoms.elem hp)) (by km) | exact km_app (shape_atom (Atoms.attr _)) (by km) | exact km_app (shape_atom (Atoms.text hp)) (by km) | exact ih | exact hk _ hp)

theorem firstMatchOpt_shape (cs : Bool) (rest : List Seg) {k : Bytes → Result} (hk : ∀ c, P c → Flat A (k c)) {ms : List Elem}
    (h : ∀ m ∈ ms, P m.content) : Flat A (firstMatchOpt env cs rest k ms) := by
  induction ms with
  | nil => exact shape_null
  | cons m ms ih =>
    have hp := h m (by simp)
    have ih := ih (fun m h' => h m (by simp [h']))
    unfold firstMatchOpt
    repeat' split
    all_goals (first | exact shape_null | exact shape_atom (Atoms.elem hp) | exact shape_atom (Atoms.attr _) | exact shape_atom (Atoms.text hp) | exact ih | exact hk _ hp)

theorem execBody_shape (hc : Closed env.ord D P) (ev : Filter → Elem → Bool) (root : Bool) (cur : Seg) (rest : List Seg) {k1 k2 : Bytes → Result}
    (h1 : ∀ c, P c → Flat A (k1 c)) (h2 : ∀ c, P c → Flat A (k2 c)) {c : Bytes} (h : D c) (hm : SegsKeep A env (cur :: rest)) : Flat A (execBody env ev root cur rest k1 k2 c) := by
  have ht := hc.step c h
  have hf : ∀ p : Elem → Bool, ∀ e ∈ (topElems env.ord c).filter p, P e.content := fun p e he => ht e ((List.mem_filter.mp he).1)
  have hft : ∀ p : Elem → Bool, ∀ e ∈ ((topElems env.ord c).filter p).take maxWildcardResults, P e.content := fun p e he => hf p e (List.mem_of_mem_take he)
  unfold execBody
  split
  · split
    · split
      · exact shape_null
      · exact fragmentRoots_shape hc (hft _) _ _ h2 hm.tail
    · unfold execElem
      simp only
      split
      · exact firstMatch_shape _ _ h1 (hf _) hm
      · split
        · exact fieldExtraction_shape hc (hft _) _ _ (by km)
        · exact routeFilter_shape hc (fun e he => hft _ e ((List.mem_filter.mp he).1)) _ _ _ h2 hm.tail
        · exact arrayOp_shape (hft _) _ _ h2 hm.tail
        · exact arrayOp_shape (hft _) _ _ h2 hm.tail
        · exact firstMatch_shape _ _ h1 (hf _) hm
  · exact routeFilter_shape hc (hft _) _ _ _ h1 hm
  · exact shape_array (by simp)
  · exact shape_null
  · exact shape_null
  · exact shape_null
  · exact shape_null
  · exact handleRecursive_shape hc _ h2 h hm.tail
  · simp only
    have hw := handleWildcard_shape (env := env) (ms := (topElems env.ord c).take maxWildcardResults) (fun e he => ht e (List.mem_of_mem_take he)) rest h1 hm.tail
    split
    · exact shape_null
    · split
      · exact km_app hw (by km)
      · exact hw

theorem execBodyOpt_shape (hc : Closed env.ord D P) (ev : Filter → Elem → Bool) (cs root : Bool) (cur : Seg) (rest : List Seg)
    {k1 k2 : Bytes → Result} (h1 : ∀ c, P c → Flat A (k1 c)) (h2 : ∀ c, P c → Flat A (k2 c)) {c : Bytes} (h : D c) (hm : SegsKeep A env (cur :: rest)) :
    Flat A (execBodyOpt env ev cs root cur rest k1 k2 c) := by
  have ht := hc.step c h
  have hf : ∀ p : Elem → Bool, ∀ e ∈ (topElems env.ord c).filter p, P e.content := fun p e he => ht e ((List.mem_filter.mp he).1)
  have hft : ∀ p : Elem → Bool, ∀ e ∈ ((topElems env.ord c).filter p).take maxWildcardResults, P e.content := fun p e he => hf p e (List.mem_of_mem_take he)
  unfold execBodyOpt
  split
  · split
    · split
      · exact shape_null
      · exact fragmentRootsOpt_shape hc (hft _) _ _ h2 hm.tail
    · unfold execElemOpt
      simp only
      split
      · exact firstMatchOpt_shape _ _ h1 (hf _)
      · split
        · exact fieldExtractionOpt_shape hc _ (hft _) _ _ (by km)
        · exact routeFilterOpt_shape hc _ (fun e he => hft _ e ((List.mem_filter.mp he).1)) _ _ _ h2 hm.tail
        · exact arrayOpOpt_shape _ (hft _) _ _ h2
        · exact arrayOpOpt_shape _ (hft _) _ _ h2
        · exact firstMatchOpt_shape _ _ h1 (hf _)
  · exact routeFilterOpt_shape hc _ (hft _) _ _ _ h1 hm
  · exact shape_array (by simp)
  · exact shape_null
  · exact shape_null
  · exact shape_null
  · exact shape_null
  · exact handleRecursiveOpt_shape hc _ _ h2 h
  · simp only
    split
    · exact shape_null
    · exact handleWildcardOpt_shape _ (fun e he => ht e (List.mem_of_mem_take he)) rest h1 hm.tail

theorem execQ_shape (hc : Closed env.ord D P) (ev : Filter → Elem → Bool) (ss : List Seg) (root : Bool) {c : Bytes} (h : D c) (hm : SegsKeep A env ss) :
    Flat A (execQ env ev ss root c) := by
  match ss with
  | [] => exact shape_null
  | [s] => exact execBody_shape hc ev root s [] (fun _ _ => shape_null) (fun _ _ => shape_null) h hm
  | s :: t :: r =>
    exact execBody_shape hc ev root s (t :: r) (fun c hp => execQ_shape hc ev (t :: r) false (hc.again c hp) hm.tail)
      (fun c hp => execQ_shape hc ev r false (hc.again c hp) hm.tail.tail) h hm

theorem execQOpt_shape (hc : Closed env.ord D P) (ev : Filter → Elem → Bool) (cs : Bool) (ss : List Seg) (root : Bool) {c : Bytes} (h : D c) (hm : SegsKeep A env ss) :
    Flat A (execQOpt env ev cs ss root c) := by
  match ss with
  | [] => exact shape_null
  | [s] => exact execBodyOpt_shape hc ev cs root s [] (fun _ _ => shape_null) (fun _ _ => shape_null) h hm
  | s :: t :: r =>
    exact execBodyOpt_shape hc ev cs root s (t :: r) (fun c hp => execQOpt_shape hc ev cs (t :: r) false (hc.again c hp) hm.tail)
      (fun c hp => execQOpt_shape hc ev cs r false (hc.again c hp) hm.tail.tail) h hm

theorem get_shape (hc : Closed env.ord D P) {xml : Bytes} (h : xml.length ≤ maxDocumentSize → D xml) (path : Bytes)
    (hm : ∀ ss, parsePath path = .ok ss → SegsKeep A env ss) {r : Result} (hr : get env xml path = .ret r) : Flat A r := by
  unfold get at hr
  split at hr
  · simp only [Outcome.ret.injEq] at hr; subst hr; exact shape_null
  · rename_i hlen
    split at hr
    · simp at hr
    · simp only [Outcome.ret.injEq] at hr; subst hr; exact shape_null
    · simp only [Outcome.ret.injEq] at hr; subst hr; exact shape_null
    · rename_i hss
      simp only [Outcome.ret.injEq] at hr; subst hr; exact execQ_shape hc _ _ _ (h (by omega)) (hm _ hss)

theorem getWithOptions_shape (hc : Closed env.ord D P) {xml : Bytes} (h : xml.length ≤ maxDocumentSize → D xml) (path : Bytes)
    (opts : Option Options) (hm : ∀ ss, parsePath path = .ok ss ∨ parsePathWithOptions path (opts.getD defaultOptions).caseSensitive = .ok ss → SegsKeep A env ss)
    {r : Result} (hr : getWithOptions env xml path opts = .ret r) : Flat A r := by
  unfold getWithOptions at hr
  split at hr
  · simp only [Outcome.ret.injEq] at hr; subst hr; exact shape_null
  · rename_i hlen
    have hD := h (by omega)
    split at hr
    · split at hr
      · simp at hr
      · simp only [Outcome.ret.injEq] at hr; subst hr; exact shape_null
      · simp only [Outcome.ret.injEq] at hr; subst hr; exact shape_null
      · rename_i hss
        simp only [Outcome.ret.injEq] at hr; subst hr; exact execQ_shape hc _ _ _ hD (hm _ (.inl hss))
    · simp only at hr
      split at hr
      · simp at hr
      · simp only [Outcome.ret.injEq] at hr; subst hr; exact shape_null
      · simp only [Outcome.ret.injEq] at hr; subst hr; exact shape_null
      · rename_i hss
        simp only [Outcome.ret.injEq] at hr; subst hr; exact execQOpt_shape hc _ _ _ _ hD (hm _ (.inr hss))

end Verif
