import Verif.Lemmas.Size
import Verif.Lemmas.ShapeDoc
import Verif.Spec.Size
/- How large answers are. -/
namespace Verif
open Spec

/-- A single result of at most `B` bytes. -/
def Sized (B : Nat) (x : Result) : Prop := Single x ∧ x.raw.length ≤ B ∧ x.str.length ≤ B

theorem Sized.mono {B C : Nat} {x : Result} (h : Sized B x) (hb : B ≤ C) : Sized C x := ⟨h.1, Nat.le_trans h.2.1 hb, Nat.le_trans h.2.2 hb⟩

/-- All results of an answer are. -/
def Arr (B : Nat) (r : Result) : Prop := ∀ x ∈ r.array, Sized B x

theorem Arr.mono {B C : Nat} {r : Result} (h : Arr B r) (hb : B ≤ C) : Arr C r := fun x hx => (h x hx).mono hb

theorem stripTags_len (b : Bool) (x : Bytes) : (stripTags b x).length ≤ x.length := by
  induction x generalizing b with
  | nil => simp [stripTags]
  | cons c cs ih =>
    have h1 := ih true; have h2 := ih false; have h3 := ih b
    simp only [stripTags]
    repeat' split
    all_goals simp only [List.length_cons]; omega

theorem directText_len (p : Option UInt8) (b : Bool) (d : Int) (x : Bytes) : (directText p b d x).length ≤ x.length := by
  induction x generalizing p b d with
  | nil => simp [directText]
  | cons c cs ih =>
    rw [directText.eq_def]
    simp only
    split
    · exact Nat.le_trans (ih _ _ _) (by simp)
    · split
      · exact Nat.le_trans (ih _ _ _) (by simp)
      · split
        · have := ih (some c) b d; simp only [List.length_cons]; omega
        · exact Nat.le_trans (ih _ _ _) (by simp)

theorem text_len (c : Bytes) : (unescapeXML (extractTextContent c)).length ≤ c.length := by
  have h1 := unescape_len (extractTextContent c)
  have h2 := trimSpace_le (stripTags false c)
  have h3 := stripTags_len false c
  unfold extractTextContent at *
  omega

theorem own_len (c : Bytes) : (extractDirectTextOnly c).length ≤ c.length := by
  have h2 := trimSpace_le (directText none false 0 c)
  have h3 := directText_len none false 0 c
  unfold extractDirectTextOnly at *
  omega

theorem content_sized {B : Nat} {c : Bytes} (h : wt c ≤ B) : Sized B (.ofContent c) := by
  have := text_len c
  have := le_wt c
  refine ⟨content_single c, ?_, ?_⟩ <;> simp only [Result.ofContent, Result.raw, Result.str] <;> omega

theorem text_sized {B : Nat} {c : Bytes} (h : wt c ≤ B) : Sized B (.ofText c) := by
  have h1 := own_len c
  have h2 := unescape_len (extractDirectTextOnly c)
  have := le_wt c
  refine ⟨text_single c, ?_, ?_⟩ <;> simp only [Result.ofText, Result.raw, Result.str] <;> omega

theorem attr_sized {B : Nat} {v : Bytes} (h : v.length ≤ B) : Sized B (.ofAttr v) := ⟨attr_single v, h, h⟩

theorem own_sized {B : Nat} {c : Bytes} (h : wt c ≤ B) : Sized B (.mk .string (extractDirectTextOnly c) (unescapeXML (extractDirectTextOnly c)) (.fin 0) []) := by
  have h1 := own_len c
  have h2 := unescape_len (extractDirectTextOnly c)
  have := le_wt c
  refine ⟨by simp [Single, Result.typ], ?_, ?_⟩ <;> simp only [Result.raw, Result.str] <;> omega

theorem natDec_len {n : Nat} (h : n ≤ 1000) : (natDec n).length ≤ 4 := by
  have key : ∀ m < 10, (natDec m).length = 1 := by decide +kernel
  have k1 : ∀ m < 100, (natDec m).length ≤ 2 := by
    intro m hm
    rw [natDec]; split
    · simp
    · have := key (m / 10) (by omega); rw [List.length_append, this]; simp
  have k2 : ∀ m < 1000, (natDec m).length ≤ 3 := by
    intro m hm
    rw [natDec]; split
    · simp
    · have := k1 (m / 10) (by omega); rw [List.length_append]; simp; omega
  rw [natDec]; split
  · simp
  · have := k2 (n / 10) (by omega); rw [List.length_append]; simp; omega

theorem count_sized {B n : Nat} (h : n ≤ 1000) (hb : 4 ≤ B) : Sized B (.ofCount n) := by
  have := natDec_len h
  refine ⟨⟨by simp [Result.ofCount, Result.typ], by simp [Result.ofCount, Result.typ]⟩, ?_, ?_⟩ <;> simp only [Result.ofCount, Result.raw, Result.str, List.length_nil] <;> omega

theorem arr_null {B : Nat} : Arr B .null := by simp [Arr, Result.array, Result.null, Result.typ]
theorem arr_one {B : Nat} {r : Result} (h : Sized B r) : Arr B r := by
  intro x hx
  simp only [Result.array, if_neg h.1.1, if_neg h.1.2, List.mem_singleton] at hx
  subst hx; exact h
theorem arr_list {B : Nat} {l : List Result} (h : ∀ x ∈ l, Sized B x) : Arr B (.ofArray l) := h
theorem arr_pack {B : Nat} {l : List Result} (h : ∀ x ∈ l, Sized B x) : Arr B (packResults l) := by
  match l with
  | [] => exact arr_list h
  | [r] => exact arr_one (h r (by simp))
  | a :: b :: c => exact arr_list h
theorem arr_as {B : Nat} {r : Result} (h : Arr B r) : ∀ x ∈ asList r, Sized B x := by rw [asList_eq]; exact h
theorem arr_ite {B : Nat} {c : Prop} [Decidable c] {a b : Result} (ha : Arr B a) (hb : Arr B b) : Arr B (if c then a else b) := by split <;> assumption

theorem sized_nil {B : Nat} : ∀ x ∈ ([] : List Result), Sized B x := by simp
theorem sized_one {B : Nat} {r : Result} (h : Sized B r) : ∀ x ∈ [r], Sized B x := by simpa using h
theorem sized_flat {B : Nat} {ms : List Elem} {g : Elem → List Result} (h : ∀ m ∈ ms, ∀ x ∈ g m, Sized B x) : ∀ x ∈ ms.flatMap g, Sized B x := by
  intro x hx
  obtain ⟨m, hm, hx⟩ := List.mem_flatMap.mp hx
  exact h m hm x hx

/-- What is known of an element: its content and attributes are small. -/
def Small (B : Nat) (m : Elem) : Prop := wt m.content ≤ B ∧ ∀ p ∈ m.attrs, p.2.length ≤ B

theorem get?_mem {k v : Bytes} {as : Attrs} (h : Attrs.get? k as = some v) : (k, v) ∈ as := by
  induction as with
  | nil => simp [Attrs.get?] at h
  | cons p as ih =>
    obtain ⟨k', v'⟩ := p
    simp only [Attrs.get?] at h
    split at h
    · rename_i hk; simp only [Option.some.injEq] at h; subst h; subst hk; simp
    · exact List.mem_cons_of_mem _ (ih h)

theorem Small.attr {B : Nat} {m : Elem} (h : Small B m) {k v : Bytes} (hv : Attrs.get? k m.attrs = some v) : Sized B (.ofAttr v) := attr_sized (h.2 _ (get?_mem hv))

theorem Small.attrs {B : Nat} {m : Elem} (h : Small B m) {o : Ord} (ho : o.IsPerm) {cs : Bool} {k v : Bytes} (hv : v ∈ attrsOpt o cs k m) : Sized B (.ofAttr v) := by
  unfold attrsOpt at hv
  split at hv
  · cases hg : Attrs.get? k m.attrs with
    | none => simp [hg] at hv
    | some w => simp only [hg, Option.toList_some, List.mem_singleton] at hv; subst hv; exact h.attr hg
  · obtain ⟨p, hp, rfl⟩ := List.mem_map.mp hv
    exact attr_sized (h.2 p ((ho _ _).mem_iff.mp (List.mem_filter.mp hp).1))

theorem Small.attrsL {B : Nat} {m : Elem} (h : Small B m) {o : Ord} (ho : o.IsPerm) {cs : Bool} {k : Bytes} : ∀ x ∈ (attrsOpt o cs k m).map Result.ofAttr, Sized B x := by
  intro x hx
  obtain ⟨v, hv, rfl⟩ := List.mem_map.mp hx
  exact h.attrs ho hv

/-- And so are the contents one level below. -/
def Below (o : Ord) (B : Nat) (m : Elem) : Prop := ∀ e ∈ topElems o m.content, wt e.content ≤ B

variable {env : Env} {B : Nat}

theorem fieldExtraction_arr {ms : List Elem} {f : Bytes} (h : ∀ m ∈ ms, Small B m ∧ Below env.ord B m) : Arr B (fieldExtraction env ms f []) := by
  unfold fieldExtraction
  split
  · exact arr_null
  · simp only [runMods_nil]
    split
    · exact arr_list (by simp)
    · refine arr_list fun x hx => sized_flat (fun m hm x hx => ?_) x (List.mem_of_mem_take hx)
      obtain ⟨h1, h2⟩ := h m hm
      unfold fieldValues at hx
      simp only at hx
      split at hx
      · split at hx
        · rename_i v hv; simp only [List.mem_singleton] at hx; subst hx; exact h1.attr hv
        · simp at hx
      · split at hx
        · split at hx
          · simp at hx
          · simp only [List.mem_singleton] at hx; subst hx; exact own_sized h1.1
        · obtain ⟨e, he, rfl⟩ := List.mem_map.mp hx
          exact content_sized (h2 e (List.mem_filter.mp he).1)

theorem fieldExtractionOpt_arr (ho : env.ord.IsPerm) {cs : Bool} {ms : List Elem} {f : Bytes} (h : ∀ m ∈ ms, Small B m ∧ Below env.ord B m) : Arr B (fieldExtractionOpt env cs ms f []) := by
  unfold fieldExtractionOpt
  split
  · exact arr_null
  · simp only [runMods_nil]
    split
    · exact arr_list (by simp)
    · refine arr_list fun x hx => sized_flat (fun m hm x hx => ?_) x (List.mem_of_mem_take hx)
      obtain ⟨h1, h2⟩ := h m hm
      unfold fieldValuesOpt at hx
      simp only at hx
      split at hx
      · obtain ⟨v, hv, rfl⟩ := List.mem_map.mp hx
        exact h1.attrs ho (List.mem_of_mem_take hv)
      · split at hx
        · split at hx
          · simp at hx
          · simp only [List.mem_singleton] at hx; subst hx; exact own_sized h1.1
        · obtain ⟨e, he, rfl⟩ := List.mem_map.mp hx
          exact content_sized (h2 e (List.mem_filter.mp he).1)

theorem contents_sized {ms : List Elem} (h : ∀ m ∈ ms, Small B m) : ∀ x ∈ ms.map (fun m => Result.ofContent m.content), Sized B x := by
  intro x hx
  obtain ⟨m, hm, rfl⟩ := List.mem_map.mp hx
  exact content_sized (h m hm).1

theorem handleWildcard_arr {ms : List Elem} (h : ∀ m ∈ ms, Small B m) {rest : List Seg} {k : Bytes → Result} (hk : ∀ m ∈ ms, Arr B (k m.content)) (hm : ∀ s ∈ rest, s.mods = []) :
    Arr B (handleWildcard env ms rest k) := by
  cases rest with
  | nil => exact arr_pack (contents_sized h)
  | cons nxt rest2 =>
    simp only [handleWildcard, hm nxt (by simp), runMods_nil]
    refine arr_ite (arr_ite (arr_list (by simp)) arr_null) (arr_pack (sized_flat fun m hmm => ?_))
    split
    · split
      · rename_i v hv
        split
        · exact sized_one ((h m hmm).attr hv)
        · exact sized_nil
      · exact sized_nil
    · exact sized_one (text_sized (h m hmm).1)
    · exact arr_as (hk m hmm)

theorem handleWildcardOpt_arr (ho : env.ord.IsPerm) {cs : Bool} {ms : List Elem} (h : ∀ m ∈ ms, Small B m) {rest : List Seg} {k : Bytes → Result} (hk : ∀ m ∈ ms, Arr B (k m.content))
    (hm : ∀ s ∈ rest, s.mods = []) : Arr B (handleWildcardOpt env cs ms rest k) := by
  cases rest with
  | nil => exact arr_pack (contents_sized h)
  | cons nxt rest2 =>
    simp only [handleWildcardOpt, hm nxt (by simp), runMods_nil]
    refine arr_ite arr_null (arr_pack (sized_flat fun m hmm => ?_))
    split
    · split
      · exact (h m hmm).attrsL ho
      · exact sized_nil
    · exact sized_one (text_sized (h m hmm).1)
    · exact arr_as (hk m hmm)

theorem recEmit_sized {rest : List Seg} {k : Bytes → Result} {e : Elem} (h : Small B e) (hb : Below env.ord B e ∨ rest = []) (hk : Arr B (k e.content)) (hm : ∀ s ∈ rest, s.mods = []) :
    ∀ x ∈ recEmit env rest k e, Sized B x := by
  cases rest with
  | nil => exact sized_one (content_sized h.1)
  | cons nxt rest2 =>
    simp only [recEmit, hm nxt (by simp)]
    split
    · split
      · rename_i v hv
        split
        · exact sized_one (h.attr hv)
        · exact sized_nil
      · exact sized_nil
    · exact sized_one (text_sized h.1)
    · rename_i f _
      have hb : Below env.ord B e := by rcases hb with hb | hb; exact hb; cases hb
      have h2 := fieldExtraction_arr (env := env) (B := B) (ms := [e]) (f := f) (by simpa using ⟨h, hb⟩)
      split
      · rename_i ht
        unfold Arr at h2
        rwa [Result.array, if_pos ht] at h2
      · exact sized_nil
    · exact arr_as hk

theorem recEmitOpt_sized (ho : env.ord.IsPerm) {cs : Bool} {rest : List Seg} {k : Bytes → Result} {e : Elem} (h : Small B e) (hk : Arr B (k e.content)) :
    ∀ x ∈ recEmitOpt env cs rest k e, Sized B x := by
  cases rest with
  | nil => exact sized_one (content_sized h.1)
  | cons nxt rest2 =>
    simp only [recEmitOpt]
    split
    · split
      · exact h.attrsL ho
      · exact sized_nil
    · exact sized_one (text_sized h.1)
    · exact arr_as hk

theorem processFirst_arr {m : Elem} (h : Small B m) {seg : Seg} (hs : seg.mods = []) {rest : List Seg} (hb : Below env.ord B m ∨ rest = []) {k : Bytes → Result} (hk : Arr B (k m.content))
    (hm : ∀ s ∈ rest, s.mods = []) : Arr B (processFirst env m seg rest k) := by
  cases rest with
  | nil => simp only [processFirst, hs, runMods_nil]; exact arr_one (content_sized h.1)
  | cons nxt rest2 =>
    simp only [processFirst, hm nxt (by simp), runMods_nil]
    have hb : Below env.ord B m := by rcases hb with hb | hb; exact hb; cases hb
    split
    · split
      · rename_i v hv; exact arr_one (h.attr hv)
      · exact arr_null
    · exact arr_one (text_sized h.1)
    · exact fieldExtraction_arr (by simpa using ⟨h, hb⟩)
    · exact hk

theorem processFirstOpt_arr (ho : env.ord.IsPerm) {cs : Bool} {m : Elem} (h : Small B m) {seg : Seg} (hs : seg.mods = []) {rest : List Seg} (hb : Below env.ord B m ∨ rest = []) {k : Bytes → Result}
    (hk : Arr B (k m.content)) (hm : ∀ s ∈ rest, s.mods = []) : Arr B (processFirstOpt env cs m seg rest k) := by
  cases rest with
  | nil => simp only [processFirstOpt, hs, runMods_nil]; exact arr_one (content_sized h.1)
  | cons nxt rest2 =>
    simp only [processFirstOpt, hm nxt (by simp), runMods_nil]
    have hb : Below env.ord B m := by rcases hb with hb | hb; exact hb; cases hb
    split
    · split
      · rename_i v vs hv; exact arr_one (h.attrs ho (by rw [hv]; simp))
      · exact arr_null
    · exact arr_one (text_sized h.1)
    · exact fieldExtractionOpt_arr ho (by simpa using ⟨h, hb⟩)
    · exact hk

theorem processAll_arr {ms : List Elem} (h : ∀ m ∈ ms, Small B m) {seg : Seg} (hs : seg.mods = []) {rest : List Seg} (hb : (∀ m ∈ ms, Below env.ord B m) ∨ rest = []) {k : Bytes → Result}
    (hk : ∀ m ∈ ms, Arr B (k m.content)) (hm : ∀ s ∈ rest, s.mods = []) : Arr B (processAll env ms seg rest k) := by
  cases rest with
  | nil => simp only [processAll, hs, runMods_nil]; exact arr_list (contents_sized h)
  | cons nxt rest2 =>
    simp only [processAll, hm nxt (by simp), runMods_nil]
    have hb : ∀ m ∈ ms, Below env.ord B m := by rcases hb with hb | hb; exact hb; cases hb
    split
    · exact fieldExtraction_arr fun m hmm => ⟨h m hmm, hb m hmm⟩
    · refine arr_ite arr_null (arr_pack (sized_flat fun m hmm => ?_))
      split
      · split
        · rename_i v hv; exact sized_one ((h m hmm).attr hv)
        · exact sized_nil
      · exact sized_one (text_sized (h m hmm).1)
      · exact arr_as (hk m hmm)

theorem processAllOpt_arr (ho : env.ord.IsPerm) {cs : Bool} {ms : List Elem} (h : ∀ m ∈ ms, Small B m) {seg : Seg} (hs : seg.mods = []) {rest : List Seg}
    (hb : (∀ m ∈ ms, Below env.ord B m) ∨ rest = []) {k : Bytes → Result} (hk : ∀ m ∈ ms, Arr B (k m.content)) (hm : ∀ s ∈ rest, s.mods = []) : Arr B (processAllOpt env cs ms seg rest k) := by
  cases rest with
  | nil => simp only [processAllOpt, hs, runMods_nil]; exact arr_list (contents_sized h)
  | cons nxt rest2 =>
    simp only [processAllOpt, hm nxt (by simp), runMods_nil]
    have hb : ∀ m ∈ ms, Below env.ord B m := by rcases hb with hb | hb; exact hb; cases hb
    split
    · exact fieldExtractionOpt_arr ho fun m hmm => ⟨h m hmm, hb m hmm⟩
    · refine arr_ite arr_null (arr_pack (sized_flat fun m hmm => ?_))
      split
      · exact (h m hmm).attrsL ho
      · exact sized_one (text_sized (h m hmm).1)
      · exact arr_as (hk m hmm)

theorem routeFilter_arr {ms : List Elem} (h : ∀ m ∈ ms, Small B m) {seg : Seg} (hs : seg.mods = []) {all : Bool} {rest : List Seg} (hb : (∀ m ∈ ms, Below env.ord B m) ∨ rest = [])
    {k : Bytes → Result} (hk : ∀ m ∈ ms, Arr B (k m.content)) (hm : ∀ s ∈ rest, s.mods = []) : Arr B (routeFilter env ms seg all rest k) := by
  cases ms with
  | nil => exact arr_null
  | cons m ms =>
    simp only [routeFilter]
    exact arr_ite (processAll_arr h hs hb hk hm) (processFirst_arr (h m (by simp)) hs (hb.imp_left fun hb => hb m (by simp)) (hk m (by simp)) hm)

theorem routeFilterOpt_arr (ho : env.ord.IsPerm) {cs : Bool} {ms : List Elem} (h : ∀ m ∈ ms, Small B m) {seg : Seg} (hs : seg.mods = []) {all : Bool} {rest : List Seg}
    (hb : (∀ m ∈ ms, Below env.ord B m) ∨ rest = []) {k : Bytes → Result} (hk : ∀ m ∈ ms, Arr B (k m.content)) (hm : ∀ s ∈ rest, s.mods = []) : Arr B (routeFilterOpt env cs ms seg all rest k) := by
  cases ms with
  | nil => exact arr_null
  | cons m ms =>
    simp only [routeFilterOpt]
    exact arr_ite (processAllOpt_arr ho h hs hb hk hm) (processFirstOpt_arr ho (h m (by simp)) hs (hb.imp_left fun hb => hb m (by simp)) (hk m (by simp)) hm)

theorem fragmentRoots_arr {ms : List Elem} (h : ∀ m ∈ ms, Small B m ∧ Below env.ord B m) (hl : ms.length ≤ 1000) (h4 : 4 ≤ B) {nxt : Seg} (hn : nxt.mods = []) {rest2 : List Seg} {k : Bytes → Result}
    (hk : ∀ m ∈ ms, Arr B (k m.content)) : Arr B (fragmentRoots env ms nxt rest2 k) := by
  unfold fragmentRoots
  rw [hn]
  split
  · exact arr_null
  · split
    · exact fieldExtraction_arr h
    · split
      · exact arr_null
      · split
        · exact arr_null
        · rename_i m hm
          have hmm := List.mem_of_getElem? hm
          cases rest2 with
          | nil => exact arr_one (content_sized (h m hmm).1.1)
          | cons s r =>
            simp only
            split
            · split
              · rename_i v hv; exact arr_one ((h m hmm).1.attr hv)
              · exact arr_null
            · exact arr_one (text_sized (h m hmm).1.1)
            · exact hk m hmm
    · exact arr_one (count_sized hl h4)
    · exact arr_null

theorem fragmentRootsOpt_arr (ho : env.ord.IsPerm) {ms : List Elem} (h : ∀ m ∈ ms, Small B m ∧ Below env.ord B m) (hl : ms.length ≤ 1000) (h4 : 4 ≤ B) {nxt : Seg} (hn : nxt.mods = [])
    {rest2 : List Seg} {k : Bytes → Result} (hk : ∀ m ∈ ms, Arr B (k m.content)) : Arr B (fragmentRootsOpt env ms nxt rest2 k) := by
  unfold fragmentRootsOpt
  rw [hn]
  split
  · exact arr_null
  · split
    · exact fieldExtractionOpt_arr ho h
    · split
      · exact arr_null
      · split
        · exact arr_null
        · rename_i m hm
          have hmm := List.mem_of_getElem? hm
          cases rest2 with
          | nil => exact arr_one (content_sized (h m hmm).1.1)
          | cons s r =>
            simp only
            split
            · split
              · rename_i v hv; exact arr_one ((h m hmm).1.attr hv)
              · exact arr_null
            · exact arr_one (text_sized (h m hmm).1.1)
            · exact hk m hmm
    · exact arr_one (count_sized hl h4)
    · exact arr_null

theorem arrayOp_arr {ms : List Elem} (h : ∀ m ∈ ms, Small B m) (hl : ms.length ≤ 1000) (h4 : 4 ≤ B) {nxt : Seg} (hn : nxt.mods = []) {rest2 : List Seg} {k : Bytes → Result}
    (hk : ∀ m ∈ ms, Arr B (k m.content)) (hm : ∀ s ∈ rest2, s.mods = []) : Arr B (arrayOp env ms nxt rest2 k) := by
  unfold arrayOp
  rw [hn]
  split
  · exact arr_null
  · split
    · split
      · exact arr_null
      · split
        · exact arr_null
        · rename_i m hgm
          have hmm := List.mem_of_getElem? hgm
          cases rest2 with
          | nil => simp only [runMods_nil]; exact arr_one (content_sized (h m hmm).1)
          | cons s r =>
            simp only [hm s (by simp), runMods_nil, ite_self]
            split
            · split
              · rename_i v hv; exact arr_one ((h m hmm).attr hv)
              · exact arr_null
            · exact hk m hmm
    · simp only [runMods_nil]; exact arr_one (count_sized hl h4)
    · exact arr_null

theorem arrayOpOpt_arr (ho : env.ord.IsPerm) {cs : Bool} {ms : List Elem} (h : ∀ m ∈ ms, Small B m) (hl : ms.length ≤ 1000) (h4 : 4 ≤ B) {nxt : Seg} {rest2 : List Seg} {k : Bytes → Result}
    (hk : ∀ m ∈ ms, Arr B (k m.content)) : Arr B (arrayOpOpt env cs ms nxt rest2 k) := by
  unfold arrayOpOpt
  split
  · exact arr_null
  · split
    · split
      · exact arr_null
      · split
        · exact arr_null
        · rename_i m hgm
          have hmm := List.mem_of_getElem? hgm
          cases rest2 with
          | nil => exact arr_one (content_sized (h m hmm).1)
          | cons s r =>
            simp only
            split
            · split
              · rename_i v vs hv; exact arr_one ((h m hmm).attrs ho (by rw [hv]; simp))
              · exact arr_null
            · exact hk m hmm
    · exact arr_one (count_sized hl h4)
    · exact arr_null

theorem firstMatch_arr {ms : List Elem} (h : ∀ m ∈ ms, Small B m) {cur : Seg} (hc : cur.mods = []) {rest : List Seg} {k : Bytes → Result}
    (hk : ∀ m ∈ ms, Arr B (k m.content)) (hm : ∀ s ∈ rest, s.mods = []) : Arr B (firstMatch env cur rest k ms) := by
  induction ms with
  | nil => exact arr_null
  | cons m ms ih =>
    have ih := ih (fun m hm => h m (by simp [hm])) (fun m hm => hk m (by simp [hm]))
    cases rest with
    | nil => simp only [firstMatch, hc, runMods_nil]; exact arr_one (content_sized (h m (by simp)).1)
    | cons nxt r =>
      simp only [firstMatch, hm nxt (by simp), runMods_nil]
      split
      · split
        · rename_i v hv; exact arr_ite (arr_one ((h m (by simp)).attr hv)) arr_null
        · exact arr_null
      · exact arr_one (text_sized (h m (by simp)).1)
      · exact arr_ite ih (hk m (by simp))

theorem firstMatchOpt_arr (ho : env.ord.IsPerm) {cs : Bool} {ms : List Elem} (h : ∀ m ∈ ms, Small B m) {rest : List Seg} {k : Bytes → Result}
    (hk : ∀ m ∈ ms, Arr B (k m.content)) : Arr B (firstMatchOpt env cs rest k ms) := by
  induction ms with
  | nil => exact arr_null
  | cons m ms ih =>
    have ih := ih (fun m hm => h m (by simp [hm])) (fun m hm => hk m (by simp [hm]))
    cases rest with
    | nil => exact arr_one (content_sized (h m (by simp)).1)
    | cons nxt r =>
      simp only [firstMatchOpt]
      split
      · split
        · rename_i v vs hv; exact arr_ite (arr_one ((h m (by simp)).attrs ho (by rw [hv]; simp))) arr_null
        · exact arr_null
      · exact arr_one (text_sized (h m (by simp)).1)
      · exact arr_ite ih (hk m (by simp))

/-! ### levels -/

/-- The bound after `n` levels. -/
def bnd (n : Nat) (y : Bytes) : Nat := wt y + n * (13 * eqs y + 4)

theorem bnd_mono {n m : Nat} (h : n ≤ m) (y : Bytes) : bnd n y ≤ bnd m y := by
  unfold bnd; have := Nat.mul_le_mul_right (13 * eqs y + 4) h; omega

theorem bnd_step {o : Ord} (ho : o.IsPerm) {y : Bytes} {e : Elem} (he : e ∈ topElems o y) (n : Nat) : bnd n e.content ≤ bnd (n + 1) y := by
  have h := topElems_cost ho y e he
  have h2 : n * (13 * eqs e.content + 4) ≤ n * (13 * eqs y + 4) := Nat.mul_le_mul_left _ (by omega)
  unfold bnd
  rw [Nat.add_mul, Nat.one_mul]; omega

theorem small_top {o : Ord} (ho : o.IsPerm) {y : Bytes} {e : Elem} (he : e ∈ topElems o y) (n : Nat) : Small (bnd (n + 1) y) e := by
  have h := topElems_cost ho y e he
  have h1 := bnd_step ho he n
  refine ⟨by unfold bnd at h1 ⊢; omega, fun p hp => ?_⟩
  have h2 := h.2.2 p hp
  have h3 := (esc_len p.2).1
  unfold bnd
  rw [Nat.add_mul, Nat.one_mul]; omega

theorem below_top {o : Ord} (ho : o.IsPerm) {y : Bytes} {e : Elem} (he : e ∈ topElems o y) (n : Nat) : Below o (bnd (n + 2) y) e := by
  intro c hc
  have h1 := bnd_step ho hc n
  have h2 := bnd_step ho he (n + 1)
  unfold bnd at h1 h2 ⊢
  have : wt c.content ≤ wt c.content + n * (13 * eqs c.content + 4) := by omega
  have e1 : n + 1 + 1 = n + 2 := rfl
  rw [e1] at h2
  omega

theorem four_le (n : Nat) (y : Bytes) : 4 ≤ bnd (n + 1) y := by unfold bnd; rw [Nat.add_mul, Nat.one_mul]; omega

/-- How many levels a segment goes down. -/
def Seg.levels (s : Seg) : Nat := match s.kind with | .wild true => 101 | _ => 1

theorem levels_pos (s : Seg) : 1 ≤ s.levels := by unfold Seg.levels; split <;> omega

/-- All segments together. -/
def lvl (ss : List Seg) : Nat := (ss.map Seg.levels).sum
theorem lvl_cons (s : Seg) (ss : List Seg) : lvl (s :: ss) = s.levels + lvl ss := by simp [lvl]
theorem lvl_nil : lvl [] = 0 := rfl

theorem recSearch_sized {o : Ord} (ho : o.IsPerm) {tgt : Elem → Bool} {emit : Elem → List Result} {L : Nat}
    (he : ∀ y, bnd (L + 1) y ≤ B → ∀ e ∈ topElems o y, ∀ x ∈ emit e, Sized B x) (n : Nat) :
    ∀ (xml : Bytes) (st : SearchSt), bnd (n + L) xml ≤ B → (∀ x ∈ st.res, Sized B x) → ∀ x ∈ (recSearch o tgt emit n xml st).res, Sized B x := by
  induction n with
  | zero => intro xml st _ h; exact h
  | succ n ih =>
    intro xml st hb h
    simp only [recSearch]
    split
    · exact h
    · have key : ∀ (es : List Elem), (∀ e ∈ es, e ∈ topElems o xml) → ∀ (st : SearchSt), (∀ x ∈ st.res, Sized B x) → ∀ x ∈ (recLoop (recSearch o tgt emit n) tgt emit es st).res, Sized B x := by
        intro es
        induction es with
        | nil => intro _ st h; exact h
        | cons e es ihe =>
          intro hes st h
          have hee := hes e (by simp)
          have ihe := ihe fun x hx => hes x (by simp [hx])
          have h1 : ∀ x ∈ (if !e.selfClosing && !e.content.isEmpty then recSearch o tgt emit n e.content st else st).res, Sized B x := by
            split
            · refine ih _ _ ?_ h
              have := bnd_step ho hee (n + L)
              rw [show n + L + 1 = n + 1 + L by omega] at this
              omega
            · exact h
          simp only [recLoop]
          generalize (if !e.selfClosing && !e.content.isEmpty then recSearch o tgt emit n e.content st else st) = st1 at h1
          split
          · exact h1
          · split
            · split
              · exact h1
              · refine ihe _ fun x hx => ?_
                rcases List.mem_append.mp hx with hx | hx
                · exact h1 x hx
                · exact he xml (Nat.le_trans (bnd_mono (by omega) xml) hb) e hee x hx
            · exact ihe _ h1
      exact key _ (fun _ h => h) _ h

theorem handleRecursive_arr (ho : env.ord.IsPerm) {rest : List Seg} {k : Bytes → Result} {xml : Bytes} (hk : ∀ c, Arr (bnd (lvl rest.tail) c) (k c)) (hm : ∀ s ∈ rest, s.mods = []) :
    Arr (bnd (101 + lvl rest) xml) (handleRecursive env rest k xml) := by
  cases rest with
  | nil => exact arr_null
  | cons tgt rest2 =>
    simp only [List.tail_cons] at hk
    simp only [handleRecursive]
    have hall := recSearch_sized (B := bnd (101 + lvl (tgt :: rest2)) xml) (L := lvl rest2) ho (tgt := fun e => tgt.matches e.name) (emit := recEmit env rest2 k)
      (fun y hy e he => by
        have s := small_top ho he (lvl rest2)
        refine recEmit_sized ⟨Nat.le_trans s.1 hy, fun p hp => Nat.le_trans (s.2 p hp) hy⟩ ?_ ((hk _).mono (Nat.le_trans (bnd_step ho he _) hy)) fun s hs => hm s (by simp [hs])
        cases rest2 with
        | nil => exact .inr rfl
        | cons nxt r =>
          left
          intro c hc
          refine Nat.le_trans (below_top ho he 0 c hc) (Nat.le_trans (bnd_mono ?_ y) hy)
          have := levels_pos nxt
          rw [lvl_cons]; omega) 101 xml ⟨0, []⟩ (bnd_mono (by rw [lvl_cons]; omega) xml) (by simp)
    have e : maxNestingDepth + 1 = 101 := rfl
    rw [e]
    generalize recSearch env.ord (fun e => tgt.matches e.name) (recEmit env rest2 k) 101 xml ⟨0, []⟩ = st at hall
    split
    · exact arr_null
    · exact arr_pack hall

theorem handleRecursiveOpt_arr (ho : env.ord.IsPerm) {cs : Bool} {rest : List Seg} {k : Bytes → Result} {xml : Bytes} (hk : ∀ c, Arr (bnd (lvl rest.tail) c) (k c)) :
    Arr (bnd (101 + lvl rest) xml) (handleRecursiveOpt env cs rest k xml) := by
  cases rest with
  | nil => exact arr_null
  | cons tgt rest2 =>
    simp only [List.tail_cons] at hk
    simp only [handleRecursiveOpt]
    have hall := recSearch_sized (B := bnd (101 + lvl (tgt :: rest2)) xml) (L := lvl rest2) ho (tgt := fun e => tgt.matchesOpt e.name cs) (emit := recEmitOpt env cs rest2 k)
      (fun y hy e he => by
        have s := small_top ho he (lvl rest2)
        exact recEmitOpt_sized ho ⟨Nat.le_trans s.1 hy, fun p hp => Nat.le_trans (s.2 p hp) hy⟩ ((hk _).mono (Nat.le_trans (bnd_step ho he _) hy)))
      101 xml ⟨0, []⟩ (bnd_mono (by rw [lvl_cons]; omega) xml) (by simp)
    have e : maxNestingDepth + 1 = 101 := rfl
    rw [e]
    generalize recSearch env.ord (fun e => tgt.matchesOpt e.name cs) (recEmitOpt env cs rest2 k) 101 xml ⟨0, []⟩ = st at hall
    split
    · exact arr_null
    · exact arr_pack hall

/-- Elements at the top of `xml`, and what follows them at `n` levels. -/
theorem tops_small (ho : env.ord.IsPerm) {xml : Bytes} {ms : List Elem} (h : ∀ m ∈ ms, m ∈ topElems env.ord xml) {n : Nat} : ∀ m ∈ ms, Small (bnd (n + 1) xml) m := fun m hm => small_top ho (h m hm) n

theorem tops_below (ho : env.ord.IsPerm) {xml : Bytes} {ms : List Elem} (h : ∀ m ∈ ms, m ∈ topElems env.ord xml) (rest : List Seg) :
    (∀ m ∈ ms, Below env.ord (bnd (lvl rest + 1) xml) m) ∨ rest = [] := by
  cases rest with
  | nil => exact .inr rfl
  | cons s r =>
    left
    intro m hm c hc
    refine Nat.le_trans (below_top ho (h m hm) 0 c hc) (bnd_mono ?_ xml)
    have := levels_pos s
    rw [lvl_cons]; omega

theorem tops_k (ho : env.ord.IsPerm) {xml : Bytes} {ms : List Elem} (h : ∀ m ∈ ms, m ∈ topElems env.ord xml) {k : Bytes → Result} {n N : Nat} (hk : ∀ c, Arr (bnd n c) (k c)) (hN : n + 1 ≤ N) :
    ∀ m ∈ ms, Arr (bnd N xml) (k m.content) := fun m hm => (hk _).mono (Nat.le_trans (bnd_step ho (h m hm) n) (bnd_mono hN xml))

theorem taken_sub {α : Type} {l : List α} {p : α → Bool} {n : Nat} : ∀ m ∈ (l.filter p).take n, m ∈ l := fun _ hm => (List.mem_filter.mp (List.mem_of_mem_take hm)).1
theorem take_le' {α : Type} (l : List α) : (l.take maxWildcardResults).length ≤ 1000 := by rw [List.length_take]; unfold maxWildcardResults; omega

theorem execElem_arr (ho : env.ord.IsPerm) {ev : Filter → Elem → Bool} {cur : Seg} {rest : List Seg} {k1 k2 : Bytes → Result} {xml : Bytes} (hk1 : ∀ c, Arr (bnd (lvl rest) c) (k1 c))
    (hk2 : ∀ c, Arr (bnd (lvl rest.tail) c) (k2 c)) (hc : cur.mods = []) (hm : ∀ s ∈ rest, s.mods = []) : Arr (bnd (lvl rest + 1) xml) (execElem env ev cur rest k1 k2 xml) := by
  have hf : ∀ m ∈ (topElems env.ord xml).filter (fun e => cur.matches e.name), m ∈ topElems env.ord xml := fun m hm => (List.mem_filter.mp hm).1
  have hft : ∀ m ∈ ((topElems env.ord xml).filter (fun e => cur.matches e.name)).take maxWildcardResults, m ∈ topElems env.ord xml := taken_sub
  cases rest with
  | nil => exact firstMatch_arr (tops_small ho hf) hc (tops_k ho hf hk1 (Nat.le_refl _)) hm
  | cons nxt r =>
    have hn := hm nxt (List.mem_cons_self ..)
    have hr : ∀ s ∈ r, s.mods = [] := fun s hs => hm s (List.mem_cons_of_mem _ hs)
    have hp := levels_pos nxt
    have hlv : lvl r + 1 ≤ lvl (nxt :: r) := by rw [lvl_cons]; omega
    simp only [List.tail_cons] at hk2
    have hb := (tops_below ho hft (nxt :: r)).resolve_right (by simp)
    simp only [execElem]
    split
    · rw [hn]; exact fieldExtraction_arr fun m hmm => ⟨tops_small ho hft m hmm, hb m hmm⟩
    · rename_i f all _
      have hfs : ∀ m ∈ (((topElems env.ord xml).filter (fun e => cur.matches e.name)).take maxWildcardResults).filter (ev f), m ∈ topElems env.ord xml :=
        fun m hm => hft m (List.mem_filter.mp hm).1
      exact routeFilter_arr (tops_small ho hfs) hn ((tops_below ho hfs (nxt :: r)).imp_right (by simp)) (tops_k ho hfs hk2 (by omega)) hr
    · exact arrayOp_arr (tops_small ho hft) (take_le' _) (four_le _ xml) hn (tops_k ho hft hk2 (by omega)) hr
    · exact arrayOp_arr (tops_small ho hft) (take_le' _) (four_le _ xml) hn (tops_k ho hft hk2 (by omega)) hr
    · exact firstMatch_arr (tops_small ho hf) hc (tops_k ho hf hk1 (Nat.le_refl _)) hm

theorem execElemOpt_arr (ho : env.ord.IsPerm) {ev : Filter → Elem → Bool} {cs : Bool} {cur : Seg} {rest : List Seg} {k1 k2 : Bytes → Result} {xml : Bytes} (hk1 : ∀ c, Arr (bnd (lvl rest) c) (k1 c))
    (hk2 : ∀ c, Arr (bnd (lvl rest.tail) c) (k2 c)) (hm : ∀ s ∈ rest, s.mods = []) : Arr (bnd (lvl rest + 1) xml) (execElemOpt env ev cs cur rest k1 k2 xml) := by
  have hf : ∀ m ∈ (topElems env.ord xml).filter (fun e => cur.matchesOpt e.name cs), m ∈ topElems env.ord xml := fun m hm => (List.mem_filter.mp hm).1
  have hft : ∀ m ∈ ((topElems env.ord xml).filter (fun e => cur.matchesOpt e.name cs)).take maxWildcardResults, m ∈ topElems env.ord xml := taken_sub
  cases rest with
  | nil => exact firstMatchOpt_arr ho (tops_small ho hf) (tops_k ho hf hk1 (Nat.le_refl _))
  | cons nxt r =>
    have hn := hm nxt (List.mem_cons_self ..)
    have hr : ∀ s ∈ r, s.mods = [] := fun s hs => hm s (List.mem_cons_of_mem _ hs)
    have hp := levels_pos nxt
    have hlv : lvl r + 1 ≤ lvl (nxt :: r) := by rw [lvl_cons]; omega
    simp only [List.tail_cons] at hk2
    have hb := (tops_below ho hft (nxt :: r)).resolve_right (by simp)
    simp only [execElemOpt]
    split
    · rw [hn]; exact fieldExtractionOpt_arr ho fun m hmm => ⟨tops_small ho hft m hmm, hb m hmm⟩
    · rename_i f all _
      have hfs : ∀ m ∈ (((topElems env.ord xml).filter (fun e => cur.matchesOpt e.name cs)).take maxWildcardResults).filter (ev f), m ∈ topElems env.ord xml :=
        fun m hm => hft m (List.mem_filter.mp hm).1
      exact routeFilterOpt_arr ho (tops_small ho hfs) hn ((tops_below ho hfs (nxt :: r)).imp_right (by simp)) (tops_k ho hfs hk2 (by omega)) hr
    · exact arrayOpOpt_arr ho (tops_small ho hft) (take_le' _) (four_le _ xml) (tops_k ho hft hk2 (by omega))
    · exact arrayOpOpt_arr ho (tops_small ho hft) (take_le' _) (four_le _ xml) (tops_k ho hft hk2 (by omega))
    · exact firstMatchOpt_arr ho (tops_small ho hf) (tops_k ho hf hk1 (Nat.le_refl _))

theorem execBody_arr (ho : env.ord.IsPerm) {ev : Filter → Elem → Bool} {root : Bool} {cur : Seg} {rest : List Seg} {k1 k2 : Bytes → Result} {xml : Bytes} (hk1 : ∀ c, Arr (bnd (lvl rest) c) (k1 c))
    (hk2 : ∀ c, Arr (bnd (lvl rest.tail) c) (k2 c)) (hc : cur.mods = []) (hm : ∀ s ∈ rest, s.mods = []) : Arr (bnd (lvl (cur :: rest)) xml) (execBody env ev root cur rest k1 k2 xml) := by
  have hle : bnd (lvl rest + 1) xml ≤ bnd (lvl (cur :: rest)) xml := bnd_mono (by have := levels_pos cur; rw [lvl_cons]; omega) xml
  unfold execBody
  split
  · split
    · cases rest with
      | nil => exact arr_null
      | cons nxt r =>
        simp only [List.tail_cons] at hk2 ⊢
        refine Arr.mono ?_ hle
        have hp := levels_pos nxt
        exact fragmentRoots_arr (fun m hmm => ⟨tops_small ho taken_sub m hmm, ((tops_below ho taken_sub (nxt :: r)).resolve_right (by simp)) m hmm⟩) (take_le' _) (four_le _ xml) (hm nxt (by simp))
          (tops_k ho taken_sub hk2 (by rw [lvl_cons]; omega))
    · exact (execElem_arr ho hk1 hk2 hc hm).mono hle
  · exact (routeFilter_arr (tops_small ho taken_sub) hc (tops_below ho taken_sub rest) (tops_k ho taken_sub hk1 (Nat.le_refl _)) hm).mono hle
  · exact arr_list (by simp)
  · exact arr_null
  · exact arr_null
  · exact arr_null
  · exact arr_null
  · rename_i hf
    have : cur.levels = 101 := by simp only [Seg.levels, hf]
    rw [lvl_cons, this]
    exact handleRecursive_arr ho hk2 hm
  · simp only
    split
    · exact arr_null
    · rw [hc, runMods_nil, ite_self]
      have hs : ∀ m ∈ (topElems env.ord xml).take maxWildcardResults, m ∈ topElems env.ord xml := fun m hm => List.mem_of_mem_take hm
      exact (handleWildcard_arr (tops_small ho hs) (tops_k ho hs hk1 (Nat.le_refl _)) hm).mono hle

theorem execBodyOpt_arr (ho : env.ord.IsPerm) {ev : Filter → Elem → Bool} {cs root : Bool} {cur : Seg} {rest : List Seg} {k1 k2 : Bytes → Result} {xml : Bytes}
    (hk1 : ∀ c, Arr (bnd (lvl rest) c) (k1 c)) (hk2 : ∀ c, Arr (bnd (lvl rest.tail) c) (k2 c)) (hc : cur.mods = []) (hm : ∀ s ∈ rest, s.mods = []) :
    Arr (bnd (lvl (cur :: rest)) xml) (execBodyOpt env ev cs root cur rest k1 k2 xml) := by
  have hle : bnd (lvl rest + 1) xml ≤ bnd (lvl (cur :: rest)) xml := bnd_mono (by have := levels_pos cur; rw [lvl_cons]; omega) xml
  unfold execBodyOpt
  split
  · split
    · cases rest with
      | nil => exact arr_null
      | cons nxt r =>
        simp only [List.tail_cons] at hk2 ⊢
        refine Arr.mono ?_ hle
        have hp := levels_pos nxt
        exact fragmentRootsOpt_arr ho (fun m hmm => ⟨tops_small ho taken_sub m hmm, ((tops_below ho taken_sub (nxt :: r)).resolve_right (by simp)) m hmm⟩) (take_le' _) (four_le _ xml)
          (hm nxt (by simp)) (tops_k ho taken_sub hk2 (by rw [lvl_cons]; omega))
    · exact (execElemOpt_arr ho hk1 hk2 hm).mono hle
  · exact (routeFilterOpt_arr ho (tops_small ho taken_sub) hc (tops_below ho taken_sub rest) (tops_k ho taken_sub hk1 (Nat.le_refl _)) hm).mono hle
  · exact arr_list (by simp)
  · exact arr_null
  · exact arr_null
  · exact arr_null
  · exact arr_null
  · rename_i hf
    have : cur.levels = 101 := by simp only [Seg.levels, hf]
    rw [lvl_cons, this]
    exact handleRecursiveOpt_arr ho hk2
  · simp only
    split
    · exact arr_null
    · have hs : ∀ m ∈ (topElems env.ord xml).take maxWildcardResults, m ∈ topElems env.ord xml := fun m hm => List.mem_of_mem_take hm
      exact (handleWildcardOpt_arr ho (tops_small ho hs) (tops_k ho hs hk1 (Nat.le_refl _)) hm).mono hle

theorem execQ_arr (ho : env.ord.IsPerm) {ev : Filter → Elem → Bool} : ∀ (ss : List Seg), (∀ s ∈ ss, s.mods = []) → ∀ root xml, Arr (bnd (lvl ss) xml) (execQ env ev ss root xml)
  | [], _, _, _ => arr_null
  | [cur], h, root, xml => execBody_arr ho (fun _ => arr_null) (fun _ => arr_null) (h cur (List.mem_cons_self ..)) (by simp)
  | cur :: nxt :: rest, h, root, xml =>
    execBody_arr ho (fun c => execQ_arr ho (nxt :: rest) (fun s hs => h s (List.mem_cons_of_mem _ hs)) _ c)
      (fun c => execQ_arr ho rest (fun s hs => h s (List.mem_cons_of_mem _ (List.mem_cons_of_mem _ hs))) _ c) (h cur (List.mem_cons_self ..))
      (fun s hs => h s (List.mem_cons_of_mem _ hs))

theorem execQOpt_arr (ho : env.ord.IsPerm) {ev : Filter → Elem → Bool} {cs : Bool} : ∀ (ss : List Seg), (∀ s ∈ ss, s.mods = []) → ∀ root xml, Arr (bnd (lvl ss) xml) (execQOpt env ev cs ss root xml)
  | [], _, _, _ => arr_null
  | [cur], h, root, xml => execBodyOpt_arr ho (fun _ => arr_null) (fun _ => arr_null) (h cur (List.mem_cons_self ..)) (by simp)
  | cur :: nxt :: rest, h, root, xml =>
    execBodyOpt_arr ho (fun c => execQOpt_arr ho (nxt :: rest) (fun s hs => h s (List.mem_cons_of_mem _ hs)) _ c)
      (fun c => execQOpt_arr ho rest (fun s hs => h s (List.mem_cons_of_mem _ (List.mem_cons_of_mem _ hs))) _ c) (h cur (List.mem_cons_self ..))
      (fun s hs => h s (List.mem_cons_of_mem _ hs))

theorem fuseFields_lvl (ss : List Seg) : lvl (fuseFields ss) ≤ lvl ss := by
  fun_induction fuseFields ss with
  | case1 => simp
  | case2 s => omega
  | case3 s t r hc f hq hv ih =>
    have h1 : Seg.levels ⟨.field f, t.mods⟩ = 1 := rfl
    have := levels_pos s
    simp only [lvl_cons, h1]
    omega
  | case4 s t r hc f hq hv ih => simp only [lvl_cons] at *; omega
  | case5 s t r hc hq ih => simp only [lvl_cons] at *; omega
  | case6 s t r hc ih => simp only [lvl_cons] at *; omega

theorem parsePart_levels {p : Bytes} (h : c!"|" ∉ p) {s : Seg} (hs : parsePart p = .seg s) : s.levels ≤ partLevels p := by
  have h1 : 1 ≤ partLevels p := by unfold partLevels; split <;> omega
  unfold parsePart at hs
  rw [parseModifiers_plain p h] at hs
  simp only at hs
  split at hs
  · simp at hs
  · split at hs
    · unfold parseFilterPart at hs
      simp only at hs
      repeat' split at hs
      all_goals first | simp at hs | skip
      all_goals subst hs; exact h1
    · repeat' split at hs
      all_goals simp only [PartRes.seg.injEq] at hs; subst hs; simp_all [Seg.levels, partLevels]

theorem parseParts_levels {ps : List Bytes} (h : ∀ p ∈ ps, c!"|" ∉ p) {ss : List Seg} (hs : parseParts ps = .ok ss) : lvl ss ≤ pathLevels ps := by
  induction ps generalizing ss with
  | nil => simp only [parseParts, Parse.ok.injEq] at hs; subst hs; simp [lvl, pathLevels]
  | cons p ps ih =>
    have ih := @ih (fun q hq => h q (List.mem_cons_of_mem _ hq))
    have e : pathLevels (p :: ps) = partLevels p + pathLevels ps := by simp [pathLevels]
    rw [parseParts] at hs
    cases hp : parsePart p with
    | panic => rw [hp] at hs; simp at hs
    | reject => rw [hp] at hs; simp at hs
    | skip => rw [hp] at hs; have := ih hs; omega
    | seg s =>
      rw [hp] at hs
      simp only at hs
      cases hq : parseParts ps with
      | panic => rw [hq] at hs; simp at hs
      | err => rw [hq] at hs; simp at hs
      | ok ss2 =>
        rw [hq] at hs
        simp only [Parse.ok.injEq] at hs
        subst hs
        have h1 := ih hq
        have h2 := parsePart_levels (h p (List.mem_cons_self ..)) hp
        rw [lvl_cons]; omega

theorem parsePath_levels {parts : List Bytes} (hb : ∀ p ∈ parts, c!"|" ∉ p) {ss : List Seg} (h : parsePath (pathOf parts) = .ok ss) : lvl ss ≤ pathLevels parts := by
  unfold parsePath at h
  split at h
  · simp at h
  · rename_i hne
    have hp : parts ≠ [[]] := by rintro rfl; exact hne rfl
    unfold parsePathInternal at h
    rw [splitPath_pathOf parts hp] at h
    split at h
    · simp at h
    · cases hs : parseParts parts with
      | panic => rw [hs] at h; simp at h
      | err => rw [hs] at h; simp at h
      | ok ss0 =>
        rw [hs] at h
        simp only [Parse.ok.injEq] at h
        subst h
        exact Nat.le_trans (fuseFields_lvl ss0) (parseParts_levels hb hs)

theorem lower_levels (s : Seg) : (lowerSeg s).levels = s.levels := by
  unfold lowerSeg
  split <;> simp_all [Seg.levels]

theorem lvl_lower (ss : List Seg) : lvl (ss.map lowerSeg) = lvl ss := by
  unfold lvl; rw [List.map_map]; congr 1; exact List.map_congr_left fun s _ => lower_levels s

theorem parsePathWithOptions_levels {parts : List Bytes} (hb : ∀ p ∈ parts, c!"|" ∉ p) {cs : Bool} {ss : List Seg} (h : parsePathWithOptions (pathOf parts) cs = .ok ss) : lvl ss ≤ pathLevels parts := by
  unfold parsePathWithOptions at h
  split at h
  · rename_i hq
    split at h
    · simp only [Parse.ok.injEq] at h; subst h; exact parsePath_levels hb hq
    · simp only [Parse.ok.injEq] at h; subst h; rw [lvl_lower]; exact parsePath_levels hb hq
  · simp at h
  · simp at h

end Verif
