import Verif.Lemmas.HopsNone
import Verif.Spec.Slots
import Verif.Lemmas.EditOpt
/- The elements Set writes for steps that lead nowhere. -/
namespace Verif
open Spec

/-- What is written for a segment. -/
def Seg.slot (s : Seg) : Option Bytes := if s.isAttr then none else some s.value

theorem newLine_indentAt (ind : Bytes) (d : Nat) : indentAt ind d = newLine ind d := by
  unfold indentAt newLine repeatB
  cases ind <;> simp

theorem build_slots (ind w : Bytes) (ss : List Seg) (h0 : ss ≠ []) (hl : ∀ s, ss.getLast? = some s → s.isAttr = false) (d : Nat) :
    buildPathFrom ind w d ss = slotLines ind d (ss.map Seg.slot) w := by
  induction ss generalizing d with
  | nil => exact absurd rfl h0
  | cons s ss ih =>
    rw [buildPathFrom]
    cases ss with
    | nil =>
      have := hl s rfl
      simp [this, Seg.slot, slotLines, newLine_indentAt, buildPathFrom]
    | cons t ss =>
      have ih := ih (by simp) (fun s hs => hl s (by rw [List.getLast?_cons_cons]; exact hs)) (d + 1)
      rw [ih]
      cases hs : s.isAttr with
      | true => simp [Seg.slot, hs, slotLines]
      | false => simp [Seg.slot, hs, slotLines, newLine_indentAt]

theorem slotLines_ne (ind : Bytes) (d : Nat) {ts : List (Option Bytes)} (h : ∃ n, some n ∈ ts) (w : Bytes) : slotLines ind d ts w ≠ [] := by
  induction ts generalizing d with
  | nil => simp at h
  | cons t ts ih =>
    cases t with
    | none => rw [slotLines]; exact ih _ (by simpa using h)
    | some n => simp [slotLines]

/-- Names alone: the plain chain. -/
theorem slotLines_names (ind : Bytes) (d : Nat) (ns : List Bytes) (w : Bytes) : slotLines ind d (ns.map some) w = chainLines ind d ns w := by
  induction ns generalizing d with
  | nil => rfl
  | cons n ns ih => simp [slotLines, chainLines, ih]

theorem createInParent_any (ind : Bytes) {o : Ord} (ho : o.IsPerm) {c : Ctx} {e : El} (h : Editable (c.plug (e.cons .nil))) {l : Loc} (hl : LocOK l c.before.length e) :
    ∃ as ws, Opened e as ws ∧ ∀ (rest : List Seg) (w : Bytes),
      createInParent o ind (c.plug (e.cons .nil)).render l rest w =
        .ok (c.before ++ (openTag e.name as ws ++ b!">" ++ e.inner ++ buildElementPath ind rest w ++ closeTag e.name []) ++ c.after) := by
  have hg := editable_el h
  obtain ⟨ha, hfit⟩ := el_attrs hg.legal hg.tame
  unfold createInParent
  rw [plug_el_render]
  cases hb : e.body with
  | none =>
    simp only [show l.selfClosing = true by rw [hl.self, hb]; rfl, if_true]
    generalize hdd : List.drop l.contentStart.toNat _ = dd
    have hp : (o dd l.attrs).Perm (attrMap e.attrs) := (ho dd l.attrs).trans hl.attrs
    obtain ⟨p1, p2, p3, p4⟩ := perm_legal hp ha hfit
    refine ⟨(o dd l.attrs).map canonAttr, [], ⟨fun hh => absurd hb hh, fun _ => ⟨p3, rfl, p4, p1, p2⟩⟩, fun rest w => ?_⟩
    have e1 : c.before ++ e.start ++ e.inner ++ e.stop ++ c.after = c.before ++ e.start ++ c.after := by simp [El.inner, El.stop, hb]
    rw [e1, splice_at hl.start (by rw [hl.cend]; simp [El.inner, hb]), writeAttrs_eq, hl.name]
    simp [expanded, El.inner, openTag, closeTag, hb]
  | some q =>
    obtain ⟨k, cws⟩ := q
    have hcws : cws = [] := by
      have := hg.stable
      rw [El.cons, hb] at this
      exact this.1
    subst hcws
    simp only [show l.selfClosing = false by rw [hl.self, hb]; rfl, Bool.false_eq_true, if_false]
    refine ⟨e.attrs, e.ws, ⟨fun _ => ⟨rfl, rfl⟩, fun hh => by rw [hb] at hh; simp at hh⟩, fun rest w => ?_⟩
    have e1 : c.before ++ e.start ++ e.inner ++ e.stop ++ c.after = (c.before ++ e.start ++ e.inner) ++ [] ++ (e.stop ++ c.after) := by simp
    rw [e1, splice_at (by rw [hl.cend]; simp; omega) (by rw [hl.cend]; simp; omega)]
    simp [El.start, El.inner, El.stop, hb]

/-! ### the slots of parts -/

theorem identifier_iff {f : Bytes} : isValidIdentifier f = true ↔ Identifier f := by
  constructor
  · intro h
    cases f with
    | nil => simp [isValidIdentifier] at h
    | cons c cs =>
      simp only [isValidIdentifier, isAlpha, isDigit, Bool.and_eq_true, Bool.or_eq_true, decide_eq_true_eq, List.all_eq_true] at h
      refine ⟨c, cs, rfl, ?_, fun x hx => ?_⟩
      · rcases h.1 with (h | h) | h
        · exact .inl (.inr h)
        · exact .inl (.inl h)
        · exact .inr h
      · rcases h.2 x hx with (((((h | h) | h) | h) | h)) | h <;> simp [h]
  · exact identifier_ok

theorem not_identifier {c : UInt8} {cs : Bytes} (h : ¬ (((65 ≤ c ∧ c ≤ 90) ∨ (97 ≤ c ∧ c ≤ 122)) ∨ c = c!"_")) : ¬ Identifier (c :: cs) := by
  rintro ⟨d, ds, e, h1, _⟩
  injection e with e _
  subst e
  exact h h1

theorem joined_iff {s t : Seg} : (∃ x, joined s t = some x) ↔ s.kind = .count ∧ ∃ f, fieldOf t.kind = some f ∧ isValidFieldName f = true ∧ f.length ≤ 256 := by
  unfold joined
  by_cases h : s.kind = .count
  · rw [if_pos h]
    cases hf : fieldOf t.kind with
    | none => simp
    | some f =>
      have hm : maxFieldNameLength = 256 := rfl
      simp only [h, true_and, Option.some.injEq, exists_eq_left', ← hm]
      by_cases hv : (isValidFieldName f && decide (f.length ≤ maxFieldNameLength)) = true
      · rw [if_pos hv]; simp only [Bool.and_eq_true, decide_eq_true_eq] at hv; simp [hv]
      · rw [if_neg hv]; simp only [Bool.and_eq_true, decide_eq_true_eq] at hv; simp [hv]
  · rw [if_neg h]; simp [h]

theorem field_collected {q : Bytes} {t : Seg} (ht : IsSeg q t) : (∃ f, fieldOf t.kind = some f ∧ isValidFieldName f = true ∧ f.length ≤ 256) ↔ Collected q := by
  by_cases hf : b!"#(" <+: q
  · obtain ⟨f, all, hk⟩ := isSeg_filter ht hf
    have hb := (prefix_beforeBar (z := b!"#(") (by decide)).mp hf
    obtain ⟨u, hu⟩ := hb
    rw [hk]
    simp only [fieldOf, Collected]
    constructor
    · rintro ⟨f, h, _⟩; cases h
    · rw [← hu]
      rintro (h | ⟨h, _⟩ | ⟨a, h, _⟩)
      · simp at h
      · exact absurd h (not_identifier (by decide))
      · simp at h
  · obtain ⟨h0, hk⟩ := isSeg_not_filter ht hf
    unfold Collected
    generalize beforeBar q = v at hk
    split at hk
    · rename_i h1
      cases v with
      | nil => simp [hasPrefix] at h1
      | cons c a =>
        have : c = c!"@" := by simp [hasPrefix] at h1; exact h1.symm
        subst this
        rw [hk]
        simp only [fieldOf, List.drop_succ_cons, List.drop_zero, Option.some.injEq, exists_eq_left', isValidFieldName, List.cons.injEq, true_and]
        constructor
        · rintro ⟨h2, h3⟩
          right; right
          refine ⟨?_, by simp at h3; omega⟩
          rw [if_neg (by simp)] at h2
          simp only [if_true] at h2
          split at h2
          · cases h2
          · exact identifier_iff.mp h2
        · rintro (h | ⟨h, _⟩ | ⟨h2, h3⟩)
          · simp at h
          · exact absurd h (not_identifier (by decide))
          · refine ⟨?_, by simp; omega⟩
            rw [if_neg (by simp)]
            simp only [if_true]
            rw [if_neg (by obtain ⟨c, cs, e, _⟩ := h2; simp [e])]
            exact identifier_iff.mpr h2
    · rename_i h1
      split at hk
      · rename_i h2
        rw [hk, h2]
        simp [fieldOf, isValidFieldName]
      · rename_i h2
        have hat : ∀ a, v ≠ c!"@" :: a := by rintro a rfl; simp [hasPrefix] at h1
        have key : (∀ f, fieldOf t.kind ≠ some f) → ¬ Identifier v → ((∃ f, fieldOf t.kind = some f ∧ isValidFieldName f = true ∧ f.length ≤ 256) ↔
            v = b!"%" ∨ (Identifier v ∧ v.length ≤ 256) ∨ ∃ a, v = c!"@" :: a ∧ Identifier a ∧ a.length < 256) := by
          intro k1 k2
          constructor
          · rintro ⟨f, h, _⟩; exact absurd h (k1 f)
          · rintro (h | ⟨h, _⟩ | ⟨a, h, _⟩)
            · exact absurd h h2
            · exact absurd h k2
            · exact absurd h (hat a)
        split at hk
        · rename_i h3; exact key (by rw [hk]; simp [fieldOf]) (by rw [h3]; exact not_identifier (by decide))
        split at hk
        · rename_i h3; exact key (by rw [hk]; simp [fieldOf]) (by rw [h3]; exact not_identifier (by decide))
        split at hk
        · rename_i h3; exact key (by rw [hk]; simp [fieldOf]) (by rw [h3]; exact not_identifier (by decide))
        split at hk
        · rename_i h3
          refine key (by rw [hk]; simp [fieldOf]) ?_
          cases v with
          | nil => rintro ⟨c, cs, e, _⟩; cases e
          | cons c cs =>
            simp only [isNumeric, Bool.and_eq_true, List.all_eq_true, Bool.or_eq_true, decide_eq_true_eq, isDigit] at h3
            refine not_identifier ?_
            have := h3.2 c (by simp)
            rcases this with h | h
            · rintro ((h4 | h4) | h4)
              · exact absurd (UInt8.le_trans h4.1 h.2) (by decide)
              · exact absurd (UInt8.le_trans h4.1 h.2) (by decide)
              · subst h4; exact absurd h (by decide)
            · have h := h.1; subst h; decide
        · rw [hk]
          simp only [fieldOf, Option.some.injEq, exists_eq_left']
          have hv : isValidFieldName v = isValidIdentifier v := by
            unfold isValidFieldName
            cases v with
            | nil => rfl
            | cons c cs =>
              simp only
              rw [if_neg h2, if_neg (by rintro rfl; exact hat cs rfl)]
          rw [hv, identifier_iff]
          constructor
          · intro h; exact .inr (.inl h)
          · rintro (h | h | ⟨a, h, _⟩)
            · exact absurd h h2
            · exact h
            · exact absurd h (hat a)

theorem joined_collected {p q : Bytes} {s t : Seg} (hs : IsSeg p s) (ht : IsSeg q t) : (∃ x, joined s t = some x) ↔ beforeBar p = b!"#" ∧ Collected q := by
  rw [joined_iff, field_collected ht, (isSeg_kind hs).2.1]

theorem slot_low_name {cs : Bool} {p : Bytes} {s : Seg} (h : IsSeg p s) (hn : NameStep p) : (lowIf cs s).slot = some (spelling cs (beforeBar p)) := by
  obtain ⟨n, hk⟩ := (isSeg_kind h).2.2.1.mp hn
  have := (isSeg_kind h).2.2.2.1 n hk
  subst this
  obtain ⟨k, m⟩ := s
  simp only at hk
  subst hk
  cases cs <;> simp [lowIf, lowerSeg, Seg.slot, Seg.isAttr, Seg.value, spelling, ← foldCase_eq]

theorem slot_low_attr {cs : Bool} {s : Seg} : (lowIf cs s).slot = none ↔ ∃ a, s.kind = .attr a := by
  rw [← (lowIf_kind cs s).1]
  unfold Seg.slot Seg.isAttr
  generalize (lowIf cs s).kind = k
  cases k <;> simp

theorem slot_low_other {cs : Bool} {s : Seg} (h1 : ¬ ∃ n, s.kind = .elem n) (h2 : ¬ ∃ a, s.kind = .attr a) : (lowIf cs s).slot = some [] := by
  obtain ⟨k, m⟩ := s
  cases k with
  | elem n => exact absurd ⟨n, rfl⟩ h1
  | attr n => exact absurd ⟨n, rfl⟩ h2
  | _ => cases cs <;> rfl

theorem slots_parts (cs : Bool) {ps : List Bytes} {ss : List Seg} (h : All2 IsSeg ps ss) {ts : List (Option Bytes)} (hts : Slots cs ps ts) :
    ((fuseFields ss).map (lowIf cs)).map Seg.slot = ts := by
  induction hts generalizing ss with
  | nil => cases h; rfl
  | @collect p q ps ts hp hq _ ih =>
    cases h with | @cons _ s _ ss h1 h => cases h with | @cons _ t _ ss h2 h =>
    obtain ⟨x, hx⟩ := (joined_collected h1 h2).mpr ⟨hp, hq⟩
    rw [fuse_cons2, hx]
    obtain ⟨_, ⟨f, _, rfl⟩, _⟩ := joined_facts hx
    simp only [List.map_cons, ih h]
    rw [slot_low_other (by simp) (by simp)]
  | @name p ps ts hp _ ih =>
    cases h with | @cons _ s _ ss h1 h =>
    have : fuseFields (s :: ss) = s :: fuseFields ss := by
      cases ss with
      | nil => rfl
      | cons t ss =>
        rw [fuse_cons2]
        cases hj : joined s t with
        | none => rfl
        | some x =>
          have := (joined_facts hj).1
          obtain ⟨n, hk⟩ := (isSeg_kind h1).2.2.1.mp hp
          rw [hk] at this; cases this
    rw [this, List.map_cons, List.map_cons, ih h, slot_low_name h1 hp]
  | @attr p ps ts hp _ ih =>
    cases h with | @cons _ s _ ss h1 h =>
    obtain ⟨n, hk⟩ := (isSeg_kind h1).1.mp hp
    have : fuseFields (s :: ss) = s :: fuseFields ss := by
      cases ss with
      | nil => rfl
      | cons t ss =>
        rw [fuse_cons2]
        cases hj : joined s t with
        | none => rfl
        | some x =>
          have := (joined_facts hj).1
          rw [hk] at this; cases this
    rw [this, List.map_cons, List.map_cons, ih h, slot_low_attr.mpr ⟨n, hk⟩]
  | @other p ps ts g1 g2 g3 _ ih =>
    cases h with | @cons _ s _ ss h1 h =>
    have : fuseFields (s :: ss) = s :: fuseFields ss := by
      cases h with
      | nil => rfl
      | @cons q t ps ss h2 h =>
        rw [fuse_cons2]
        cases hj : joined s t with
        | none => rfl
        | some x => exact absurd ((joined_collected h1 h2).mp ⟨x, hj⟩) (fun hh => g3 ⟨hh.1, q, rfl, hh.2⟩)
    rw [this, List.map_cons, List.map_cons, ih h, slot_low_other (fun hh => g1 ((isSeg_kind h1).2.2.1.mpr hh)) (fun hh => g2 ((isSeg_kind h1).1.mpr hh))]

/-! ### where they are written -/

theorem editable_goto {o : Ord} (ho : o.IsPerm) {c : Ctx} {e : El} (h : Editable (c.plug (e.cons .nil))) (cs : Bool) :
    ∃ l, goto o cs (Ctx.places c) [] (c.plug (e.cons .nil)).render 0 = some l ∧ LocOK l c.before.length e := by
  have hL := stepsOf_leads c e.name
  obtain ⟨ss, hss⟩ := stepSegs_some (stepsOf c e.name)
  obtain ⟨l, h1, h2⟩ := editable_findLocB (cs := true) ho hss (leads_leadsBy.mp hL) h
  refine ⟨l, ?_, h2⟩
  rw [goto_case o cs true, ← findLoc_goto (stepSegs_hops hss) (leadsBy_reach.mp (leads_leadsBy.mp hL)) (sound_along ho (editable_sound h)) fresh_nil 0, List.append_nil]
  exact h1

/-- Set where the longest part of the path that is found leads to this element. -/
theorem setElement_slots {o : Ord} (ho : o.IsPerm) (ind : Bytes) {cs : Bool} {c : Ctx} {e : El} (h : Editable (c.plug (e.cons .nil))) {hs : List Hop} {ss r : List Seg}
    (h1 : HopSegs cs hs ss) (r1 : Reach cs hs c e.name) (hr : r ≠ []) (hn : ∀ t, 0 < t → findLoc o cs (ss ++ r.take t) (c.plug (e.cons .nil)).render 0 = none)
    (hi : indexIntent r = none) (hla : ∀ s a, r.getLast? = some s → s.kind ≠ .attr a) :
    ∃ as ws, Opened e as ws ∧ ∀ (v : GoVal) (w : Bytes), valueToXML v = some w → w.length ≤ 5242880 →
      setElement o cs ind (c.plug (e.cons .nil)).render (ss ++ r) v =
        .ok (c.before ++ (openTag e.name as ws ++ b!">" ++ e.inner ++ slotLines ind 0 (r.map Seg.slot) w ++ closeTag e.name []) ++ c.after) := by
  have hsnd := editable_sound h
  have h0 : hs ≠ [] := by rintro rfl; simp [Reach] at r1
  have hpl := hopSegs_plainly h1 h0
  obtain ⟨l, hl, hok⟩ := editable_goto ho h cs
  have hf := findLoc_goto h1 r1 (sound_along ho hsnd) fresh_nil 0
  rw [List.append_nil, hl] at hf
  obtain ⟨as, ws, ho1, ho2⟩ := createInParent_any ind ho h hok
  refine ⟨as, ws, ho1, fun v w hv hw => ?_⟩
  unfold setElement
  have hin := hpl.intent r
  rw [hi] at hin
  have hlast : (ss ++ r).getLast? = r.getLast? := by
    cases hz : r.getLast? with
    | none => exact absurd (List.getLast?_eq_none_iff.mp hz) hr
    | some z => obtain ⟨r', rfl⟩ := List.getLast?_eq_some_iff.mp hz; rw [← List.append_assoc]; simp
  rw [hlast]
  have hd := docMax
  have hnr : findLoc o cs (ss ++ r) (c.plug (e.cons .nil)).render 0 = none := by
    have := hn r.length (List.length_pos_iff.mpr hr)
    rwa [List.take_length] at this
  cases hz : r.getLast? with
  | none => exact absurd (List.getLast?_eq_none_iff.mp hz) hr
  | some z =>
    have hcr : createElement o cs ind (c.plug (e.cons .nil)).render (ss ++ r) w =
        .ok (c.before ++ (openTag e.name as ws ++ b!">" ++ e.inner ++ slotLines ind 0 (r.map Seg.slot) w ++ closeTag e.name []) ++ c.after) := by
      have hnem := render_ne h.2.2.2.1
      have hss0 : 0 < ss.length := List.length_pos_iff.mpr hpl.ne
      have hrl : 0 < r.length := List.length_pos_iff.mpr hr
      unfold createElement
      rw [if_neg (by simpa using hnem), deepestParent_atB (j := ss.length) (l := l) hss0 (by simp; omega)]
      · simp only [List.drop_left]
        rw [ho2, buildElementPath, build_slots ind w r hr (fun s hs => by
          have := hla s
          unfold Seg.isAttr
          cases hk : s.kind with
          | attr a => exact absurd hk (this a hs)
          | _ => rfl)]
      · rw [List.take_left]; exact hf
      · intro i g1 g2
        obtain ⟨t, rfl⟩ : ∃ t, i = ss.length + (t + 1) := ⟨i - ss.length - 1, by omega⟩
        rw [List.take_length_add_append]
        exact hn (t + 1) (by omega)
    simp only [hv, hin]
    rw [if_neg (by simp [maxValueSize]; omega), if_neg (by have := h.1; omega), hnr]
    cases hk1 : z.kind with
    | attr a => exact absurd hk1 (hla z a hz)
    | _ => exact hcr

/-- Steps that lead nowhere in the content of an element. -/
theorem missing_none {o : Ord} {cs : Bool} {i : Info} {rest : List Bytes} (hm : Missing cs i rest) {rs : List Seg} (ha : All2 IsSeg rest rs) :
    ((fuseFields rs).map (lowIf cs) ≠ []) ∧ Fresh ((fuseFields rs).map (lowIf cs)) ∧
      ∀ t, 0 < t → ∀ data base, Reads o data i → findLoc o cs (((fuseFields rs).map (lowIf cs)).take t) data base = none := by
  have head : ∀ (s : Seg) (r : List Seg), (∀ data, Reads o data i → (topElems o data).filter (fun e => s.matchesOpt e.name cs) = []) →
      ∀ t, 0 < t → ∀ data base, Reads o data i → findLoc o cs ((s :: r).take t) data base = none := by
    intro s r hs t ht data base hrd
    obtain ⟨t, rfl⟩ : ∃ u, t = u + 1 := ⟨t - 1, by omega⟩
    rw [List.take_succ_cons, findLoc]
    have := hs data hrd
    rw [this]
    split
    · rfl
    · cases r.take t with
      | nil => rfl
      | cons t b => cases hk : t.kind <;> simp [hk]
  cases hm with
  | @blind p ps hb =>
    cases ha with | @cons _ s _ rs h1 h2 =>
    obtain ⟨x, r, e, hx⟩ : ∃ x r, fuseFields (s :: rs) = x :: r ∧ Never cs (lowIf cs x) := by
      cases rs with
      | nil => exact ⟨s, [], rfl, (isSeg_blind h1 hb).1⟩
      | cons t rs =>
        rw [fuse_cons2]
        cases hj : joined s t with
        | none => exact ⟨s, _, rfl, (isSeg_blind h1 hb).1⟩
        | some x =>
          obtain ⟨_, ⟨f, _, rfl⟩, _⟩ := joined_facts hj
          exact ⟨_, _, rfl, never_kind.mpr (by cases cs <;> simp [lowIf, lowerSeg])⟩
    rw [e, List.map_cons]
    refine ⟨by simp, ?_, head _ _ (fun data _ => by simp [hx.no])⟩
    intro s i hs; simp at hs; subst hs; exact hx.index i
  | @nobody p k ps hk h0 =>
    cases ha with | @cons _ s _ rs h1 h2 =>
    have hq := lowIf_asks (cs := cs) h1 hk
    have hc : s.kind ≠ .count := (lowIf_asks (cs := true) h1 hk).count
    rw [fuseFields_cons hc, List.map_cons]
    refine ⟨by simp, ?_, head _ _ (fun data hrd => ?_)⟩
    · intro s i hs; simp at hs; subst hs; exact hq.index i
    · have h3 := picked_rep (cs := cs) (k := k) hrd
      rw [Info.count, List.length_eq_zero_iff] at h0
      rw [h0] at h3
      cases hz : (topElems o data).filter (fun e => k.takes cs e.name) with
      | nil => rw [← hz]; congr 1; funext x; exact hq.takes x.name
      | cons => rw [hz] at h3; cases h3

theorem el_node_kids (e : El) : e.node.kids = e.kids.info := by
  obtain ⟨n, as, ws, b⟩ := e
  cases b <;> rfl

theorem hopSegs_append {cs : Bool} {hs ht : List Hop} {ss tt : List Seg} (h1 : HopSegs cs hs ss) (h2 : HopSegs cs ht tt) : HopSegs cs (hs ++ ht) (ss ++ tt) := by
  induction h1 with
  | nil => exact h2
  | first hp _ ih => exact .first hp ih
  | nth hp hd _ ih => exact .nth hp hd ih

/-- Reading a path with a position. -/
theorem parse_position {path : Bytes} {ps rest : List Bytes} {q d : Bytes} (h : PathSteps path (ps ++ q :: d :: rest)) {hs : List Hop} (hh : HopParts hs ps) {k : Pick} (hq : Asks q k) {j : Nat}
    (hd : Decimal (beforeBar d) j) (hj : j < 2 ^ 63) (cs : Bool) :
    ∃ ss s t rs, HopSegs cs hs ss ∧ SegAsks cs s k ∧ t.kind = .index (j : Int) ∧ All2 IsSeg (d :: rest) rs ∧
      (fuseFields rs).map (lowIf cs) = t :: (fuseFields rs.tail).map (lowIf cs) ∧ All2 IsSeg rest rs.tail ∧
      parsePathWithOptions path cs = .ok (ss ++ s :: (fuseFields rs).map (lowIf cs)) := by
  obtain ⟨segs, h1, h2⟩ := parseOpt_reads h (by simp) cs
  obtain ⟨ss, rs, rfl, h3, h4⟩ := all2_split h2
  cases h4 with | @cons _ s _ rs h5 h4 => cases h4 with | @cons _ t _ rs h6 h4 =>
  have hc : ∀ x ∈ ss, x.kind ≠ .count := by
    have := hopSegs_count (hopParts_segs (cs := true) hh h3)
    rw [show ss.map (lowIf true) = ss by rw [show lowIf true = id from rfl, List.map_id]] at this
    exact this
  have hsc : s.kind ≠ .count := (lowIf_asks (cs := true) h5 hq).count
  have htk := isSeg_decimal h6 hd hj
  have htl : lowIf cs t = t := by
    obtain ⟨k, m⟩ := t
    simp only at htk; subst htk
    cases cs <;> rfl
  refine ⟨ss.map (lowIf cs), lowIf cs s, t, t :: rs, hopParts_segs hh h3, lowIf_asks h5 hq, htk, .cons h6 h4, ?_, h4, ?_⟩
  · rw [fuseFields_cons (by rw [htk]; simp), List.map_cons, htl]; rfl
  · rw [h1, fuse_left _ _ hc, fuseFields_cons hsc, List.map_append, List.map_cons]

/-! ### at the top -/

/-- Set where the first segment is satisfied by no element: in the first element of the document. -/
theorem setElement_root {o : Ord} (ho : o.IsPerm) (ind : Bytes) {cs : Bool} {b a : Forest} {e : El} (h : Editable ((Ctx.here b a).plug (e.cons .nil))) (hb : b.info.elems = [])
    {s : Seg} {r : List Seg} (hs : ∀ x, s.matchesOpt x cs = false) (hs2 : ∀ n, s.kind ≠ .elem n)
    (hi : indexIntent (s :: r) = none) (hla : ∀ t a, (s :: r).getLast? = some t → t.kind ≠ .attr a) :
    ∃ as ws, Opened e as ws ∧ ∀ (v : GoVal) (w : Bytes), valueToXML v = some w → w.length ≤ 5242880 →
      setElement o cs ind ((Ctx.here b a).plug (e.cons .nil)).render (s :: r) v =
        .ok (b.render ++ (openTag e.name as ws ++ b!">" ++ e.inner ++ slotLines ind 0 ((s :: r).map Seg.slot) w ++ closeTag e.name []) ++ a.render) := by
  have hsnd := editable_sound h
  obtain ⟨l, hl, hok⟩ := editable_goto ho h cs
  have hw1 : HopSegs cs [(.any, 0)] [⟨.wild false, []⟩] := .first ⟨fun _ => rfl, by simp, by simp, by simp⟩ .nil
  have hf := findLoc_goto hw1 (c := .here b a) (x := e.name) ⟨rfl, by simp [Info.count, hb]⟩ (sound_along ho hsnd) fresh_nil 0
  rw [List.append_nil, hl] at hf
  obtain ⟨as, ws, ho1, ho2⟩ := createInParent_any ind ho h hok
  refine ⟨as, ws, ho1, fun v w hv hw => ?_⟩
  generalize hdata : ((Ctx.here b a).plug (e.cons .nil)).render = data at *
  have hnone : ∀ t, findLoc o cs (s :: r.take t) data 0 = none := by
    intro t
    rw [findLoc]
    have : (topElems o data).filter (fun e => s.matchesOpt e.name cs) = [] := by simp [hs]
    rw [this]
    split
    · rfl
    · cases r.take t with
      | nil => rfl
      | cons t b => cases hk : t.kind <;> simp [hk]
  have hnr := hnone r.length
  rw [List.take_length] at hnr
  have hd := docMax
  have hlen : data.length ≤ 10485760 := by rw [← hdata]; exact h.1
  have hnem : data ≠ [] := by rw [← hdata]; exact render_ne h.2.2.2.1
  have hcr : createElement o cs ind data (s :: r) w =
      .ok (b.render ++ (openTag e.name as ws ++ b!">" ++ e.inner ++ slotLines ind 0 ((s :: r).map Seg.slot) w ++ closeTag e.name []) ++ a.render) := by
    unfold createElement
    rw [if_neg (by simpa using hnem), deepestParent_noneB (by
      intro i g1 g2
      obtain ⟨t, rfl⟩ : ∃ t, i = t + 1 := ⟨i - 1, by omega⟩
      exact hnone t)]
    simp only
    have hcp := ho2 (s :: r) w
    rw [buildElementPath, build_slots ind w (s :: r) (by simp) (fun t ht => by
        have := hla t
        unfold Seg.isAttr
        cases hk : t.kind with
        | attr a => exact absurd hk (this a ht)
        | _ => rfl)] at hcp
    rw [show (Ctx.here b a).before = b.render from rfl, show (Ctx.here b a).after = a.render from rfl] at hcp
    rw [← hcp]
    rw [findLoc, if_neg (by rw [maxPos]; omega)] at hf
    have hall : (topElems o data).filter (fun e => (⟨.wild false, []⟩ : Seg).matchesOpt e.name cs) = topElems o data := by simp [Seg.matchesOpt]
    rw [hall] at hf
    unfold createInRoot
    have hsib : (match s.kind with | .elem t => shouldCreateSiblingRoot o data t | _ => false) = false := by
      cases hk : s.kind with
      | elem n => exact absurd hk (hs2 n)
      | _ => rfl
    simp only [hsib, Bool.false_eq_true, if_false]
    cases htop : topElems o data with
    | nil => rw [htop] at hf; cases hf
    | cons e0 tl =>
      rw [htop] at hf
      simp only [List.head?_cons, Option.map_some, Option.some.injEq] at hf
      subst hf
      simp only
      rw [if_neg (hs2 e0.name), if_neg (by simp)]
      unfold createInParent
      have h1 : (locOf data 0 e0).selfClosing = e0.selfClosing := rfl
      have h2 : (locOf data 0 e0).name = e0.name := rfl
      have h3 : (locOf data 0 e0).attrs = e0.attrs := rfl
      rw [h1, h2, h3]
      split
      · rename_i hsc
        have : (locOf data 0 e0).contentEnd = (locOf data 0 e0).contentStart := by
          have hself := hok.self
          rw [h1, hsc] at hself
          rw [hok.cend, hok.cstart]
          have : e.inner = [] := by
            obtain ⟨n, as, ws, bd⟩ := e
            cases bd with
            | none => rfl
            | some => simp at hself
          rw [this]; simp
        rw [this]
      · rfl
  unfold setElement
  cases hz : (s :: r).getLast? with
  | none => simp at hz
  | some z =>
    simp only [hv, hi]
    rw [if_neg (by simp [maxValueSize]; omega), if_neg (by omega), hnr]
    cases hk1 : z.kind with
    | attr a => exact absurd hk1 (hla z a hz)
    | _ => exact hcr

end Verif
