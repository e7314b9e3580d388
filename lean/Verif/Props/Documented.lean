import Verif.Spec.Documented
import Verif.Lemmas.Mods
import Verif.Props.Errors
import Verif.Props.Mods
/- C63: documented features that the code does not have. -/
namespace Verif.Props
open Spec

/-! ## one result -/

/-- Modifiers without effect on anything but lists. -/
def Harmless (env : Env) (names : List Bytes) : Prop := ∀ r : Result, r.typ ≠ .array → applyModifiers env.mods r names = r

theorem harmless_nil (env : Env) : Harmless env [] := fun _ _ => rfl

/-- Segments with at most one result. -/
def OneSeg (env : Env) (s : Seg) : Prop :=
  Harmless env s.mods ∧ (∀ b, s.kind ≠ .wild b) ∧ (∀ f, s.kind ≠ .field f) ∧ ∀ f, s.kind ≠ .filter f true

/-- The segment without its modifiers. -/
def bareSeg (s : Seg) : Seg := ⟨s.kind, []⟩

section
variable {env : Env} {ev : Filter → Elem → Bool}

theorem matches_bare (s : Seg) : (bareSeg s).matches = s.matches := rfl

theorem ofContent_one (c : Bytes) : (Result.ofContent c).typ ≠ .array := by simp [Result.ofContent, Result.typ]
theorem ofAttr_one (c : Bytes) : (Result.ofAttr c).typ ≠ .array := by simp [Result.ofAttr, Result.typ]
theorem ofText_one (c : Bytes) : (Result.ofText c).typ ≠ .array := by simp [Result.ofText, Result.typ]
theorem ofCount_one (n : Nat) : (Result.ofCount n).typ ≠ .array := by simp [Result.ofCount, Result.typ]
theorem null_one : Result.null.typ ≠ .array := by simp [Result.null, Result.typ]

/-- What has to be shown of two results. -/
def SameOne (a b : Result) : Prop := a = b ∧ b.typ ≠ .array

theorem same_null : SameOne .null .null := ⟨rfl, null_one⟩

theorem same_mods {s : Seg} (h : Harmless env s.mods) {r : Result} (hr : r.typ ≠ .array) : SameOne (applyModifiers env.mods r s.mods) (applyModifiers env.mods r []) :=
  ⟨by rw [h r hr]; rfl, hr⟩

theorem firstMatch_one {cur : Seg} {rest : List Seg} {k k' : Bytes → Result} (hc : OneSeg env cur) (hr : ∀ s ∈ rest, OneSeg env s) (hk : ∀ x, SameOne (k x) (k' x)) (ms : List Elem) :
    SameOne (firstMatch env cur rest k ms) (firstMatch env (bareSeg cur) (rest.map bareSeg) k' ms) := by
  induction ms with
  | nil => exact same_null
  | cons m ms ih =>
    match rest, hr with
    | [], _ => exact same_mods hc.1 (ofContent_one _)
    | nxt :: rest2, hr =>
      have hn := hr nxt (by simp)
      have hkk := hk m.content
      simp only [firstMatch, List.map_cons, bareSeg] at ih ⊢
      cases hkind : nxt.kind <;> simp only [hkind] at ih ⊢
      case attr a =>
        cases Attrs.get? a m.attrs with
        | none => exact same_null
        | some v =>
          simp only [List.isEmpty_map]
          split
          · exact same_mods hn.1 (ofAttr_one _)
          · exact same_null
      case text => exact same_mods hn.1 (ofText_one _)
      all_goals
        rw [hkk.1]
        split
        · exact ih
        · exact ⟨rfl, hkk.2⟩

theorem arrayOp_one {nxt : Seg} {rest : List Seg} {k k' : Bytes → Result} (hn : OneSeg env nxt) (hr : ∀ s ∈ rest, OneSeg env s) (hk : ∀ x, SameOne (k x) (k' x)) (ms : List Elem) :
    SameOne (arrayOp env ms nxt rest k) (arrayOp env ms (bareSeg nxt) (rest.map bareSeg) k') := by
  unfold arrayOp
  split
  · exact same_null
  · simp only [bareSeg]
    cases hkind : nxt.kind <;> simp only <;> try exact same_null
    case count => exact same_mods hn.1 (ofCount_one _)
    case index i =>
      split
      · exact same_null
      · cases ms[i.toNat]? with
        | none => exact same_null
        | some m =>
          match rest, hr with
          | [], _ => exact same_mods hn.1 (ofContent_one _)
          | s :: rest3, hr =>
            have hs := hr s (by simp)
            simp only [List.map_cons, bareSeg]
            cases hsk : s.kind <;> simp only
            case attr a =>
              cases Attrs.get? a m.attrs with
              | none => exact same_null
              | some v =>
                simp only [List.isEmpty_map]
                split
                · exact same_mods hs.1 (ofAttr_one _)
                · exact ⟨rfl, ofAttr_one _⟩
            all_goals exact hk _

theorem fragment_one {nxt : Seg} {rest : List Seg} {k k' : Bytes → Result} (hn : OneSeg env nxt) (hk : ∀ x, SameOne (k x) (k' x)) (ms : List Elem) :
    SameOne (fragmentRoots env ms nxt rest k) (fragmentRoots env ms (bareSeg nxt) (rest.map bareSeg) k') := by
  unfold fragmentRoots
  split
  · exact same_null
  · simp only [bareSeg]
    cases hkind : nxt.kind <;> simp only <;> try exact same_null
    case field f => exact absurd hkind (hn.2.2.1 f)
    case count => exact ⟨rfl, ofCount_one _⟩
    case index i =>
      split
      · exact same_null
      · cases ms[i.toNat]? with
        | none => exact same_null
        | some m =>
          cases rest with
          | nil => exact ⟨rfl, ofContent_one _⟩
          | cons s rest3 =>
            simp only [List.map_cons, bareSeg]
            cases hsk : s.kind <;> simp only
            case attr a =>
              cases Attrs.get? a m.attrs with
              | none => exact same_null
              | some v => exact ⟨rfl, ofAttr_one _⟩
            case text => exact ⟨rfl, ofText_one _⟩
            all_goals exact hk _

theorem route_one {seg : Seg} {rest : List Seg} {k k' : Bytes → Result} (hs : OneSeg env seg) (hr : ∀ s ∈ rest, OneSeg env s) (hk : ∀ x, SameOne (k x) (k' x)) (ms : List Elem) :
    SameOne (routeFilter env ms seg false rest k) (routeFilter env ms (bareSeg seg) false (rest.map bareSeg) k') := by
  unfold routeFilter
  cases ms with
  | nil => exact same_null
  | cons m ms =>
    simp only [Bool.false_eq_true, if_false, processFirst]
    match rest, hr with
    | [], _ => exact same_mods hs.1 (ofContent_one _)
    | nxt :: rest2, hr =>
      have hn := hr nxt (by simp)
      simp only [List.map_cons, bareSeg]
      cases hkind : nxt.kind <;> simp only
      case attr a =>
        cases Attrs.get? a m.attrs with
        | none => exact same_null
        | some v => exact same_mods hn.1 (ofAttr_one _)
      case text => exact same_mods hn.1 (ofText_one _)
      case field f => exact absurd hkind (hn.2.2.1 f)
      all_goals exact hk _

theorem body_one {cur : Seg} {rest : List Seg} {root : Bool} {k1 k2 k1' k2' : Bytes → Result} (hc : OneSeg env cur) (hr : ∀ s ∈ rest, OneSeg env s)
    (h1 : ∀ x, SameOne (k1 x) (k1' x)) (h2 : ∀ x, SameOne (k2 x) (k2' x)) (xml : Bytes) :
    SameOne (execBody env ev root cur rest k1 k2 xml) (execBody env ev root (bareSeg cur) (rest.map bareSeg) k1' k2' xml) := by
  unfold execBody
  cases hkind : cur.kind <;> simp only [bareSeg, hkind] <;> try exact same_null
  case field f => exact absurd hkind (hc.2.2.1 f)
  case wild b => exact absurd hkind (hc.2.1 b)
  case filter f all =>
    cases all with
    | true => exact absurd hkind (hc.2.2.2 f)
    | false =>
      have := route_one (rest := rest) hc hr h1 (List.take maxWildcardResults (List.filter (ev f) (topElems env.ord xml)))
      simpa only [bareSeg, hkind] using this
  case elem v =>
    match rest, hr with
    | [], _ =>
      simp only [isFragmentQuery, Bool.and_false, Bool.false_eq_true, if_false, List.map_nil, execElem]
      have := firstMatch_one (rest := []) hc (by simp) h1 (List.filter (fun e => cur.matches e.name) (topElems env.ord xml))
      simpa only [bareSeg, hkind, List.map_nil, Seg.matches] using this
    | nxt :: rest2, hr =>
      have hn := hr nxt (by simp)
      have hr2 : ∀ s ∈ rest2, OneSeg env s := fun s hs => hr s (by simp [hs])
      have hf : isFragmentQuery root (List.map bareSeg (nxt :: rest2)) = isFragmentQuery root (nxt :: rest2) := rfl
      rw [hf]
      rcases Bool.eq_false_or_eq_true (isFragmentQuery root (nxt :: rest2)) with hroot | hroot <;> simp only [hroot, if_true, Bool.false_eq_true, if_false, List.map_cons, bareSeg]
      · exact fragment_one hn h2 _
      · simp only [execElem]
        have hm : ∀ e : Elem, (⟨.elem v, []⟩ : Seg).matches e.name = cur.matches e.name := fun e => by simp [Seg.matches, hkind]
        simp only [hm]
        have hfm := firstMatch_one (rest := nxt :: rest2) hc hr h1 (List.filter (fun e => cur.matches e.name) (topElems env.ord xml))
        simp only [bareSeg, hkind, List.map_cons] at hfm
        cases hnk : nxt.kind <;> simp only [hnk] at hfm ⊢
        case field f => exact absurd hnk (hn.2.2.1 f)
        case filter f all =>
          cases all with
          | true => exact absurd hnk (hn.2.2.2 f)
          | false =>
            have := route_one (rest := rest2) hn hr2 h2 (List.filter (ev f) (List.take maxWildcardResults (List.filter (fun e => cur.matches e.name) (topElems env.ord xml))))
            simpa only [bareSeg, hnk] using this
        case index i =>
          have := arrayOp_one (rest := rest2) hn hr2 h2 (List.take maxWildcardResults (List.filter (fun e => cur.matches e.name) (topElems env.ord xml)))
          simpa only [bareSeg, hnk] using this
        case count =>
          have := arrayOp_one (rest := rest2) hn hr2 h2 (List.take maxWildcardResults (List.filter (fun e => cur.matches e.name) (topElems env.ord xml)))
          simpa only [bareSeg, hnk] using this
        all_goals exact hfm

theorem exec_one : ∀ (segs : List Seg) (_ : ∀ s ∈ segs, OneSeg env s) (root : Bool) (xml : Bytes), SameOne (execQ env ev segs root xml) (execQ env ev (segs.map bareSeg) root xml)
  | [], _, _, _ => same_null
  | [cur], h, root, xml => body_one (rest := []) (h cur (by simp)) (by simp) (fun _ => same_null) (fun _ => same_null) xml
  | cur :: nxt :: rest, h, root, xml =>
    body_one (rest := nxt :: rest) (h cur (by simp)) (fun s hs => h s (by simp [hs])) (exec_one (nxt :: rest) (fun s hs => h s (by simp [hs])) false)
      (exec_one rest (fun s hs => h s (by simp [hs])) false) xml

end

section
variable {env : Env} {ev : Filter → Elem → Bool} {cs : Bool}

theorem firstMatchOpt_one {rest : List Seg} {k k' : Bytes → Result} (hr : ∀ s ∈ rest, OneSeg env s) (hk : ∀ x, SameOne (k x) (k' x)) (ms : List Elem) :
    SameOne (firstMatchOpt env cs rest k ms) (firstMatchOpt env cs (rest.map bareSeg) k' ms) := by
  induction ms with
  | nil => exact same_null
  | cons m ms ih =>
    match rest, hr with
    | [], _ => exact ⟨rfl, ofContent_one _⟩
    | nxt :: rest2, hr =>
      have hkk := hk m.content
      simp only [firstMatchOpt, List.map_cons, bareSeg] at ih ⊢
      cases hkind : nxt.kind <;> simp only [hkind] at ih ⊢
      case attr a =>
        cases attrsOpt env.ord cs a m with
        | nil => exact same_null
        | cons v vs =>
          simp only [List.isEmpty_map]
          split
          · exact ⟨rfl, ofAttr_one _⟩
          · exact same_null
      case text => exact ⟨rfl, ofText_one _⟩
      all_goals
        rw [hkk.1]
        split
        · exact ih
        · exact ⟨rfl, hkk.2⟩

theorem arrayOpOpt_one {nxt : Seg} {rest : List Seg} {k k' : Bytes → Result} (hk : ∀ x, SameOne (k x) (k' x)) (ms : List Elem) :
    SameOne (arrayOpOpt env cs ms nxt rest k) (arrayOpOpt env cs ms (bareSeg nxt) (rest.map bareSeg) k') := by
  unfold arrayOpOpt
  split
  · exact same_null
  · simp only [bareSeg]
    cases hkind : nxt.kind <;> simp only <;> try exact same_null
    case count => exact ⟨rfl, ofCount_one _⟩
    case index i =>
      split
      · exact same_null
      · cases ms[i.toNat]? with
        | none => exact same_null
        | some m =>
          cases rest with
          | nil => exact ⟨rfl, ofContent_one _⟩
          | cons s rest3 =>
            simp only [List.map_cons, bareSeg]
            cases hsk : s.kind <;> simp only
            case attr a =>
              cases attrsOpt env.ord cs a m with
              | nil => exact same_null
              | cons v vs => exact ⟨rfl, ofAttr_one _⟩
            all_goals exact hk _

theorem fragmentOpt_one {nxt : Seg} {rest : List Seg} {k k' : Bytes → Result} (hn : OneSeg env nxt) (hk : ∀ x, SameOne (k x) (k' x)) (ms : List Elem) :
    SameOne (fragmentRootsOpt env ms nxt rest k) (fragmentRootsOpt env ms (bareSeg nxt) (rest.map bareSeg) k') := by
  unfold fragmentRootsOpt
  split
  · exact same_null
  · simp only [bareSeg]
    cases hkind : nxt.kind <;> simp only <;> try exact same_null
    case field f => exact absurd hkind (hn.2.2.1 f)
    case count => exact ⟨rfl, ofCount_one _⟩
    case index i =>
      split
      · exact same_null
      · cases ms[i.toNat]? with
        | none => exact same_null
        | some m =>
          cases rest with
          | nil => exact ⟨rfl, ofContent_one _⟩
          | cons s rest3 =>
            simp only [List.map_cons, bareSeg]
            cases hsk : s.kind <;> simp only
            case attr a =>
              cases Attrs.get? a m.attrs with
              | none => exact same_null
              | some v => exact ⟨rfl, ofAttr_one _⟩
            case text => exact ⟨rfl, ofText_one _⟩
            all_goals exact hk _

theorem routeOpt_one {seg : Seg} {rest : List Seg} {k k' : Bytes → Result} (hs : OneSeg env seg) (hr : ∀ s ∈ rest, OneSeg env s) (hk : ∀ x, SameOne (k x) (k' x)) (ms : List Elem) :
    SameOne (routeFilterOpt env cs ms seg false rest k) (routeFilterOpt env cs ms (bareSeg seg) false (rest.map bareSeg) k') := by
  unfold routeFilterOpt
  cases ms with
  | nil => exact same_null
  | cons m ms =>
    simp only [Bool.false_eq_true, if_false, processFirstOpt]
    match rest, hr with
    | [], _ => exact same_mods hs.1 (ofContent_one _)
    | nxt :: rest2, hr =>
      have hn := hr nxt (by simp)
      simp only [List.map_cons, bareSeg]
      cases hkind : nxt.kind <;> simp only
      case attr a =>
        cases attrsOpt env.ord cs a m with
        | nil => exact same_null
        | cons v vs => exact same_mods hn.1 (ofAttr_one _)
      case text => exact same_mods hn.1 (ofText_one _)
      case field f => exact absurd hkind (hn.2.2.1 f)
      all_goals exact hk _

theorem bodyOpt_one {cur : Seg} {rest : List Seg} {root : Bool} {k1 k2 k1' k2' : Bytes → Result} (hc : OneSeg env cur) (hr : ∀ s ∈ rest, OneSeg env s)
    (h1 : ∀ x, SameOne (k1 x) (k1' x)) (h2 : ∀ x, SameOne (k2 x) (k2' x)) (xml : Bytes) :
    SameOne (execBodyOpt env ev cs root cur rest k1 k2 xml) (execBodyOpt env ev cs root (bareSeg cur) (rest.map bareSeg) k1' k2' xml) := by
  unfold execBodyOpt
  cases hkind : cur.kind <;> simp only [bareSeg, hkind] <;> try exact same_null
  case field f => exact absurd hkind (hc.2.2.1 f)
  case wild b => exact absurd hkind (hc.2.1 b)
  case filter f all =>
    cases all with
    | true => exact absurd hkind (hc.2.2.2 f)
    | false =>
      have := routeOpt_one (cs := cs) (rest := rest) hc hr h1 (List.take maxWildcardResults (List.filter (ev f) (topElems env.ord xml)))
      simpa only [bareSeg, hkind] using this
  case elem v =>
    have hm : ∀ e : Elem, (⟨.elem v, []⟩ : Seg).matchesOpt e.name cs = cur.matchesOpt e.name cs := fun e => by simp [Seg.matchesOpt, hkind]
    match rest, hr with
    | [], _ =>
      simp only [isFragmentQuery, Bool.and_false, Bool.false_and, Bool.false_eq_true, if_false, List.map_nil, execElemOpt, hm]
      exact firstMatchOpt_one (rest := []) (by simp) h1 _
    | nxt :: rest2, hr =>
      have hn := hr nxt (by simp)
      have hr2 : ∀ s ∈ rest2, OneSeg env s := fun s hs => hr s (by simp [hs])
      have hf : isFragmentQuery root (List.map bareSeg (nxt :: rest2)) = isFragmentQuery root (nxt :: rest2) := rfl
      rw [hf]
      rcases Bool.eq_false_or_eq_true (isFragmentQuery root (nxt :: rest2) && cs) with hroot | hroot <;> simp only [hroot, if_true, Bool.false_eq_true, if_false, List.map_cons, bareSeg]
      · exact fragmentOpt_one hn h2 _
      · simp only [execElemOpt, hm]
        have hfm := firstMatchOpt_one (cs := cs) (rest := nxt :: rest2) hr h1 (List.filter (fun e => cur.matchesOpt e.name cs) (topElems env.ord xml))
        simp only [bareSeg, List.map_cons] at hfm
        cases hnk : nxt.kind <;> simp only [hnk] at hfm ⊢
        case field f => exact absurd hnk (hn.2.2.1 f)
        case filter f all =>
          cases all with
          | true => exact absurd hnk (hn.2.2.2 f)
          | false =>
            have := routeOpt_one (cs := cs) (rest := rest2) hn hr2 h2 (List.filter (ev f) (List.take maxWildcardResults (List.filter (fun e => cur.matchesOpt e.name cs) (topElems env.ord xml))))
            simpa only [bareSeg, hnk] using this
        case index i =>
          have := arrayOpOpt_one (env := env) (cs := cs) (nxt := nxt) (rest := rest2) h2 (List.take maxWildcardResults (List.filter (fun e => cur.matchesOpt e.name cs) (topElems env.ord xml)))
          simpa only [bareSeg, hnk] using this
        case count =>
          have := arrayOpOpt_one (env := env) (cs := cs) (nxt := nxt) (rest := rest2) h2 (List.take maxWildcardResults (List.filter (fun e => cur.matchesOpt e.name cs) (topElems env.ord xml)))
          simpa only [bareSeg, hnk] using this
        all_goals exact hfm

theorem execOpt_one : ∀ (segs : List Seg) (_ : ∀ s ∈ segs, OneSeg env s) (root : Bool) (xml : Bytes), SameOne (execQOpt env ev cs segs root xml) (execQOpt env ev cs (segs.map bareSeg) root xml)
  | [], _, _, _ => same_null
  | [cur], h, root, xml => bodyOpt_one (rest := []) (h cur (by simp)) (by simp) (fun _ => same_null) (fun _ => same_null) xml
  | cur :: nxt :: rest, h, root, xml =>
    bodyOpt_one (rest := nxt :: rest) (h cur (by simp)) (fun s hs => h s (by simp [hs])) (execOpt_one (nxt :: rest) (fun s hs => h s (by simp [hs])) false)
      (execOpt_one rest (fun s hs => h s (by simp [hs])) false) xml

end

/-! ## paths -/

theorem seg_kind {p : Bytes} {s : Seg} (h : OneStep p) (hs : IsSeg p s) : s.mods = [] ∧ (∀ b, s.kind ≠ .wild b) ∧ (∀ f, s.kind ≠ .field f) ∧ ∀ f, s.kind ≠ .filter f true := by
  unfold IsSeg parsePart at hs
  rw [parseModifiers_plain p h.1] at hs
  split at hs
  · cases hs
  · simp only at hs
    split at hs
    · rename_i hp
      rcases parseFilterPart_body (mods := []) hp with ⟨e, all, he, hb, hr⟩ | ⟨hb, hr⟩
      · rw [hr] at hs
        split at hs
        · cases hs
        · cases hs
        · cases hs
          refine ⟨rfl, by simp, by simp, ?_⟩
          intro f hf
          simp only [SegKind.filter.injEq] at hf
          rw [hf.2] at hb
          exact h.2.2.2 e hb
      · rw [hr] at hs; cases hs
    · repeat' split at hs
      all_goals cases hs
      all_goals first | exact absurd ‹p = b!"*"› h.2.1 | exact absurd ‹p = b!"**"› h.2.2.1 | exact ⟨rfl, by simp, by simp, by simp⟩

theorem seg_count {p : Bytes} {s : Seg} (h : c!"|" ∉ p) (hs : IsSeg p s) (hk : s.kind = .count) : p = b!"#" := by
  unfold IsSeg parsePart at hs
  rw [parseModifiers_plain p h] at hs
  split at hs
  · cases hs
  · simp only at hs
    split at hs
    · rename_i hp
      rcases parseFilterPart_body (mods := []) hp with ⟨e, all, he, hb, hr⟩ | ⟨hb, hr⟩
      · rw [hr] at hs
        split at hs
        · cases hs
        · cases hs
        · cases hs; simp at hk
      · rw [hr] at hs; cases hs
    · repeat' split at hs
      all_goals cases hs
      all_goals first | (simp at hk; done) | assumption

/-- Without `#` before the last segment nothing is collected. -/
theorem fuse_last {segs : List Seg} (h : ∀ s ∈ segs.dropLast, s.kind ≠ .count) : fuseFields segs = segs := by
  fun_induction fuseFields segs with
  | case1 => rfl
  | case2 => rfl
  | case3 s t r hc f hf hv ih => exact absurd hc (h s (by simp))
  | case4 s t r hc f hf hv ih => exact absurd hc (h s (by simp))
  | case5 s t r hc hf ih => exact absurd hc (h s (by simp))
  | case6 s t r hc ih => rw [ih (fun x hx => h x (by simp [hx]))]

theorem count_last {ss : List Bytes} {segs : List Seg} (h2 : All2 IsSeg ss segs) (h : OneResult ss) : ∀ s ∈ segs.dropLast, s.kind ≠ .count := by
  obtain ⟨h1, h3⟩ := h
  induction h2 with
  | nil => simp
  | @cons p s ps ts hs hr ih =>
    cases hr with
    | nil => simp
    | @cons q t qs us ht hu =>
      simp only [List.dropLast_cons_cons, List.mem_cons, not_or] at h3 ⊢
      rintro x (rfl | hx)
      · exact fun hk => h3.1 (seg_count (h1 p (by simp)).1 hs hk).symm
      · exact ih (fun q hq => h1 q (by simp [List.mem_cons.mp hq])) h3.2 x hx

theorem all_one {env : Env} {ss : List Bytes} {segs : List Seg} (h2 : All2 IsSeg ss segs) (h : ∀ p ∈ ss, OneStep p) : ∀ s ∈ segs, s.mods = [] ∧ OneSeg env s := by
  induction h2 with
  | nil => simp
  | @cons p s ps ts hs hr ih =>
    intro x hx
    rcases List.mem_cons.mp hx with rfl | hx
    · have := seg_kind (h p (by simp)) hs
      exact ⟨this.1, by rw [OneSeg, this.1]; exact ⟨harmless_nil env, this.2⟩⟩
    · exact ih (fun q hq => h q (by simp [hq])) x hx

theorem one_lower {env : Env} {s : Seg} (h : OneSeg env s) (cs : Bool) : OneSeg env (lowIf cs s) := by
  obtain ⟨k, m⟩ := s
  cases cs
  · cases k <;> first | exact h | exact ⟨h.1, by simp [lowIf, lowerSeg], by simp [lowIf, lowerSeg], by simp [lowIf, lowerSeg]⟩
  · exact h

theorem bare_lower (cs : Bool) (s : Seg) : bareSeg (lowIf cs s) = lowIf cs (bareSeg s) := by
  obtain ⟨k, m⟩ := s
  cases cs
  · cases k <;> rfl
  · rfl

/-- Get on a parsed path. -/
theorem get_ok {env : Env} {xml path : Bytes} {S : List Seg} (hp : parsePath path = .ok S) :
    get env xml path = if xml.length > maxDocumentSize then .ret .null else .ret (execQ env (evalFilter env) S true xml) := by
  unfold get executeQuery
  rw [hp]
  cases S <;> rfl

theorem getOpt_ok {env : Env} {xml path : Bytes} {opts : Option Options} {S : List Seg} (hp : parsePath path = .ok S) : getWithOptions env xml path opts =
    if xml.length > maxDocumentSize then .ret .null else if isDefaultOptions opts then .ret (execQ env (evalFilter env) S true xml)
    else .ret (execQOpt env (evalFilter env) (opts.getD defaultOptions).caseSensitive (S.map (lowIf (opts.getD defaultOptions).caseSensitive)) true xml) := by
  unfold getWithOptions executeQuery parsePathWithOptions
  rw [hp]
  have l0 : ∀ l : List Seg, l.map (lowIf false) = l.map lowerSeg := fun l => rfl
  have l1 : ∀ l : List Seg, l.map (lowIf true) = l := fun l => List.map_id' l
  cases h : (opts.getD defaultOptions).caseSensitive <;> simp only [l0, l1, if_true, Bool.false_eq_true, if_false] <;> cases S <;> rfl

/-- C63: a path of names, positions, attributes, first-match filters, own text and a final `#` never leads to a list, whatever the document: nothing can be iterated over. -/
theorem C63_single (env : Env) (xml path : Bytes) (opts : Option Options) (ss : List Bytes) (h : PathSteps path ss) (h1 : OneResult ss) :
    ∃ r r', get env xml path = .ret r ∧ getWithOptions env xml path opts = .ret r' ∧ r.isArray = false ∧ r'.isArray = false ∧ r.array.length ≤ 1 ∧ r'.array.length ≤ 1 := by
  have fin : ∀ r : Result, r.typ ≠ .array → r.isArray = false ∧ r.array.length ≤ 1 := by
    intro r hr
    refine ⟨by simpa [Result.isArray] using hr, ?_⟩
    unfold Result.array
    rw [if_neg hr]
    split <;> simp
  have key : ∃ r r', get env xml path = .ret r ∧ getWithOptions env xml path opts = .ret r' ∧ r.typ ≠ .array ∧ r'.typ ≠ .array := by
    rcases parsePath_reads h with ⟨_, h0⟩ | ⟨segs, hp, h2⟩
    · subst h0
      have := C62_nothing env xml path opts (.inr h)
      exact ⟨_, _, this.1, this.2, null_one, null_one⟩
    · rw [fuse_last (count_last h2 h1)] at hp
      have ha := all_one (env := env) h2 h1.1
      rw [get_ok hp, getOpt_ok hp]
      have e1 := fun ev => exec_one (ev := ev) segs (fun s hs => (ha s hs).2) true xml
      have e2 := fun ev cs => execOpt_one (ev := ev) (cs := cs) (segs.map (lowIf cs)) (fun s hs => by
        obtain ⟨t, ht, rfl⟩ := List.mem_map.mp hs; exact one_lower (ha t ht).2 cs) true xml
      split
      · exact ⟨_, _, rfl, rfl, null_one, null_one⟩
      · refine ⟨_, _, rfl, (by split <;> rfl : _ = Outcome.ret (if isDefaultOptions opts then _ else _)), by rw [(e1 _).1]; exact (e1 _).2, ?_⟩
        split
        · rw [(e1 _).1]; exact (e1 _).2
        · rw [(e2 _ _).1]; exact (e2 _ _).2
  obtain ⟨r, r', a, b, c, d⟩ := key
  exact ⟨r, r', a, b, (fin r c).1, (fin r' d).1, (fin r c).2, (fin r' d).2⟩

theorem segs_mods {names : List Bytes} (hn : ∀ n ∈ names, ModName n) {ss : List Bytes} {segs : List Seg} (h2 : All2 IsSeg ss segs) (h1 : ∀ p ∈ ss, c!"|" ∉ p) :
    All2 IsSeg (Spec.withMods names ss) (addMods names segs) := by
  induction h2 with
  | nil => exact .nil
  | @cons p s ps ts hs hr ih =>
    cases hr with
    | nil => exact .cons (parsePart_mods (h1 p (by simp)) hs hn) .nil
    | @cons q t qs us ht hu => exact .cons hs (ih (fun x hx => h1 x (by simp [List.mem_cons.mp hx])))

theorem addMods_bare (names : List Bytes) (segs : List Seg) : (addMods names segs).map bareSeg = segs.map bareSeg := by
  fun_induction addMods names segs <;> simp_all [bareSeg]

theorem addMods_one {env : Env} {names : List Bytes} (hh : Harmless env names) {segs : List Seg} (h : ∀ s ∈ segs, OneSeg env s) : ∀ s ∈ addMods names segs, OneSeg env s := by
  fun_induction addMods names segs with
  | case1 => simp
  | case2 s => intro x hx; simp at hx; subst hx; exact ⟨hh, (h s (by simp)).2⟩
  | case3 s t r ih =>
    intro x hx
    rcases List.mem_cons.mp hx with rfl | hx
    · exact h x (by simp)
    · exact ih (fun y hy => h y (by simp [List.mem_cons.mp hy])) x hx

theorem addMods_count {names : List Bytes} {segs : List Seg} (h : ∀ s ∈ segs.dropLast, s.kind ≠ .count) : ∀ s ∈ (addMods names segs).dropLast, s.kind ≠ .count := by
  intro s hs hk
  have e : (addMods names segs).dropLast.map bareSeg = segs.dropLast.map bareSeg := by rw [List.map_dropLast, List.map_dropLast, addMods_bare]
  have : bareSeg s ∈ (addMods names segs).dropLast.map bareSeg := List.mem_map_of_mem hs
  rw [e] at this
  obtain ⟨t, ht, he⟩ := List.mem_map.mp this
  exact h t ht (by have := congrArg Seg.kind he; simp only [bareSeg] at this; rw [this, hk])

theorem harmless_list {env : Env} {srt : Sorter} {pf : Bytes → Option FVal} {pretty : Result → Result} {names : List Bytes} (hm : ∀ n ∈ names, n ∈ listModifiers) (hl : names.length ≤ 10)
    (hreg : ∀ n ∈ names, env.mods n = builtinMods srt pf pretty n) : Harmless env names := by
  intro r hr
  unfold applyModifiers
  rw [if_neg (by simp [maxModifierChainDepth]; omega)]
  clear hl
  induction names with
  | nil => rfl
  | cons n ns ih =>
    have hi := C33_identity srt pf r (by simpa [Result.isArray] using hr)
    have hb : ∃ f, env.mods n = some f ∧ f r = r := by
      rw [hreg n (by simp)]
      have := hm n (by simp)
      simp only [listModifiers, List.mem_cons, List.not_mem_nil, or_false] at this
      rcases this with rfl | rfl | rfl | rfl | rfl
      · exact ⟨_, rfl, hi.1⟩
      · exact ⟨_, rfl, hi.2.2.2.2⟩
      · exact ⟨_, rfl, hi.2.1⟩
      · exact ⟨_, rfl, hi.2.2.1⟩
      · exact ⟨_, rfl, hi.2.2.2.1⟩
    obtain ⟨f, hf, he⟩ := hb
    simp only [runMods, hf, he]
    split
    · rfl
    · exact ih (fun m hm' => hm m (by simp [hm'])) (fun m hm' => hreg m (by simp [hm']))

theorem listModifiers_names {n : Bytes} (h : n ∈ listModifiers) : ModName n := by
  simp only [listModifiers, List.mem_cons, List.not_mem_nil, or_false] at h
  rcases h with rfl | rfl | rfl | rfl | rfl <;> exact ⟨by decide, by simp⟩

/-- C63: on such a path the built-in list modifiers do nothing: `scores.score|@sort|@reverse|@first` is `scores.score`. -/
theorem C63_modifiers (env : Env) (srt : Sorter) (pf : Bytes → Option FVal) (pretty : Result → Result) (xml path path' : Bytes) (opts : Option Options) (ss names : List Bytes)
    (hm : ∀ n ∈ names, n ∈ listModifiers) (hl : names.length ≤ 10) (hreg : ∀ n ∈ names, env.mods n = builtinMods srt pf pretty n)
    (h : PathSteps path ss) (h' : PathSteps path' (Spec.withMods names ss)) (h1 : OneResult ss) :
    get env xml path' = get env xml path ∧ getWithOptions env xml path' opts = getWithOptions env xml path opts := by
  rcases parsePath_reads h with ⟨_, h0⟩ | ⟨segs, hp, h2⟩
  · subst h0
    have a := C62_nothing env xml path opts (.inr h)
    have b := C62_nothing env xml path' opts (.inr h')
    rw [a.1, a.2, b.1, b.2]; exact ⟨rfl, rfl⟩
  · rcases parsePath_reads h' with ⟨_, h0⟩ | ⟨segs', hp', h2'⟩
    · have : ss = [] := by
        have := (withMods_facts names ss).1
        rw [h0] at this
        exact List.eq_nil_of_length_eq_zero this.symm
      subst this
      have a := C62_nothing env xml path opts (.inr h)
      have b := C62_nothing env xml path' opts (.inr h')
      rw [a.1, a.2, b.1, b.2]; exact ⟨rfl, rfl⟩
    · have := all2_seg_fun h2' (segs_mods (fun n hn => listModifiers_names (hm n hn)) h2 (fun p hp => (h1.1 p hp).1))
      subst this
      have hc := count_last h2 h1
      rw [fuse_last hc] at hp
      rw [fuse_last (addMods_count hc)] at hp'
      have ha : ∀ s ∈ segs, OneSeg env s := fun s hs => (all_one h2 h1.1 s hs).2
      have hb := addMods_one (harmless_list hm hl hreg) ha
      rw [get_ok hp, getOpt_ok hp, get_ok hp', getOpt_ok hp']
      have e1 : ∀ ev, execQ env ev (addMods names segs) true xml = execQ env ev segs true xml := fun ev => by
        rw [(exec_one segs ha true xml).1, (exec_one _ hb true xml).1, addMods_bare]
      have e2 : ∀ ev cs, execQOpt env ev cs ((addMods names segs).map (lowIf cs)) true xml = execQOpt env ev cs (segs.map (lowIf cs)) true xml := fun ev cs => by
        have low : ∀ {l : List Seg}, (∀ s ∈ l, OneSeg env s) → ∀ s ∈ l.map (lowIf cs), OneSeg env s := fun hl s hs => by
          obtain ⟨t, ht, rfl⟩ := List.mem_map.mp hs; exact one_lower (hl t ht) cs
        have comm : ∀ l : List Seg, (l.map (lowIf cs)).map bareSeg = (l.map bareSeg).map (lowIf cs) := fun l => by
          simp only [List.map_map]; exact List.map_congr_left (fun s _ => bare_lower cs s)
        rw [(execOpt_one _ (low ha) true xml).1, (execOpt_one _ (low hb) true xml).1, comm, comm, addMods_bare]
      simp only [e1, e2, and_self]

/-! ## modifiers that are not registered -/

/-- Whatever the modifiers get, nothing comes out. -/
def Dead (env : Env) (names : List Bytes) : Prop := ∀ r, (applyModifiers env.mods r names).typ = .null

theorem dead_of {env : Env} {names : List Bytes} {n : Bytes} (hn : n ∈ names) (hr : env.mods n = none) : Dead env names := by
  intro r
  unfold applyModifiers
  split
  · rfl
  · rename_i hl; clear hl
    induction names generalizing r with
    | nil => simp at hn
    | cons m ms ih =>
      unfold runMods
      split
      · rfl
      · split
        · assumption
        · rename_i f hf _
          rcases List.mem_cons.mp hn with rfl | hn
          · rw [hr] at hf; cases hf
          · exact ih hn _

theorem exec_dead {env : Env} {ev : Filter → Elem → Bool} {names : List Bytes} (hd : Dead env names) : ∀ (segs : List Seg) (_ : ∀ s ∈ segs, ∃ n, s.kind = .elem n) (root : Bool) (xml : Bytes),
    (execQ env ev (addMods names segs) root xml).typ = .null
  | [], _, _, _ => rfl
  | [cur], h, root, xml => by
    obtain ⟨n, hn⟩ := h cur (by simp)
    simp only [addMods, execQ, execBody, hn, isFragmentQuery, Bool.and_false, Bool.false_eq_true, if_false, execElem]
    generalize List.filter _ _ = ms
    cases ms with
    | nil => rfl
    | cons m ms => exact hd _
  | cur :: nxt :: rest, h, root, xml => by
    obtain ⟨n, hn⟩ := h cur (by simp)
    have ih := exec_dead (ev := ev) hd (nxt :: rest) (fun s hs => h s (by simp [List.mem_cons.mp hs])) false
    obtain ⟨v, hv⟩ := h nxt (by simp)
    have hx : ∃ a b, addMods names (nxt :: rest) = a :: b ∧ a.kind = .elem v := by
      cases rest with
      | nil => exact ⟨_, _, rfl, hv⟩
      | cons t r => exact ⟨_, _, rfl, hv⟩
    obtain ⟨a, b, e, ha⟩ := hx
    rw [addMods_cons (r := nxt :: rest) (by simp), e]
    rw [e] at ih
    simp only [execQ, execBody, hn, isFragmentQuery, ha, SegKind.isRootOp, Bool.and_false, Bool.false_eq_true, if_false, execElem]
    generalize List.filter _ _ = ms
    induction ms with
    | nil => rfl
    | cons m ms ihm => simp only [firstMatch, ha, ih, if_true]; exact ihm

/-- C63: a modifier that is not registered (`@raw`, `@keys` and `@values` are documented but not built in) on a path of names: nothing is found in any document. -/
theorem C63_unknown (env : Env) (xml path path' : Bytes) (ss names : List Bytes) (hn : ∀ n ∈ names, ModName n) {n : Bytes} (hm : n ∈ names) (hu : env.mods n = none)
    (h : PathSteps path ss) (h' : PathSteps path' (Spec.withMods names ss)) (h1 : ∀ p ∈ ss, NameStep p ∧ c!"|" ∉ p) : ∃ r, get env xml path' = .ret r ∧ r.exists? = false := by
  have fin : ∀ r : Result, r.typ = .null → r.exists? = false := fun r hr => by simp [Result.exists?, hr]
  rcases parsePath_reads h with ⟨_, h0⟩ | ⟨segs, hp, h2⟩
  · subst h0; exact ⟨_, (C62_nothing env xml path' none (.inr h')).1, rfl⟩
  · rcases parsePath_reads h' with ⟨_, h0⟩ | ⟨segs', hp', h2'⟩
    · rw [h0] at h'; exact ⟨_, (C62_nothing env xml path' none (.inr h')).1, rfl⟩
    · have := all2_seg_fun h2' (segs_mods hn h2 (fun p hp => (h1 p hp).2))
      subst this
      have he : ∀ s ∈ segs, ∃ n, s.kind = .elem n := by
        clear hp hp' h2' h h'
        induction h2 with
        | nil => simp
        | @cons p s ps ts hs hr ih =>
          intro x hx
          rcases List.mem_cons.mp hx with rfl | hx
          · exact (isSeg_kind hs).2.2.1.mp (h1 p (by simp)).1
          · exact ih (fun q hq => h1 q (by simp [hq])) x hx
      have hc : ∀ s ∈ segs.dropLast, s.kind ≠ .count := fun s hs hk => by
        obtain ⟨n, hn⟩ := he s (List.dropLast_subset segs hs); rw [hk] at hn; cases hn
      rw [fuse_last (addMods_count hc)] at hp'
      rw [get_ok hp']
      split
      · exact ⟨_, rfl, rfl⟩
      · exact ⟨_, rfl, fin _ (exec_dead (dead_of hm hu) segs he true xml)⟩

/-! ## escapes -/

/-- The text does not end in a backslash. -/
theorem split_same {t t' : Bytes} (ht : splitPathAux false t = splitPathAux false t') : ∀ (pre : Bytes) (e : Bool), (pre = [] → e = false) → pre.getLast? ≠ some c!"\\" →
    splitPathAux e (pre ++ t) = splitPathAux e (pre ++ t')
  | [], e, he, _ => by rw [he rfl]; exact ht
  | c :: r, e, _, hl => by
    have hr : r.getLast? ≠ some c!"\\" := by
      cases r with
      | nil => simp
      | cons d r => simpa [List.getLast?_cons_cons] using hl
    have h1 := split_same ht r false (fun _ => rfl) hr
    simp only [List.cons_append, splitPathAux, h1]
    split
    · rfl
    · split
      · rename_i hc
        refine split_same ht r true (fun h0 => ?_) hr
        subst h0; subst hc; simp at hl
      · rfl

theorem parsePath_split {p p' : Bytes} (h : splitPath p = splitPath p') (h0 : p ≠ []) (h0' : p' ≠ []) : parsePath p = parsePath p' := by
  unfold parsePath parsePathInternal
  rw [h, if_neg (c := p.isEmpty = true) (by simpa using h0), if_neg (c := p'.isEmpty = true) (by simpa using h0')]

/-- C63: a backslash matters only before a dot or a backslash (or at the end): `data.\@special` is the attribute `special` of `data` and `a.b\|@sort` sorts. -/
theorem C63_escape (env : Env) (xml pre post : Bytes) (c : UInt8) (v : GoVal) (opts : Option Options) (h1 : c ≠ c!".") (h2 : c ≠ c!"\\") (hp : pre.getLast? ≠ some c!"\\") :
    get env xml (pre ++ c!"\\" :: c :: post) = get env xml (pre ++ c :: post) ∧
    getWithOptions env xml (pre ++ c!"\\" :: c :: post) opts = getWithOptions env xml (pre ++ c :: post) opts ∧
    setWithOptions env.ord xml (pre ++ c!"\\" :: c :: post) v opts = setWithOptions env.ord xml (pre ++ c :: post) v opts ∧
    deleteWithOptions env.ord xml (pre ++ c!"\\" :: c :: post) opts = deleteWithOptions env.ord xml (pre ++ c :: post) opts := by
  have e : parsePath (pre ++ c!"\\" :: c :: post) = parsePath (pre ++ c :: post) := by
    refine parsePath_split ?_ (by simp) (by simp)
    unfold splitPath
    rw [split_same (t' := c :: post) (by simp [splitPathAux, h1, h2]) pre false (fun _ => rfl) hp]
    simp
  have e' : ∀ cs, parsePathWithOptions (pre ++ c!"\\" :: c :: post) cs = parsePathWithOptions (pre ++ c :: post) cs := fun cs => by unfold parsePathWithOptions; rw [e]
  have hd : deleteWithOptions env.ord xml (pre ++ c!"\\" :: c :: post) opts = deleteWithOptions env.ord xml (pre ++ c :: post) opts := by unfold deleteWithOptions; rw [e']
  refine ⟨?_, ?_, ?_, hd⟩
  · unfold get; rw [e]
  · unfold getWithOptions; simp only [e, e']
  · unfold setWithOptions; rw [e', hd]

/-! ## dots in filters -/

theorem split_dot {t : Bytes} : ∀ (pre : Bytes) (e : Bool), (pre = [] → e = false) → pre.getLast? ≠ some c!"\\" →
    splitPathAux e (pre ++ c!"." :: t) = ((splitPathAux e pre).1, (splitPathAux e pre).2 ++ (splitPathAux false t).1 :: (splitPathAux false t).2)
  | [], e, he, _ => by rw [he rfl]; simp [splitPathAux]
  | c :: r, e, _, hl => by
    have hr : r.getLast? ≠ some c!"\\" := by
      cases r with
      | nil => simp
      | cons d r => simpa [List.getLast?_cons_cons] using hl
    have h1 := split_dot (t := t) r false (fun _ => rfl) hr
    simp only [List.cons_append, splitPathAux, h1]
    split
    · rfl
    · split
      · rename_i hc
        refine split_dot r true (fun h0 => ?_) hr
        subst h0; subst hc; simp at hl
      · split <;> simp

theorem parts_dot {pre t : Bytes} {ps qs : List Bytes} (hl : pre.getLast? ≠ some c!"\\") (h1 : Parts pre ps) (h2 : Parts t qs) : Parts (pre ++ c!"." :: t) (ps ++ qs) := by
  rw [parts_iff, split_dot pre false (fun _ => rfl) hl, parts_fun h1, parts_fun h2]; simp

theorem parts_plain {t : Bytes} (h : ∀ c ∈ t, c ≠ c!"." ∧ c ≠ c!"\\") : Parts t [t] := by
  induction t with
  | nil => exact .done
  | cons c t ih => exact .plain c (h c (by simp)).1 (h c (by simp)).2 (ih (fun d hd => h d (by simp [hd])))

theorem takeWhile_id {p : UInt8 → Bool} {l : Bytes} (h : ∀ c ∈ l, p c = true) : l.takeWhile p = l := by
  induction l with
  | nil => rfl
  | cons c l ih => rw [List.takeWhile_cons, h c (by simp), ih (fun d hd => h d (by simp [hd]))]; rfl

theorem busy_drop {A B ss : List Bytes} {p : Bytes} (hi : Idle p) (h : Busy (A ++ p :: B) ss) : Busy (A ++ B) ss := by
  induction A generalizing ss with
  | nil =>
    cases h with
    | idle _ h => exact h
    | busy hp _ => exact absurd hi hp
  | cons a A ih =>
    cases h with
    | idle hp h => exact .idle hp (ih h)
    | busy hp h => exact .busy hp (ih h)

/-- C63: a dot in a filter that is not escaped ends the part, and what is before it means nothing: `book.#(rating>=4.5).title` is `book.5).title`. -/
theorem C63_dot (env : Env) (xml pre a post : Bytes) (ss : List Bytes) (v : GoVal) (opts : Option Options) (hp : pre.getLast? ≠ some c!"\\")
    (ha : ∀ c ∈ a, c ≠ c!"." ∧ c ≠ c!"\\" ∧ c ≠ c!"|") (hl : a.getLast? ≠ some c!")" ∧ ¬ b!")#" <:+ a) (h : PathSteps (pre ++ b!".#(" ++ a ++ b!"." ++ post) ss) :
    PathSteps (pre ++ b!"." ++ post) ss ∧
    get env xml (pre ++ b!".#(" ++ a ++ b!"." ++ post) = get env xml (pre ++ b!"." ++ post) ∧
    getWithOptions env xml (pre ++ b!".#(" ++ a ++ b!"." ++ post) opts = getWithOptions env xml (pre ++ b!"." ++ post) opts ∧
    setWithOptions env.ord xml (pre ++ b!".#(" ++ a ++ b!"." ++ post) v opts = setWithOptions env.ord xml (pre ++ b!"." ++ post) v opts ∧
    deleteWithOptions env.ord xml (pre ++ b!".#(" ++ a ++ b!"." ++ post) opts = deleteWithOptions env.ord xml (pre ++ b!"." ++ post) opts := by
  have key : PathSteps (pre ++ b!"." ++ post) ss := by
    obtain ⟨parts, h1, h2, h3, h4⟩ := h
    obtain ⟨A, hA⟩ : ∃ A, Parts pre A := ⟨_, (parts_aux pre).1⟩
    obtain ⟨B, hB⟩ : ∃ B, Parts post B := ⟨_, (parts_aux post).1⟩
    have hf : Parts (b!"#(" ++ a) [b!"#(" ++ a] := parts_plain (by
      intro c hc
      simp only [List.cons_append, List.nil_append, List.mem_cons] at hc
      rcases hc with rfl | rfl | hc
      · decide
      · decide
      · exact ⟨(ha c hc).1, (ha c hc).2.1⟩)
    have hfl : (b!"#(" ++ a).getLast? ≠ some c!"\\" := by
      cases a with
      | nil => simp
      | cons x r =>
        intro hh
        rw [List.getLast?_append, List.getLast?_eq_some_getLast (by simp)] at hh
        simp only [Option.some_or, Option.some.injEq] at hh
        exact (ha _ (List.getLast_mem (by simp))).2.1 hh
    have hall := parts_dot hp hA (parts_dot hfl hf hB)
    have e1 : pre ++ b!".#(" ++ a ++ b!"." ++ post = pre ++ c!"." :: (b!"#(" ++ a ++ c!"." :: post) := by simp
    rw [e1] at h1
    have hparts : parts = A ++ ([b!"#(" ++ a] ++ B) := (parts_fun h1).trans (parts_fun hall).symm
    subst hparts
    have hbar : beforeBar (b!"#(" ++ a) = b!"#(" ++ a := by
      unfold beforeBar
      refine takeWhile_id ?_
      intro c hc
      simp only [List.cons_append, List.nil_append, List.mem_cons] at hc
      rcases hc with rfl | rfl | hc
      · decide
      · decide
      · simpa using (ha c hc).2.2
    have hidle : Idle (b!"#(" ++ a) := by
      refine .inr ⟨⟨a, rfl⟩, ?_⟩
      rintro ⟨e, _, all, he⟩
      rw [hbar] at he
      unfold filterPart at he
      rw [List.append_assoc] at he
      have he := List.append_cancel_left he
      cases all
      · exact hl.1 (by rw [he]; simp)
      · exact hl.2 (by rw [he]; exact ⟨e, by simp⟩)
    refine ⟨A ++ B, by simpa using parts_dot hp hA hB, by simp only [List.length_append, List.length_cons, List.length_nil] at h2 ⊢; omega, fun p hp => h3 p (by
      rcases List.mem_append.mp hp with hp | hp <;> simp [hp]), busy_drop hidle (by simpa using h4)⟩
  exact ⟨key, C62_same env xml _ _ ss h key v opts⟩

/-! ## examples -/

theorem oneResult_by {ss : List Bytes} (h : ∀ p ∈ ss, c!"|" ∉ p ∧ p ≠ b!"*" ∧ p ≠ b!"**" ∧ hasSuffix p b!")#" = false) (h1 : b!"#" ∉ ss.dropLast) : OneResult ss := by
  refine ⟨fun p hp => ⟨(h p hp).1, (h p hp).2.1, (h p hp).2.2.1, fun e he => ?_⟩, h1⟩
  have : hasSuffix p b!")#" = true := by
    rw [hasSuffix, List.isSuffixOf_iff_suffix, he]; exact ⟨b!"#(" ++ e, rfl⟩
  rw [(h p hp).2.2.2] at this; cases this

def exDocEnv : Env := { exEnv with mods := builtinMods (fun _ l => l) (fun _ => none) id }

/-- `items.item` is one element, also when there are several. -/
example : ∃ r r', get exDocEnv b!"<items><item>1</item><item>2</item></items>" b!"items.item" = .ret r ∧ getWithOptions exDocEnv b!"<items><item>1</item><item>2</item></items>" b!"items.item" none = .ret r' ∧
    r.isArray = false ∧ r'.isArray = false ∧ r.array.length ≤ 1 ∧ r'.array.length ≤ 1 :=
  C63_single exDocEnv _ _ none [b!"items", b!"item"] (pathSteps_by (by decide) (by decide) (by decide +kernel) (by decide +kernel)) (oneResult_by (by decide) (by decide))

example : get exDocEnv b!"<items><item>1</item><item>2</item></items>" b!"items.item" = .ret (.ofContent b!"1") := by decide +kernel

/-- Sorting, reversing and taking the first of the scores is the first score. -/
example (xml : Bytes) : get exDocEnv xml b!"scores.score|@sort|@reverse|@first" = get exDocEnv xml b!"scores.score" :=
  (C63_modifiers exDocEnv (fun _ l => l) (fun _ => none) id xml b!"scores.score" _ none [b!"scores", b!"score"] [b!"sort", b!"reverse", b!"first"] (by decide) (by decide) (fun _ _ => rfl)
    (pathSteps_by (by decide) (by decide) (by decide +kernel) (by decide +kernel)) (pathSteps_by (by decide) (by decide) (by decide +kernel) (by decide +kernel)) (oneResult_by (by decide) (by decide))).1

/-- With a step to several elements they work. -/
example : get exDocEnv b!"<s><n>3</n><n>1</n></s>" b!"s.n|@reverse|@first" = .ret (.ofContent b!"3") ∧ get exDocEnv b!"<s><n>3</n><n>1</n></s>" b!"s.*|@reverse|@first" = .ret (.ofContent b!"1") := by
  decide +kernel

/-- `@raw`, `@keys` and `@values` are not built in. -/
example (xml : Bytes) : (∃ r, get exDocEnv xml b!"a.b|@raw" = .ret r ∧ r.exists? = false) ∧ (∃ r, get exDocEnv xml b!"a.b|@keys" = .ret r ∧ r.exists? = false) ∧
    ∃ r, get exDocEnv xml b!"a.b|@first|@values" = .ret r ∧ r.exists? = false := by
  have hp : PathSteps b!"a.b" [b!"a", b!"b"] := pathSteps_by (by decide) (by decide) (by decide +kernel) (by decide +kernel)
  have hn : ∀ p ∈ [b!"a", b!"b"], NameStep p ∧ c!"|" ∉ p := by
    intro p hp
    simp only [List.mem_cons, List.not_mem_nil, or_false] at hp
    rcases hp with rfl | rfl
    · exact ⟨(isSeg_kind (s := ⟨.elem b!"a", []⟩) (show parsePart _ = _ by decide +kernel)).2.2.1.mpr ⟨_, rfl⟩, by decide⟩
    · exact ⟨(isSeg_kind (s := ⟨.elem b!"b", []⟩) (show parsePart _ = _ by decide +kernel)).2.2.1.mpr ⟨_, rfl⟩, by decide⟩
  have hm : ∀ n ∈ [b!"raw", b!"keys", b!"values", b!"first"], ModName n := by
    intro n hn
    simp only [List.mem_cons, List.not_mem_nil, or_false] at hn
    rcases hn with rfl | rfl | rfl | rfl <;> exact ⟨by decide, by simp⟩
  exact ⟨C63_unknown exDocEnv xml _ _ _ [b!"raw"] (fun n h => hm n (by simp at h; simp [h])) (List.mem_singleton_self _) (by decide +kernel) hp (pathSteps_by (by decide) (by decide) (by decide +kernel) (by decide +kernel)) hn,
    C63_unknown exDocEnv xml _ _ _ [b!"keys"] (fun n h => hm n (by simp at h; simp [h])) (List.mem_singleton_self _) (by decide +kernel) hp (pathSteps_by (by decide) (by decide) (by decide +kernel) (by decide +kernel)) hn,
    C63_unknown exDocEnv xml _ _ _ [b!"first", b!"values"] (n := b!"values") (fun n h => hm n (by simp at h; rcases h with h | h <;> simp [h])) (by simp) (by decide +kernel) hp
      (pathSteps_by (by decide) (by decide) (by decide +kernel) (by decide +kernel)) hn⟩

/-- An escaped `@` is an attribute step, an escaped `|` starts the modifiers. -/
example (env : Env) (xml : Bytes) : get env xml b!"data.\\@special" = get env xml b!"data.@special" ∧ get env xml b!"data.option\\|default" = get env xml b!"data.option|default" :=
  ⟨(C63_escape env xml b!"data." b!"special" c!"@" .nil none (by decide) (by decide) (by decide)).1, (C63_escape env xml b!"data.option" b!"default" c!"|" .nil none (by decide) (by decide) (by decide)).1⟩

/-- A decimal in a filter. -/
example (env : Env) (xml : Bytes) : get env xml b!"book.#(rating>=4.5).title" = get env xml b!"book.5).title" :=
  (C63_dot env xml b!"book" b!"rating>=4" b!"5).title" [b!"book", b!"5)", b!"title"] .nil none (by decide) (by decide) (by decide)
    (pathSteps_by (by decide) (by decide) (by decide +kernel) (by decide +kernel))).2.1

example : get exDocEnv b!"<book><rating>5</rating><title>T</title></book>" b!"book.#(rating>=4.5).title" = .ret .null := by decide +kernel

/-- White space around the text of an element is not part of its String. -/
example : get exDocEnv b!"<r><t>  x  </t></r>" b!"r.t" = .ret (.ofContent b!"  x  ") ∧ (Result.ofContent b!"  x  ").str = b!"x" := by decide +kernel

end Verif.Props
