import Verif.Lemmas.Lex
/- The validator accepts exactly the documents of the grammar `Spec.Document`. -/
namespace Verif
open Spec

/-- A validator state whose flags are determined by the stack and by "an element was closed at the top". -/
def vst (s : List Bytes) (b : Bool) (r : Bytes) : RSt := ⟨r, s, b || !s.isEmpty, b && s.isEmpty⟩

/-- One construct of the grammar consumed. -/
inductive GStep : List Bytes → Bool → Bytes → List Bytes → Bool → Bytes → Prop
  | misc {s b r} {m : Misc} (h : m.Legal) : GStep s b (m.render ++ r) s b r
  | leaf {s b n as ws r} (hn : IsName n) (ha : AttrsLegal as) (hw : ∀ c ∈ ws, IsWs c) (hd : s.length < 100) :
      GStep s b (openTag n as ws ++ b!"/>" ++ r) s true r
  | node {s b n as ws r} (hn : IsName n) (ha : AttrsLegal as) (hw : ∀ c ∈ ws, IsWs c) (hd : s.length < 100) :
      GStep s b (openTag n as ws ++ b!">" ++ r) (n :: s) true r
  | close {t ts b cws r} (h0 : t ≠ []) (hn : ∀ c ∈ t, NameChar c) (hl : t.length ≤ 1048576) (hw : ∀ c ∈ cws, IsWs c) :
      GStep (t :: ts) b (closeTag t cws ++ r) ts true r
  | text {s b c r} (h : c ≠ c!"<") (h0 : s = [] → IsWs c) : GStep s b (c :: r) s b r

/-! ### prefixes -/

theorem take7_iff {w r : Bytes} (hw : w.length = 7) : r.take 7 = w ↔ w <+: r := by
  constructor
  · intro h; exact ⟨r.drop 7, by rw [← h]; exact List.take_append_drop 7 r⟩
  · rintro ⟨t, rfl⟩; rw [← hw]; simp

theorem prefix_delim {w b r : Bytes} {d : UInt8} (hw : d ∉ w) : w <+: b ++ d :: r ↔ w <+: b := by
  induction w generalizing b with
  | nil => simp
  | cons x xs ih =>
    simp only [List.mem_cons, not_or] at hw
    cases b with
    | nil =>
      simp only [List.nil_append, List.cons_prefix_cons, List.prefix_nil, reduceCtorEq, iff_false, not_and]
      intro h; exact absurd h.symm hw.1
    | cons y ys => simp only [List.cons_append, List.cons_prefix_cons]; rw [ih hw.2]

theorem prefix_head {x y : UInt8} {xs ys r : Bytes} (hne : x ≠ y) (h1 : x :: xs <+: r) (h2 : y :: ys <+: r) : False := by
  obtain ⟨t, rfl⟩ := h1
  simp only [List.cons_append, List.cons_prefix_cons] at h2
  exact hne h2.1.symm

theorem miscR_doctype {r : Bytes} (h : b!"DOCTYPE" <+: r ∨ b!"doctype" <+: r) : miscR r = doctypeR 0 r := by
  unfold miscR
  rw [if_pos]
  simp only [Bool.or_eq_true, decide_eq_true_eq]
  rw [take7_iff rfl, take7_iff rfl]; exact h

theorem miscR_comment {r : Bytes} : miscR (b!"--" ++ r) = commentR r := by
  unfold miscR
  rw [if_neg, if_pos (by simp)]
  · rfl
  · simp only [Bool.or_eq_true, decide_eq_true_eq]
    rw [take7_iff rfl, take7_iff rfl]
    rintro (h | h) <;> simp at h

theorem miscR_cdata {r : Bytes} : miscR (b!"[CDATA[" ++ r) = cdataR r := by
  unfold miscR
  rw [if_neg, if_neg, if_pos]
  · rfl
  · rfl
  · simp
  · simp only [Bool.or_eq_true, decide_eq_true_eq]
    rw [take7_iff rfl, take7_iff rfl]
    rintro (h | h) <;> simp at h

theorem miscR_decl {r : Bytes} (h1 : ¬ b!"DOCTYPE" <+: r) (h2 : ¬ b!"doctype" <+: r) (h3 : ¬ b!"--" <+: r)
    (h4 : ¬ b!"[CDATA[" <+: r) : miscR r = untilR c!">" 0 r := by
  unfold miscR
  rw [if_neg, if_neg, if_neg]
  · rw [take7_iff rfl]; exact h4
  · rw [List.isPrefixOf_iff_prefix]; exact h3
  · simp only [Bool.or_eq_true, decide_eq_true_eq]
    rw [take7_iff rfl, take7_iff rfl]
    rintro (h | h)
    · exact h1 h
    · exact h2 h

theorem miscR_inv {r r' : Bytes} (h : miscR r = some r') :
    ∃ m : Misc, m.Legal ∧ b!"<!" ++ r = m.render ++ r' := by
  unfold miscR at h
  split at h
  · rename_i hd
    simp only [Bool.or_eq_true, decide_eq_true_eq] at hd
    rw [take7_iff rfl, take7_iff rfl] at hd
    obtain ⟨b, e1, e2, e3⟩ := doctypeR_inv h
    rw [e1, prefix_delim (by decide), prefix_delim (by decide)] at hd
    refine ⟨.doctype b, ⟨hd, by omega, fun p hp => by have := e3 p hp; omega⟩, ?_⟩
    rw [e1]; simp [Misc.render]
  · rename_i hd
    simp only [Bool.or_eq_true, decide_eq_true_eq] at hd
    rw [take7_iff rfl, take7_iff rfl] at hd
    split at h
    · rename_i hc
      rw [List.isPrefixOf_iff_prefix] at hc
      obtain ⟨t, rfl⟩ := hc
      obtain ⟨b, e1, e2⟩ := commentR_inv h
      simp only [List.cons_append, List.nil_append, List.drop_succ_cons, List.drop_zero] at e1
      refine ⟨.comment b, e2, ?_⟩
      rw [e1]; simp [Misc.render]
    · rename_i hc
      rw [List.isPrefixOf_iff_prefix] at hc
      split at h
      · rename_i hx
        rw [take7_iff rfl] at hx
        obtain ⟨t, rfl⟩ := hx
        obtain ⟨b, e1, e2⟩ := cdataR_inv h
        simp only [List.cons_append, List.nil_append, List.drop_succ_cons, List.drop_zero] at e1
        refine ⟨.cdata b, e2, ?_⟩
        rw [e1]; simp [Misc.render]
      · rename_i hx
        rw [take7_iff rfl] at hx
        obtain ⟨w, e1, e2, e3⟩ := untilR_inv h
        rw [e1, prefix_delim (by decide)] at hx hc
        rw [e1, prefix_delim (by decide), prefix_delim (by decide), not_or] at hd
        refine ⟨.decl w, ⟨e2, by omega, hd.1, hd.2, hc, hx⟩, ?_⟩
        rw [e1]; simp [Misc.render]

theorem miscR_render {m : Misc} {r t : Bytes} (hl : m.Legal) (h : b!"<!" ++ t = m.render ++ r) : miscR t = some r := by
  cases m with
  | comment b =>
    have : t = b!"--" ++ (b ++ b!"-->" ++ r) := by simpa [Misc.render] using h
    rw [this, miscR_comment, commentR_of hl]
  | pi b => simp [Misc.render] at h
  | cdata b =>
    have : t = b!"[CDATA[" ++ (b ++ b!"]]>" ++ r) := by simpa [Misc.render] using h
    rw [this, miscR_cdata, cdataR_of hl]
  | doctype b =>
    have : t = b ++ c!">" :: r := by simpa [Misc.render] using h
    obtain ⟨h1, h2, h3⟩ := hl
    rw [this, miscR_doctype (by rw [prefix_delim (by decide), prefix_delim (by decide)]; exact h1)]
    exact doctypeR_of (by omega) (fun p hp => by have := h3 p hp; omega) r
  | decl b =>
    have : t = b ++ c!">" :: r := by simpa [Misc.render] using h
    obtain ⟨h0, hk, h1, h2, h3, h4⟩ := hl
    rw [this, miscR_decl, untilR_of h0 (by omega)]
    all_goals rw [prefix_delim (by decide)]; assumption
  | mark b => exact hl.elim

theorem endR_inv {r r' : Bytes} {sc : Bool} (h : endR r = some (sc, r')) (hr : ∀ c t, r = c :: t → ¬ IsWs c) :
    r = (if sc then b!"/>" else b!">") ++ r' := by
  unfold endR at h
  cases r with
  | nil => simp [skipWs] at h
  | cons c cs =>
    rw [skipWs_cons (hr c cs rfl)] at h
    simp only at h
    split at h
    · rename_i hc
      cases cs with
      | nil => simp at h
      | cons d ds =>
        simp only at h
        split at h
        · rename_i hd
          simp only [Option.some.injEq, Prod.mk.injEq] at h
          obtain ⟨rfl, rfl⟩ := h
          rw [hc, hd]; rfl
        · simp at h
    · split at h
      · rename_i hd
        simp only [Option.some.injEq, Prod.mk.injEq] at h
        obtain ⟨rfl, rfl⟩ := h
        rw [hd]; rfl
      · simp at h

theorem endR_of (sc : Bool) (r : Bytes) : endR ((if sc then b!"/>" else b!">") ++ r) = some (sc, r) := by
  cases sc with
  | false => simp [endR, skipWs, isWs]
  | true => simp [endR, skipWs, isWs]

theorem maxNest : maxNestingDepth = 100 := rfl
theorem maxAttr : maxAttributes = 100 := rfl

/-- The state after an opening tag. -/
theorem openR_flags (s : List Bytes) (b sc : Bool) (name r r3 : Bytes) :
    (let st := vst s b r
     let closed1 := if st.found && st.stack.isEmpty && st.closed then false else st.closed
     if sc then some (⟨r3, st.stack, true, if st.stack.isEmpty then true else closed1⟩ : RSt)
     else some ⟨r3, name :: st.stack, true, closed1⟩) = some (vst (if sc then s else name :: s) true r3) := by
  cases s <;> cases b <;> cases sc <;> rfl

theorem openR_inv {s : List Bytes} {b : Bool} {r : Bytes} {st2 : RSt} (h : openR (vst s b r) = some st2) :
    ∃ s' r', st2 = vst s' true r' ∧ GStep s b (c!"<" :: r) s' true r' := by
  have hm := maxNest
  unfold openR at h
  simp only at h
  split at h
  · simp at h
  · rename_i hv
    split at h
    · simp at h
    · rename_i hd
      simp only [vst] at hv hd
      simp only [Bool.not_eq_false, Bool.not_eq_eq_eq_not, Bool.not_true] at hv
      cases hn1 : (nameR 0 r).1 with
      | none => rw [hn1] at hv; simp [validName] at hv
      | some nm =>
        rw [hn1] at hv
        simp only [Option.getD_some] at hv
        have hr : (vst s b r).rest = r := rfl
        rw [hr, hn1] at h
        obtain ⟨e1, e2, e3, e4⟩ := nameR_inv (r' := (nameR 0 r).2) (Prod.ext hn1 rfl)
        generalize (nameR 0 r).2 = r1 at *
        cases ha : attrsR maxAttributes r1 with
        | none => rw [ha] at h; simp at h
        | some r2 =>
          rw [ha] at h
          simp only at h
          obtain ⟨as, ws, c, t, a1, a2, a3, a4, a5, a6⟩ := attrsR_inv ha
          simp only [maxAttr] at a3
          cases he : endR r2 with
          | none => rw [he] at h; simp at h
          | some q =>
            obtain ⟨sc, r3⟩ := q
            rw [he] at h
            have hb := endR_inv he (by
              intro c' t' hh
              rw [a5, List.cons.injEq] at hh
              rw [← hh.1]
              rcases a6 with rfl | rfl
              · exact gt_not_ws
              · exact slash_not_ws)
            have hf := openR_flags s b sc nm r r3
            simp only [Option.getD_some] at h hf
            rw [hf, Option.some.injEq] at h
            refine ⟨_, _, h.symm, ?_⟩
            have hname : IsName nm := isName_of hv (by have := e4 (by rw [a1, a5]; simp); omega)
            have hal : AttrsLegal as := by
              refine ⟨a3, a2, ?_⟩
              intro a hh hpre
              cases as with
              | nil => simp at hh
              | cons x xs =>
                simp only [List.head?_cons, Option.some.injEq] at hh
                subst hh
                obtain ⟨y, ys, hy, hst⟩ := (a2 x (by simp)).2.1.1
                refine e3 y (ys ++ (x.mid1 ++ b!"=" ++ x.mid2 ++ [x.quote] ++ x.raw ++ [x.quote] ++ (xs.flatMap Attr.render ++ ws ++ r2))) ?_ (NameStart.char hst)
                rw [a1]
                simp [Attr.render, hpre, hy]
            have hdd : s.length < 100 := by omega
            cases sc with
            | true =>
              have := GStep.leaf (b := b) (r := r3) hname hal a4 hdd
              have e : c!"<" :: r = openTag nm as ws ++ b!"/>" ++ r3 := by
                rw [e1, a1, hb]; simp [openTag]
              rw [e]; exact this
            | false =>
              have := GStep.node (b := b) (r := r3) hname hal a4 hdd
              have e : c!"<" :: r = openTag nm as ws ++ b!">" ++ r3 := by
                rw [e1, a1, hb]; simp [openTag]
              rw [e]; exact this

/-- After a name: attributes and the end of the tag do not continue the name. -/
theorem attrs_head {as : List Attr} {ws t : Bytes} (ha : AttrsLegal as) (hw : ∀ c ∈ ws, IsWs c)
    (ht : ∀ c u, t = c :: u → ¬ NameChar c) :
    ∀ c u, as.flatMap Attr.render ++ ws ++ t = c :: u → ¬ NameChar c := by
  intro c u h
  cases as with
  | nil => exact ws_head_not_name hw ht c u (by simpa using h)
  | cons a as =>
    have hp := ha.2.2 a rfl
    cases hpre : a.pre with
    | nil => exact absurd hpre hp
    | cons x xs =>
      have hx : IsWs x := (ha.2.1 a (by simp)).1 x (by simp [hpre])
      simp only [List.flatMap_cons, Attr.render, hpre, List.cons_append, List.cons.injEq] at h
      rw [← h.1]; exact IsWs.not_nameChar hx

theorem openR_of {s : List Bytes} {b sc : Bool} {n : Bytes} {as : List Attr} {ws r : Bytes} (hn : IsName n)
    (ha : AttrsLegal as) (hw : ∀ c ∈ ws, IsWs c) (hd : s.length < 100) :
    openR (vst s b (n ++ as.flatMap Attr.render ++ ws ++ (if sc then b!"/>" else b!">") ++ r)) =
      some (vst (if sc then s else n :: s) true r) := by
  have hm := maxNest
  obtain ⟨c, t, hct, hc⟩ : ∃ c t, (if sc then b!"/>" else b!">") ++ r = c :: t ∧ (c = c!">" ∨ c = c!"/") := by
    cases sc
    · exact ⟨_, _, rfl, .inl rfl⟩
    · exact ⟨_, _, rfl, .inr rfl⟩
  have hnr : nameR 0 (n ++ as.flatMap Attr.render ++ ws ++ (if sc then b!"/>" else b!">") ++ r) =
      (some n, as.flatMap Attr.render ++ ws ++ ((if sc then b!"/>" else b!">") ++ r)) := by
    have e : n ++ as.flatMap Attr.render ++ ws ++ (if sc then b!"/>" else b!">") ++ r =
      n ++ (as.flatMap Attr.render ++ ws ++ ((if sc then b!"/>" else b!">") ++ r)) := by simp
    rw [e]
    refine nameR_of hn.2.1 (by have := hn.2.2; omega) (attrs_head ha hw ?_)
    intro c' u h
    rw [hct, List.cons.injEq] at h
    rw [← h.1]
    rcases hc with rfl | rfl
    · exact gt_not_name
    · exact slash_not_name
  unfold openR
  have hr : ∀ r, (vst s b r).rest = r := fun _ => rfl
  have hs : ∀ r, (vst s b r).stack = s := fun _ => rfl
  simp only [hr]
  rw [hnr]
  simp only [Option.getD_some, IsName.valid hn, Bool.not_true, Bool.false_eq_true, if_false]
  rw [if_neg (by rw [hs]; omega)]
  have hat : attrsR maxAttributes (as.flatMap Attr.render ++ ws ++ ((if sc then b!"/>" else b!">") ++ r)) =
      some ((if sc then b!"/>" else b!">") ++ r) := by
    rw [hct]; exact attrsR_of ha.2.1 (by rw [maxAttr]; exact ha.1) hw hc
  rw [hat]
  simp only
  rw [endR_of]
  exact openR_flags s b sc n _ r

theorem closeR_inv {s : List Bytes} {b : Bool} {r : Bytes} {st2 : RSt} (h : closeR (vst s b r) = some st2) :
    ∃ s' r', st2 = vst s' true r' ∧ GStep s b (b!"</" ++ r) s' true r' := by
  unfold closeR at h
  have hr : (vst s b r).rest = r := rfl
  simp only [hr] at h
  split at h
  · simp at h
  · rename_i hv
    cases hn1 : (nameR 0 r).1 with
    | none => rw [hn1] at hv; simp at hv
    | some nm =>
      rw [hn1] at hv h
      simp only [Option.getD_some] at hv h
      obtain ⟨e1, e2, e3, e4⟩ := nameR_inv (r' := (nameR 0 r).2) (Prod.ext hn1 rfl)
      generalize (nameR 0 r).2 = r1 at *
      obtain ⟨w, w1, w2, w3⟩ := skipWs_split r1
      cases hs : skipWs r1 with
      | nil => rw [hs] at h; simp at h
      | cons c cs =>
        rw [hs] at h w2
        simp only at h
        split at h
        · simp at h
        · rename_i hc
          simp only [ne_eq, Decidable.not_not] at hc
          cases s with
          | nil => simp [vst] at h
          | cons t ts =>
            simp only [vst] at h
            split at h
            · simp at h
            · rename_i ht
              simp only [ne_eq, Decidable.not_not] at ht
              simp only [Option.some.injEq] at h
              refine ⟨ts, cs, ?_, ?_⟩
              · rw [← h]; simp only [vst]
                cases ts <;> simp
              · have := GStep.close (t := t) (ts := ts) (b := b) (cws := w) (r := cs)
                  (by rw [ht]; simpa using hv) (by rw [ht]; exact e2) (by rw [ht]; have := e4 (by rw [w2]; simp); omega) w1
                have e : b!"</" ++ r = closeTag t w ++ cs := by
                  rw [e1, w2, hc, ht]; simp [closeTag]
                rw [e]; exact this

theorem closeR_of {t : Bytes} {ts : List Bytes} {b : Bool} {cws r : Bytes} (h0 : t ≠ []) (hn : ∀ c ∈ t, NameChar c)
    (hl : t.length ≤ 1048576) (hw : ∀ c ∈ cws, IsWs c) :
    closeR (vst (t :: ts) b (t ++ cws ++ b!">" ++ r)) = some (vst ts true r) := by
  unfold closeR
  have hr : ∀ r, (vst (t :: ts) b r).rest = r := fun _ => rfl
  have e : t ++ cws ++ b!">" ++ r = t ++ (cws ++ c!">" :: r) := by simp
  simp only [hr]
  rw [e, nameR_of hn (by omega) (ws_head_not_name hw (by
    intro c u h; simp only [List.cons.injEq] at h; rw [← h.1]; exact gt_not_name))]
  simp only [Option.getD_some]
  rw [if_neg (by simpa using h0), skipWs_ws hw, skipWs_cons gt_not_ws]
  simp only [vst, ne_eq, not_true_eq_false, if_false]
  cases ts <;> simp

theorem stepR_inv {s : List Bytes} {b : Bool} {c : UInt8} {cs : Bytes} {st2 : RSt} (h : stepR c cs (vst s b (c :: cs)) = some st2) :
    ∃ s' b' r', st2 = vst s' b' r' ∧ GStep s b (c :: cs) s' b' r' := by
  unfold stepR at h
  split at h
  · rename_i hc
    subst hc
    unfold tagR at h
    have hr : (vst s b (c!"<" :: cs)).rest = c!"<" :: cs := rfl
    rw [hr] at h
    simp only [List.drop_one, List.tail_cons] at h
    cases cs with
    | nil => simp at h
    | cons d ds =>
      simp only at h
      split at h
      · rename_i hd
        subst hd
        simp only [RSt.at, Option.map_eq_some_iff] at h
        obtain ⟨r', hu, h2⟩ := h
        obtain ⟨w, e1, e2, e3⟩ := untilR_inv hu
        refine ⟨s, b, r', h2.symm, ?_⟩
        have := GStep.misc (s := s) (b := b) (m := .pi w) (r := r') ⟨e2, by omega⟩
        have e : c!"<" :: c!"?" :: ds = (Misc.pi w).render ++ r' := by rw [e1]; simp [Misc.render]
        rw [e]; exact this
      · split at h
        · rename_i hd
          subst hd
          simp only [RSt.at, Option.map_eq_some_iff] at h
          obtain ⟨r', hu, h2⟩ := h
          obtain ⟨m, m1, m2⟩ := miscR_inv hu
          refine ⟨s, b, r', h2.symm, ?_⟩
          have := GStep.misc (s := s) (b := b) (r := r') m1
          rw [← m2] at this
          exact this
        · split at h
          · rename_i hd
            subst hd
            obtain ⟨s', r', h1, h2⟩ := closeR_inv (s := s) (b := b) (r := ds) h
            exact ⟨s', true, r', h1, h2⟩
          · obtain ⟨s', r', h1, h2⟩ := openR_inv (s := s) (b := b) (r := d :: ds) h
            exact ⟨s', true, r', h1, h2⟩
  · rename_i hc
    split at h
    · split at h
      · simp at h
      · rename_i hf hw
        simp only [Option.some.injEq] at h
        refine ⟨s, b, cs, h.symm, GStep.text hc (fun _ => (isWs_iff c).mp (by simpa using hw))⟩
    · rename_i hf
      simp only [Option.some.injEq] at h
      refine ⟨s, b, cs, h.symm, GStep.text hc ?_⟩
      intro hs
      subst hs
      simp [vst] at hf

theorem stepR_of {s s' : List Bytes} {b b' : Bool} {c : UInt8} {cs r' : Bytes} (h : GStep s b (c :: cs) s' b' r') :
    stepR c cs (vst s b (c :: cs)) = some (vst s' b' r') := by
  generalize hr : c :: cs = r at h
  have hrest : ∀ r, (vst s b r).rest = r := fun _ => rfl
  cases h with
  | misc hm =>
    rename_i m
    by_cases hpi : ∃ w, m = .pi w
    · obtain ⟨w, rfl⟩ := hpi
      simp only [Misc.render, List.cons_append, List.nil_append, List.append_assoc, List.cons.injEq] at hr
      obtain ⟨rfl, rfl⟩ := hr
      unfold stepR tagR
      rw [if_pos rfl]
      simp only [Misc.render, List.cons_append, List.nil_append, List.append_assoc, hrest, List.drop_one, List.tail_cons]
      rw [if_pos trivial, untilR_of hm.1 (by have := hm.2; omega)]; rfl
    · have : ∃ t, m.render ++ r' = b!"<!" ++ t := by
        cases m with
        | pi w => exact absurd ⟨w, rfl⟩ hpi
        | comment w => exact ⟨_, by simp only [Misc.render, List.append_assoc, List.cons_append, List.nil_append]; rfl⟩
        | cdata w => exact ⟨_, by simp only [Misc.render, List.append_assoc, List.cons_append, List.nil_append]; rfl⟩
        | doctype w => exact ⟨_, by simp only [Misc.render, List.append_assoc, List.cons_append, List.nil_append]; rfl⟩
        | decl w => exact ⟨_, by simp only [Misc.render, List.append_assoc, List.cons_append, List.nil_append]; rfl⟩
        | mark w => exact hm.elim
      obtain ⟨t, ht⟩ := this
      have hmr := miscR_render hm ht.symm
      rw [ht] at hr ⊢
      simp only [List.cons_append, List.nil_append, List.cons.injEq] at hr
      obtain ⟨rfl, rfl⟩ := hr
      unfold stepR tagR
      rw [if_pos rfl]
      simp only [hrest, List.cons_append, List.nil_append, List.drop_one, List.tail_cons]
      rw [if_neg (by decide), if_pos trivial, hmr]; rfl
  | leaf hn ha hw hd =>
    rename_i n as ws
    obtain ⟨x, xs, hx, hst⟩ := hn.1
    have hxc := NameStart.char hst
    rw [← isNameChar_iff] at hxc
    have ho := openR_of (b := b) (sc := true) (r := r') hn ha hw hd
    simp only [openTag, List.cons_append, List.nil_append, List.cons.injEq] at hr
    obtain ⟨rfl, rfl⟩ := hr
    unfold stepR tagR
    rw [if_pos rfl]
    simp only [hrest, openTag, List.cons_append, List.nil_append, List.drop_one, List.tail_cons]
    simp only [hx, List.cons_append, if_true] at ho ⊢
    rw [if_neg (by rintro rfl; revert hxc; decide), if_neg (by rintro rfl; revert hxc; decide),
      if_neg (by rintro rfl; revert hxc; decide)]
    exact ho
  | node hn ha hw hd =>
    rename_i n as ws
    obtain ⟨x, xs, hx, hst⟩ := hn.1
    have hxc := NameStart.char hst
    rw [← isNameChar_iff] at hxc
    have ho := openR_of (b := b) (sc := false) (r := r') hn ha hw hd
    simp only [openTag, List.cons_append, List.nil_append, List.cons.injEq] at hr
    obtain ⟨rfl, rfl⟩ := hr
    unfold stepR tagR
    rw [if_pos rfl]
    simp only [hrest, openTag, List.cons_append, List.nil_append, List.drop_one, List.tail_cons]
    simp only [hx, List.cons_append, Bool.false_eq_true, if_false] at ho ⊢
    rw [if_neg (by rintro rfl; revert hxc; decide), if_neg (by rintro rfl; revert hxc; decide),
      if_neg (by rintro rfl; revert hxc; decide)]
    exact ho
  | close h0 hn hl hw =>
    rename_i t cws
    have ho := closeR_of (ts := s') (b := b) (r := r') h0 hn hl hw
    simp only [closeTag, List.cons_append, List.nil_append, List.cons.injEq] at hr
    obtain ⟨rfl, rfl⟩ := hr
    unfold stepR tagR
    rw [if_pos rfl]
    simp only [hrest, closeTag, List.cons_append, List.nil_append, List.drop_one, List.tail_cons]
    rw [if_neg (by decide), if_neg (by decide), if_pos trivial]
    exact ho
  | text hc h0 =>
    simp only [List.cons.injEq] at hr
    obtain ⟨rfl, rfl⟩ := hr
    unfold stepR
    rw [if_neg hc]
    cases s with
    | nil =>
      have := (isWs_iff c).mpr (h0 rfl)
      cases b <;> simp [vst, this]
    | cons t ts => simp [vst]

theorem GStep.nonempty {s s' : List Bytes} {b b' : Bool} {r r' : Bytes} (h : GStep s b r s' b' r') : r'.length < r.length := by
  cases h with
  | misc hm =>
    rename_i m
    cases m <;> simp [Misc.render] <;> omega
  | leaf => simp [openTag]; omega
  | node => simp [openTag]; omega
  | close => simp [closeTag]; omega
  | text => simp

theorem GStep.head {s s' : List Bytes} {b b' : Bool} {c : UInt8} {cs r' : Bytes} (h : GStep s b (c :: cs) s' b' r') :
    c = c!"<" ∨ (s' = s ∧ b' = b ∧ r' = cs) := by
  generalize hr : c :: cs = r at h
  cases h with
  | misc hm =>
    rename_i m
    cases m <;> simp only [Misc.render, List.cons_append, List.cons.injEq] at hr <;> exact .inl hr.1
  | leaf => simp only [openTag, List.cons_append, List.cons.injEq] at hr; exact .inl hr.1
  | node => simp only [openTag, List.cons_append, List.cons.injEq] at hr; exact .inl hr.1
  | close => simp only [closeTag, List.cons_append, List.cons.injEq] at hr; exact .inl hr.1
  | text => simp only [List.cons.injEq] at hr; exact .inr ⟨rfl, rfl, hr.2.symm⟩

theorem hasElem_ne_nil {f : Forest} (h : f.HasElem) : f.render ≠ [] := by
  induction f with
  | nil => exact absurd h id
  | text b next ih => simp [Forest.render, ih h]
  | misc m next ih => simp [Forest.render, ih h]
  | leaf => simp [Forest.render, openTag]
  | node => simp [Forest.render, openTag]

/-! ### soundness -/

/-- What remains to be read: content of the innermost open element, its closing tag, and so on outwards. -/
def Closes : List Bytes → Bool → Bytes → Prop
  | [], b, r => ∃ f : Forest, f.Legal 0 ∧ (b = true ∨ f.HasElem) ∧ r = f.render
  | t :: ts, _, r => ∃ (f : Forest) (cws r' : Bytes), f.Legal (ts.length + 1) ∧ (∀ c ∈ cws, IsWs c) ∧
      r = f.render ++ (closeTag t cws ++ r') ∧ Closes ts true r'

theorem Closes.step {s s' : List Bytes} {b b' : Bool} {r r' : Bytes} (h : GStep s b r s' b' r') (hc : Closes s' b' r') : Closes s b r := by
  cases h with
  | misc hm =>
    rename_i m
    cases s with
    | nil =>
      obtain ⟨f, h1, h2, rfl⟩ := hc
      exact ⟨.misc m f, ⟨hm, h1⟩, h2, rfl⟩
    | cons t ts =>
      obtain ⟨f, cws, r1, h1, h2, rfl, h4⟩ := hc
      exact ⟨.misc m f, cws, r1, ⟨hm, h1⟩, h2, by simp [Forest.render], h4⟩
  | leaf hn ha hw hd =>
    rename_i n as ws
    cases s with
    | nil =>
      obtain ⟨f, h1, h2, rfl⟩ := hc
      exact ⟨.leaf n as ws f, ⟨hn, ha, hw, hd, h1⟩, .inr trivial, rfl⟩
    | cons t ts =>
      obtain ⟨f, cws, r1, h1, h2, rfl, h4⟩ := hc
      exact ⟨.leaf n as ws f, cws, r1, ⟨hn, ha, hw, hd, h1⟩, h2, by simp [Forest.render], h4⟩
  | node hn ha hw hd =>
    rename_i n as ws
    obtain ⟨f, cws, r1, h1, h2, rfl, h4⟩ := hc
    cases s with
    | nil =>
      obtain ⟨g, g1, g2, rfl⟩ := h4
      exact ⟨.node n as ws f cws g, ⟨hn, ha, hw, hd, h1, h2, g1⟩, .inr trivial, by simp [Forest.render]⟩
    | cons t ts =>
      obtain ⟨g, gws, r2, g1, g2, rfl, g4⟩ := h4
      exact ⟨.node n as ws f cws g, gws, r2, ⟨hn, ha, hw, hd, h1, h2, g1⟩, g2, by simp [Forest.render], g4⟩
  | close h0 hn hl hw => exact ⟨.nil, _, _, trivial, hw, rfl, hc⟩
  | text hcc h0 =>
    rename_i c
    cases s with
    | nil =>
      obtain ⟨f, h1, h2, rfl⟩ := hc
      exact ⟨.text [c] f, ⟨by simpa using hcc.symm, fun _ d hd => by simp only [List.mem_singleton] at hd; rw [hd]; exact h0 rfl, h1⟩, h2, rfl⟩
    | cons t ts =>
      obtain ⟨f, cws, r1, h1, h2, rfl, h4⟩ := hc
      exact ⟨.text [c] f, cws, r1, ⟨by simpa using hcc.symm, by simp, h1⟩, h2, by simp [Forest.render], h4⟩

theorem ws_ne_lt {c : UInt8} (h : IsWs c) : c ≠ c!"<" := by
  rintro rfl; exact lt_not_ws h

theorem Closes.ws {s : List Bytes} {b : Bool} {w r : Bytes} (hw : ∀ c ∈ w, IsWs c) (hc : Closes s b r) : Closes s b (w ++ r) := by
  induction w with
  | nil => exact hc
  | cons c cs ih =>
    exact Closes.step (GStep.text (ws_ne_lt (hw c (by simp))) (fun _ => hw c (by simp))) (ih (fun d hd => hw d (by simp [hd])))

theorem loopR_sound {n : Nat} {s : List Bytes} {b : Bool} {r : Bytes} (h : loopR n (vst s b r) = true) : Closes s b r := by
  induction n generalizing s b r with
  | zero => simp [loopR] at h
  | succ n ih =>
    unfold loopR at h
    obtain ⟨w, w1, w2, w3⟩ := skipWs_split r
    have hr : (vst s b r).rest = r := rfl
    rw [hr] at h
    rw [w2]
    refine Closes.ws w1 ?_
    cases hs : skipWs r with
    | nil =>
      rw [hs] at h
      simp only [vst, Bool.and_eq_true, List.isEmpty_iff] at h
      obtain ⟨rfl, h2⟩ := h
      exact ⟨.nil, trivial, .inl (by simpa using h2), rfl⟩
    | cons c cs =>
      rw [hs] at h
      simp only at h
      cases hst : stepR c cs (vst s b (c :: cs)) with
      | none =>
        rw [show ({vst s b r with rest := c :: cs} : RSt) = vst s b (c :: cs) from rfl, hst] at h
        simp at h
      | some st2 =>
        rw [show ({vst s b r with rest := c :: cs} : RSt) = vst s b (c :: cs) from rfl, hst] at h
        obtain ⟨s', b', r', rfl, h2⟩ := stepR_inv hst
        exact Closes.step h2 (ih h)

/-! ### completeness -/

def VAcc (s : List Bytes) (b : Bool) (r : Bytes) : Prop := ∃ n, loopR n (vst s b r) = true

theorem VAcc.step {s s' : List Bytes} {b b' : Bool} {r r' : Bytes} (h : GStep s b r s' b' r') (ha : VAcc s' b' r') : VAcc s b r := by
  have hne := h.nonempty
  cases r with
  | nil => simp at hne
  | cons c cs =>
    by_cases hw : IsWs c
    · rcases h.head with rfl | ⟨rfl, rfl, rfl⟩
      · exact absurd hw lt_not_ws
      · obtain ⟨n, hn⟩ := ha
        refine ⟨n, ?_⟩
        cases n with
        | zero => simp [loopR] at hn
        | succ n =>
          unfold loopR at hn ⊢
          rw [show (vst s' b' (c :: r')).rest = c :: r' from rfl, skipWs, if_pos ((isWs_iff c).mpr hw)]
          exact hn
    · obtain ⟨n, hn⟩ := ha
      refine ⟨n + 1, ?_⟩
      unfold loopR
      rw [show (vst s b (c :: cs)).rest = c :: cs from rfl, skipWs_cons hw]
      simp only
      rw [show ({vst s b (c :: cs) with rest := c :: cs} : RSt) = vst s b (c :: cs) from rfl, stepR_of h]
      exact hn

theorem loopR_fuel {n : Nat} {s : List Bytes} {b : Bool} {r : Bytes} (h : loopR n (vst s b r) = true) {m : Nat} (hm : r.length < m) :
    loopR m (vst s b r) = true := by
  induction n generalizing s b r m with
  | zero => simp [loopR] at h
  | succ n ih =>
    cases m with
    | zero => omega
    | succ m =>
      unfold loopR at h ⊢
      rw [show (vst s b r).rest = r from rfl] at *
      cases hs : skipWs r with
      | nil => rw [hs] at h; exact h
      | cons c cs =>
        have hl := skipWs_length r
        rw [hs] at h hl
        simp only at h ⊢
        rw [show ({vst s b r with rest := c :: cs} : RSt) = vst s b (c :: cs) from rfl] at *
        cases hst : stepR c cs (vst s b (c :: cs)) with
        | none => rw [hst] at h; simp at h
        | some st2 =>
          rw [hst] at h
          obtain ⟨s', b', r', rfl, h2⟩ := stepR_inv hst
          have := h2.nonempty
          exact ih h (by omega)

theorem acc_forest (f : Forest) : ∀ {s : List Bytes} {b b' : Bool} {r : Bytes}, f.Legal s.length →
    (b' = true ↔ b = true ∨ f.HasElem) → VAcc s b' r → VAcc s b (f.render ++ r) := by
  induction f with
  | nil =>
    intro s b b' r hl hb ha
    have : b' = b := by
      simp only [Forest.HasElem, or_false] at hb
      cases b <;> cases b' <;> simp_all
    rw [this] at ha; exact ha
  | text t next ih =>
    intro s b b' r hl hb ha
    obtain ⟨h1, h2, h3⟩ := hl
    have := ih h3 hb ha
    simp only [Forest.render, List.append_assoc]
    clear hb ha
    induction t with
    | nil => exact this
    | cons c cs iht =>
      simp only [List.mem_cons, not_or] at h1
      refine VAcc.step (GStep.text (Ne.symm h1.1) (fun hs => h2 (by rw [hs]; rfl) c (by simp))) ?_
      exact iht h1.2 (fun h0 d hd => h2 h0 d (by simp [hd]))
  | misc m next ih =>
    intro s b b' r hl hb ha
    simp only [Forest.render, List.append_assoc]
    exact VAcc.step (GStep.misc hl.1) (ih hl.2 hb ha)
  | leaf n as ws next ih =>
    intro s b b' r hl hb ha
    obtain ⟨h1, h2, h3, h4, h5⟩ := hl
    have hb' : b' = true := by rw [hb]; exact .inr trivial
    have := VAcc.step (GStep.leaf (b := b) h1 h2 h3 h4) (ih (b := true) h5 (by simp [hb']) ha)
    simpa [Forest.render] using this
  | node n as ws kids cws next ihk ihn =>
    intro s b b' r hl hb ha
    obtain ⟨h1, h2, h3, h4, h5, h6, h7⟩ := hl
    have hb' : b' = true := by rw [hb]; exact .inr trivial
    have a1 : VAcc s true (next.render ++ r) := ihn (b := true) h7 (by simp [hb']) ha
    have a2 : VAcc (n :: s) true (closeTag n cws ++ (next.render ++ r)) :=
      VAcc.step (GStep.close (IsName.ne_nil h1) h1.2.1 h1.2.2 h6) a1
    have a3 := ihk (s := n :: s) (b := true) (b' := true) h5 (by simp) a2
    have := VAcc.step (GStep.node (b := b) h1 h2 h3 h4) a3
    simpa [Forest.render] using this

theorem valid_iff_document (xml : Bytes) : valid xml = true ↔ Document xml := by
  have hmax : maxDocumentSize = 10485760 := rfl
  unfold valid validate Document
  by_cases hl : xml.length > maxDocumentSize
  · rw [if_pos hl]; simp; omega
  · rw [if_neg hl]
    by_cases he : xml.isEmpty = true
    · rw [if_pos he]
      simp only [Option.isNone_some, Bool.false_eq_true, false_iff, not_and, not_exists]
      rintro - f hf hh hx
      exact hasElem_ne_nil hh (by rw [hx]; simpa using he)
    · rw [if_neg he, validateLoop_pure]
      rw [show (VState.pure ⟨⟨xml, 1, 0⟩, [], false, false⟩) = vst [] false xml from rfl]
      constructor
      · intro h
        obtain ⟨f, h1, h2, h3⟩ := loopR_sound h
        exact ⟨by omega, f, h1, by simpa using h2, h3.symm⟩
      · rintro ⟨-, f, h1, h2, h3⟩
        have : VAcc [] true [] := ⟨1, rfl⟩
        obtain ⟨n, hn⟩ := acc_forest f (s := []) (b := false) (b' := true) h1 (by simpa using h2) this
        rw [List.append_nil, h3] at hn
        exact loopR_fuel hn (by omega)

end Verif
