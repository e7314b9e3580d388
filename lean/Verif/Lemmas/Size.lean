import Verif.Lemmas.Limit
import Verif.Lemmas.Panic
/- How large what is read from a document can be: a measure that reading does not increase by more than 13 per `=`. -/
namespace Verif
open Spec

/-- The bytes inside the five entities. -/
def InEntity (c : UInt8) : Prop := c ∈ b!"ltgquoaspm;"

instance (c : UInt8) : Decidable (InEntity c) := inferInstanceAs (Decidable (c ∈ b!"ltgquoaspm;"))

/-- Nothing here continues an entity. -/
def Cut (y : Bytes) : Prop := ∀ c, y.head? = some c → ¬ InEntity c

theorem cut_nil : Cut [] := by intro c h; simp at h
theorem cut_cons {c : UInt8} {y : Bytes} (h : ¬ InEntity c) : Cut (c :: y) := by
  intro d hd; simp only [List.head?_cons, Option.some.injEq] at hd; subst hd; exact h

theorem prefix_cut {p : Bytes} (hp : ∀ c ∈ p, InEntity c) (x : Bytes) {y : Bytes} (hy : Cut y) : p.isPrefixOf (x ++ y) = p.isPrefixOf x := by
  induction p generalizing x with
  | nil => simp
  | cons a p ih =>
    cases x with
    | nil =>
      cases y with
      | nil => rfl
      | cons b y =>
        have h1 := hy b rfl
        have h2 := hp a (by simp)
        have : a ≠ b := by rintro rfl; exact h1 h2
        simp [List.isPrefixOf, this]
    | cons b x =>
      simp only [List.cons_append, List.isPrefixOf]
      rw [ih (fun c hc => hp c (by simp [hc]))]

theorem drop_prefix {p x : Bytes} (h : p.isPrefixOf x = true) : ∃ z, x = p ++ z ∧ x.drop p.length = z := by
  rw [List.isPrefixOf_iff_prefix] at h
  obtain ⟨z, rfl⟩ := h
  exact ⟨z, rfl, by simp⟩

theorem unescape_cut (x : Bytes) {y : Bytes} (hy : Cut y) : unescapeXML (x ++ y) = unescapeXML x ++ unescapeXML y := by
  have P := fun p hp x => prefix_cut (p := p) hp x hy
  have D : ∀ (p x : Bytes), p.isPrefixOf x = true → (x ++ y).drop p.length = x.drop p.length ++ y := by
    intro p x h
    obtain ⟨z, rfl, h2⟩ := drop_prefix h
    simp
  fun_induction unescapeXML x with
  | case1 => simp
  | case2 cs h ih =>
    rw [List.cons_append, unescapeXML]
    rw [if_pos rfl, if_pos (by rw [P _ (by decide)]; exact h), show (3 : Nat) = (b!"lt;").length from rfl, D _ _ h, List.cons_append]
    congr 1
  | case3 cs h1 h ih =>
    rw [List.cons_append, unescapeXML]
    rw [if_pos rfl, if_neg (by rw [P _ (by decide)]; exact h1), if_pos (by rw [P _ (by decide)]; exact h), show (3 : Nat) = (b!"gt;").length from rfl, D _ _ h, List.cons_append]
    congr 1
  | case4 cs h1 h2 h ih =>
    rw [List.cons_append, unescapeXML]
    rw [if_pos rfl, if_neg (by rw [P _ (by decide)]; exact h1), if_neg (by rw [P _ (by decide)]; exact h2), if_pos (by rw [P _ (by decide)]; exact h),
      show (5 : Nat) = (b!"quot;").length from rfl, D _ _ h, List.cons_append]
    congr 1
  | case5 cs h1 h2 h3 h ih =>
    rw [List.cons_append, unescapeXML]
    rw [if_pos rfl, if_neg (by rw [P _ (by decide)]; exact h1), if_neg (by rw [P _ (by decide)]; exact h2), if_neg (by rw [P _ (by decide)]; exact h3),
      if_pos (by rw [P _ (by decide)]; exact h), show (5 : Nat) = (b!"apos;").length from rfl, D _ _ h, List.cons_append]
    congr 1
  | case6 cs h1 h2 h3 h4 h ih =>
    rw [List.cons_append, unescapeXML]
    rw [if_pos rfl, if_neg (by rw [P _ (by decide)]; exact h1), if_neg (by rw [P _ (by decide)]; exact h2), if_neg (by rw [P _ (by decide)]; exact h3),
      if_neg (by rw [P _ (by decide)]; exact h4), if_pos (by rw [P _ (by decide)]; exact h), show (4 : Nat) = (b!"amp;").length from rfl, D _ _ h, List.cons_append]
    congr 1
  | case7 cs h1 h2 h3 h4 h5 ih =>
    rw [List.cons_append, unescapeXML]
    rw [if_pos rfl, if_neg (by rw [P _ (by decide)]; exact h1), if_neg (by rw [P _ (by decide)]; exact h2), if_neg (by rw [P _ (by decide)]; exact h3),
      if_neg (by rw [P _ (by decide)]; exact h4), if_neg (by rw [P _ (by decide)]; exact h5), List.cons_append, ih]
  | case8 c cs h ih => rw [List.cons_append, unescapeXML_cons_ne h, List.cons_append, ih]

/-- The measure: length once every markup byte is written as an entity. -/
def wt (x : Bytes) : Nat := (escapeXML (unescapeXML x)).length

theorem wt_nil : wt [] = 0 := by rw [wt, unescapeXML_nil]; rfl

theorem wt_cut (x : Bytes) {y : Bytes} (hy : Cut y) : wt (x ++ y) = wt x + wt y := by
  rw [wt, unescape_cut x hy, escapeXML_append, List.length_append]; rfl

theorem escByte_len (c : UInt8) : 1 ≤ (escByte c).length ∧ (escByte c).length ≤ 6 := by
  unfold escByte
  repeat' split
  all_goals simp

theorem esc_len (x : Bytes) : x.length ≤ (escapeXML x).length ∧ (escapeXML x).length ≤ 6 * x.length := by
  induction x with
  | nil => simp [escapeXML]
  | cons c cs ih =>
    have := escByte_len c
    simp only [escapeXML, List.length_append, List.length_cons]; omega

theorem unescape_len (x : Bytes) : (unescapeXML x).length ≤ x.length := by
  fun_induction unescapeXML x with
  | case1 => simp
  | case7 => simp only [List.length_cons]; omega
  | case8 => simp only [List.length_cons]; omega
  | _ => simp only [List.length_cons, List.length_drop] at *; omega

theorem wt_le (x : Bytes) : wt x ≤ 6 * x.length := by
  have := unescape_len x
  have := (esc_len (unescapeXML x)).2
  unfold wt; omega

theorem wt_esc (x : Bytes) : wt (escapeXML x) = (escapeXML x).length := by rw [wt, unescape_escape]

/-- Case analysis at the front: an entity, or one byte. -/
theorem wt_front (c : UInt8) (cs : Bytes) : (∃ e z, e ∈ [b!"&lt;", b!"&gt;", b!"&quot;", b!"&apos;", b!"&amp;"] ∧ c :: cs = e ++ z ∧ wt (c :: cs) = e.length + wt z) ∨
    wt (c :: cs) = (escByte c).length + wt cs := by
  have key : ∀ (e : Bytes) (u : UInt8) (z : Bytes), unescapeXML (e ++ z) = u :: unescapeXML z → (escByte u).length = e.length → wt (e ++ z) = e.length + wt z := by
    intro e u z h1 h2
    rw [wt, h1, escapeXML, List.length_append, h2]; rfl
  by_cases h : c = c!"&"
  · subst h
    have split3 : ∀ (p : Bytes), p.isPrefixOf cs = true → ∃ z, c!"&" :: cs = (c!"&" :: p) ++ z := by
      intro p hp
      obtain ⟨z, rfl, -⟩ := drop_prefix hp
      exact ⟨z, rfl⟩
    by_cases h1 : (b!"lt;").isPrefixOf cs = true
    · obtain ⟨z, hz⟩ := split3 _ h1
      exact .inl ⟨b!"&lt;", z, by decide, hz, by rw [hz]; exact key b!"&lt;" _ z (unescapeXML_lt z) (by decide)⟩
    by_cases h2 : (b!"gt;").isPrefixOf cs = true
    · obtain ⟨z, hz⟩ := split3 _ h2
      exact .inl ⟨b!"&gt;", z, by decide, hz, by rw [hz]; exact key b!"&gt;" _ z (unescapeXML_gt z) (by decide)⟩
    by_cases h3 : (b!"quot;").isPrefixOf cs = true
    · obtain ⟨z, hz⟩ := split3 _ h3
      exact .inl ⟨b!"&quot;", z, by decide, hz, by rw [hz]; exact key b!"&quot;" _ z (unescapeXML_quot z) (by decide)⟩
    by_cases h4 : (b!"apos;").isPrefixOf cs = true
    · obtain ⟨z, hz⟩ := split3 _ h4
      exact .inl ⟨b!"&apos;", z, by decide, hz, by rw [hz]; exact key b!"&apos;" _ z (unescapeXML_apos z) (by decide)⟩
    by_cases h5 : (b!"amp;").isPrefixOf cs = true
    · obtain ⟨z, hz⟩ := split3 _ h5
      exact .inl ⟨b!"&amp;", z, by decide, hz, by rw [hz]; exact key b!"&amp;" _ z (unescapeXML_amp z) (by decide)⟩
    · right
      rw [wt, unescapeXML]
      rw [if_pos rfl, if_neg h1, if_neg h2, if_neg h3, if_neg h4, if_neg h5, escapeXML, List.length_append]; rfl
  · right
    rw [wt, unescapeXML_cons_ne h, escapeXML, List.length_append]; rfl

theorem wt_cons_ne {c : UInt8} (h : c ≠ c!"&") (cs : Bytes) : wt (c :: cs) = (escByte c).length + wt cs := by
  rw [wt, unescapeXML_cons_ne h, escapeXML, List.length_append]; rfl

theorem wt_plain {p : Bytes} (h : ∀ c ∈ p, c ≠ c!"&") (z : Bytes) : wt (p ++ z) = (escapeXML p).length + wt z := by
  induction p with
  | nil => simp [escapeXML]
  | cons c p ih =>
    rw [List.cons_append, wt_cons_ne (h c (by simp)), ih (fun d hd => h d (by simp [hd])), escapeXML, List.length_append]; omega

theorem le_wt (x : Bytes) : x.length ≤ wt x := by
  induction h : x.length using Nat.strongRecOn generalizing x with
  | _ n ih =>
    cases x with
    | nil => simp at h; omega
    | cons c cs =>
      subst h
      rcases wt_front c cs with ⟨e, z, he, hz, hw⟩ | hw
      · have h1 : 1 ≤ e.length := by revert he; simp only [List.mem_cons, List.not_mem_nil, or_false]; rintro (rfl | rfl | rfl | rfl | rfl) <;> decide
        have h2 : (c :: cs).length = e.length + z.length := by rw [hz, List.length_append]
        have := ih z.length (by omega) z rfl
        omega
      · have := ih cs.length (by simp) cs rfl
        have := (escByte_len c).1
        simp only [List.length_cons]; omega

/-- Dropping bytes at the front lowers the measure by at least their number. -/
theorem wt_drop1 (c : UInt8) (cs : Bytes) : wt cs + 1 ≤ wt (c :: cs) := by
  rcases wt_front c cs with ⟨e, z, he, hz, hw⟩ | hw
  · have : ∃ p, e = c!"&" :: p ∧ (∀ d ∈ p, d ≠ c!"&") ∧ (escapeXML p).length = p.length := by
      revert he; simp only [List.mem_cons, List.not_mem_nil, or_false]
      rintro (rfl | rfl | rfl | rfl | rfl) <;> exact ⟨_, rfl, by decide, by decide⟩
    obtain ⟨p, rfl, hp, hpl⟩ := this
    simp only [List.cons_append, List.cons.injEq] at hz
    obtain ⟨rfl, rfl⟩ := hz
    rw [hw, wt_plain hp, hpl, List.length_cons]; omega
  · have := (escByte_len c).1
    omega

theorem wt_suffix (p x : Bytes) : wt x + p.length ≤ wt (p ++ x) := by
  induction p with
  | nil => simp
  | cons c p ih =>
    have := wt_drop1 c (p ++ x)
    simp only [List.cons_append, List.length_cons]; omega

theorem wt_append (x y : Bytes) : wt (x ++ y) ≤ wt x + wt y := by
  induction h : x.length using Nat.strongRecOn generalizing x with
  | _ n ih =>
    cases x with
    | nil => simp [wt_nil]
    | cons c cs =>
      subst h
      rcases wt_front c cs with ⟨e, z, he, hz, hw⟩ | hw
      · have h1 : 1 ≤ e.length := by revert he; simp only [List.mem_cons, List.not_mem_nil, or_false]; rintro (rfl | rfl | rfl | rfl | rfl) <;> decide
        have h2 : (c :: cs).length = e.length + z.length := by rw [hz, List.length_append]
        have h3 := ih z.length (by omega) z rfl
        have h4 : wt (e ++ (z ++ y)) = e.length + wt (z ++ y) := by
          revert he; simp only [List.mem_cons, List.not_mem_nil, or_false]
          rintro (rfl | rfl | rfl | rfl | rfl)
          · rw [wt, unescapeXML_lt, escapeXML, List.length_append]; rfl
          · rw [wt, unescapeXML_gt, escapeXML, List.length_append]; rfl
          · rw [wt, unescapeXML_quot, escapeXML, List.length_append]; rfl
          · rw [wt, unescapeXML_apos, escapeXML, List.length_append]; rfl
          · rw [wt, unescapeXML_amp, escapeXML, List.length_append]; rfl
        rw [hw, hz, List.append_assoc, h4]; omega
      · have h3 := ih cs.length (by simp) cs rfl
        rw [List.cons_append, hw]
        rcases wt_front c (cs ++ y) with ⟨e, z, he, hz, hw2⟩ | hw2
        · have h5 := wt_drop1 c (cs ++ y)
          have h6 : c = c!"&" := by
            revert he hz; simp only [List.mem_cons, List.not_mem_nil, or_false]
            rintro (rfl | rfl | rfl | rfl | rfl) hz <;> exact (List.cons.inj hz).1
          have h7 : ∃ p, e = c!"&" :: p ∧ (∀ d ∈ p, d ≠ c!"&") ∧ (escapeXML p).length = p.length := by
            revert he; simp only [List.mem_cons, List.not_mem_nil, or_false]
            rintro (rfl | rfl | rfl | rfl | rfl) <;> exact ⟨_, rfl, by decide, by decide⟩
          obtain ⟨p, rfl, hp, hpl⟩ := h7
          simp only [List.cons_append, List.cons.injEq] at hz
          have h8 : wt (cs ++ y) = p.length + wt z := by rw [hz.2, wt_plain hp, hpl]
          have := (escByte_len c).1
          rw [hw2, List.length_cons]; omega
        · rw [hw2]; omega

/-- Number of `=`. -/
def eqs (x : Bytes) : Nat := x.count c!"="

theorem eqs_append (x y : Bytes) : eqs (x ++ y) = eqs x + eqs y := List.count_append
theorem eqs_cons_ne {c : UInt8} (h : c ≠ c!"=") (x : Bytes) : eqs (c :: x) = eqs x := by simp [eqs, h]
theorem eqs_drop1 (c : UInt8) (x : Bytes) : eqs x ≤ eqs (c :: x) := by rw [eqs, eqs, List.count_cons]; omega

theorem eqs_escByte (c : UInt8) : eqs (escByte c) = eqs [c] := by
  unfold escByte
  split; · rename_i h; subst h; decide
  split; · rename_i h; subst h; decide
  split; · rename_i h; subst h; decide
  split; · rename_i h; subst h; decide
  split; · rename_i h; subst h; decide
  rfl

theorem eqs_esc (x : Bytes) : eqs (escapeXML x) = eqs x := by
  induction x with
  | nil => rfl
  | cons c x ih => rw [escapeXML, eqs_append, eqs_escByte, ih, ← eqs_append]; rfl

theorem eqs_unesc (x : Bytes) : eqs (unescapeXML x) ≤ eqs x := by
  have D : ∀ (n : Nat) (x : Bytes), eqs (x.drop n) ≤ eqs x := fun n x => by
    have := eqs_append (x.take n) (x.drop n)
    rw [List.take_append_drop] at this; omega
  fun_induction unescapeXML x with
  | case1 => simp
  | case2 cs h ih => have := D 3 cs; rw [eqs_cons_ne (by decide), eqs_cons_ne (by decide)]; omega
  | case3 cs _ h ih => have := D 3 cs; rw [eqs_cons_ne (by decide), eqs_cons_ne (by decide)]; omega
  | case4 cs _ _ h ih => have := D 5 cs; rw [eqs_cons_ne (by decide), eqs_cons_ne (by decide)]; omega
  | case5 cs _ _ _ h ih => have := D 5 cs; rw [eqs_cons_ne (by decide), eqs_cons_ne (by decide)]; omega
  | case6 cs _ _ _ _ h ih => have := D 4 cs; rw [eqs_cons_ne (by decide), eqs_cons_ne (by decide)]; omega
  | case7 cs _ _ _ _ _ ih => rw [eqs_cons_ne (by decide), eqs_cons_ne (by decide)]; omega
  | case8 c cs h ih => simp only [eqs, List.count_cons] at *; omega

/-- Measure and number of `=` of what is read and of what is left. -/
theorem readAux_cost {stop : UInt8 → Bool} (hs : ∀ c, stop c = true → ¬ InEntity c) (k : Nat) (r : Bytes) :
    (∃ t, (readAux stop k r).1 = some t ∧ r = t ++ (readAux stop k r).2 ∧ Cut (readAux stop k r).2 ∧ ∀ c, (readAux stop k r).2.head? = some c → stop c = true) ∨
      ((readAux stop k r).1 = none ∧ ∃ p, r = p ++ (readAux stop k r).2 ∧ k + p.length > maxTokenSize) := by
  induction r generalizing k with
  | nil => left; exact ⟨[], rfl, rfl, cut_nil, by simp [readAux]⟩
  | cons c cs ih =>
    simp only [readAux]
    split
    · right; exact ⟨rfl, [], rfl, by simp; omega⟩
    · split
      · rename_i h; left; exact ⟨[], rfl, rfl, cut_cons (hs c h), by simpa using h⟩
      · rcases ih (k + 1) with ⟨t, h1, h2, h3, h4⟩ | ⟨h1, p, h2, h3⟩
        · left; exact ⟨c :: t, by simp [h1], by simp only [List.cons_append]; rw [← h2], h3, h4⟩
        · right; exact ⟨by simp [h1], c :: p, by simp only [List.cons_append]; rw [← h2], by simp only [List.length_cons]; omega⟩

theorem readUntilP_cost {stop : UInt8 → Bool} (hs : ∀ c, stop c = true → ¬ InEntity c) (r : Bytes) :
    wt (readUntilP stop r).1 + wt (readUntilP stop r).2 ≤ wt r ∧ eqs (readUntilP stop r).1 + eqs (readUntilP stop r).2 ≤ eqs r := by
  have e1 : (readUntilP stop r).1 = (readAux stop 0 r).1.getD [] := rfl
  have e2 : (readUntilP stop r).2 = (readAux stop 0 r).2 := rfl
  rw [e1, e2]
  rcases readAux_cost hs 0 r with ⟨t, h1, h2, h3, -⟩ | ⟨h1, p, h2, -⟩
  · rw [h1]; simp only [Option.getD_some]
    have w := wt_cut t h3
    have q := eqs_append t (readAux stop 0 r).2
    rw [← h2] at w q; omega
  · rw [h1]; simp only [Option.getD_none, wt_nil]
    have w := wt_suffix p (readAux stop 0 r).2
    have q := eqs_append p (readAux stop 0 r).2
    rw [← h2] at w q
    have : eqs [] = 0 := rfl
    omega

theorem skipWs_cost (r : Bytes) : wt (skipWs r) ≤ wt r ∧ eqs (skipWs r) ≤ eqs r := by
  induction r with
  | nil => simp [skipWs]
  | cons c cs ih =>
    simp only [skipWs]
    have := wt_drop1 c cs
    have := eqs_drop1 c cs
    split <;> omega

theorem drop1_cost (r : Bytes) : wt (r.drop 1) ≤ wt r ∧ eqs (r.drop 1) ≤ eqs r := by
  cases r with
  | nil => simp
  | cons c cs =>
    have := wt_drop1 c cs
    have := eqs_drop1 c cs
    simp only [List.drop_succ_cons, List.drop_zero]; omega

/-- Measure of an attribute written back, and its `=`. -/
def awt (p : Bytes × Bytes) : Nat := 14 + wt p.1 + (escapeXML p.2).length
def aeq (p : Bytes × Bytes) : Nat := 1 + eqs p.1 + eqs p.2

theorem set_cost (g : Bytes × Bytes → Nat) (k v : Bytes) (m : Attrs) : ((Attrs.set k v m).map g).sum ≤ (m.map g).sum + g (k, v) := by
  induction m with
  | nil => simp [Attrs.set]
  | cons p m ih =>
    obtain ⟨k', v'⟩ := p
    simp only [Attrs.set]
    split <;> simp only [List.map_cons, List.sum_cons] at * <;> omega

theorem attrDelim_cut : ∀ c, isAttrDelim c = true → ¬ InEntity c := by
  intro c h hc
  have : ∀ d ∈ b!"ltgquoaspm;", isAttrDelim d = false := by decide
  rw [this c hc] at h; simp at h

theorem nameDelim_cut : ∀ c, isNameDelim c = true → ¬ InEntity c := by
  intro c h hc
  have : ∀ d ∈ b!"ltgquoaspm;", isNameDelim d = false := by decide
  rw [this c hc] at h; simp at h

theorem parseAttrsN_cost (n : Nat) (acc : Attrs) (r : Bytes) :
    (((parseAttrsN n acc r).1.map awt).sum + wt (parseAttrsN n acc r).2 + 13 * eqs (parseAttrsN n acc r).2 ≤ (acc.map awt).sum + wt r + 13 * eqs r) ∧
      ((parseAttrsN n acc r).1.map aeq).sum + eqs (parseAttrsN n acc r).2 ≤ (acc.map aeq).sum + eqs r := by
  induction n generalizing acc r with
  | zero => have := skipWs_cost r; simp only [parseAttrsN]; omega
  | succ n ih =>
    have h0 := skipWs_cost r
    have z1 := wt_nil
    have z2 : eqs [] = 0 := rfl
    rw [parseAttrsN]
    split
    · rename_i heq; simp only [z1, z2]; omega
    · rename_i c cs heq
      rw [heq] at h0
      split
      · simp only; omega
      · have h1 := readUntilP_cost attrDelim_cut (c :: cs)
        simp only
        generalize (readUntilP isAttrDelim (c :: cs)).1 = name at h1
        generalize (readUntilP isAttrDelim (c :: cs)).2 = r1 at h1
        split
        · simp only; omega
        · have h2 := skipWs_cost r1
          split
          · simp only [z1, z2]; omega
          · rename_i e r2 heq2
            rw [heq2] at h2
            split
            · simp only; omega
            · rename_i he
              simp only [ne_eq, Decidable.not_not] at he
              subst he
              have h3 := skipWs_cost r2
              have w1 := wt_cons_ne (c := c!"=") (by decide) r2
              have w2 : (escByte c!"=").length = 1 := by decide
              have w3 : eqs (c!"=" :: r2) = eqs r2 + 1 := by simp [eqs]
              split
              · have := ih (acc.set name []) []
                have s1 := set_cost awt name [] acc
                have s2 := set_cost aeq name [] acc
                simp only [awt, aeq, z2, z1, escapeXML, List.length_nil] at *; omega
              · rename_i q r3 heq3
                rw [heq3] at h3
                split
                · rename_i hq
                  have hq1 : wt (q :: r3) = 6 + wt r3 := by
                    simp only [Bool.or_eq_true, decide_eq_true_eq] at hq
                    rcases hq with rfl | rfl <;> rw [wt_cons_ne (by decide)] <;> rfl
                  have hq2 : eqs r3 ≤ eqs (q :: r3) := eqs_drop1 q r3
                  have h4 := readUntilP_cost (stop := (· == q)) (by
                    intro c h hc
                    simp only [beq_iff_eq] at h
                    subst h
                    simp only [Bool.or_eq_true, decide_eq_true_eq] at hq
                    rcases hq with rfl | rfl <;> exact absurd hc (by decide)) r3
                  have e4 : readUntil q r3 = readUntilP (· == q) r3 := rfl
                  rw [e4]
                  generalize (readUntilP (· == q) r3).1 = v at h4
                  generalize (readUntilP (· == q) r3).2 = r4 at h4
                  have h5 := drop1_cost r4
                  have := ih (acc.set name (unescapeXML v)) (r4.drop 1)
                  have s1 := set_cost awt name (unescapeXML v) acc
                  have s2 := set_cost aeq name (unescapeXML v) acc
                  have s3 : (escapeXML (unescapeXML v)).length = wt v := rfl
                  have s4 := eqs_unesc v
                  simp only [awt, aeq] at *; omega
                · have h4 := readUntilP_cost nameDelim_cut (q :: r3)
                  generalize (readUntilP isNameDelim (q :: r3)).1 = v at h4
                  generalize (readUntilP isNameDelim (q :: r3)).2 = r4 at h4
                  have := ih (acc.set name (unescapeXML v)) r4
                  have s1 := set_cost awt name (unescapeXML v) acc
                  have s2 := set_cost aeq name (unescapeXML v) acc
                  have s3 : (escapeXML (unescapeXML v)).length = wt v := rfl
                  have s4 := eqs_unesc v
                  simp only [awt, aeq] at *; omega

theorem tagTail_cost (r : Bytes) : wt (if (tagTail r).1 then b!"/" else []) + wt (if (tagTail r).2.1 then b!">" else []) + wt (tagTail r).2.2 ≤ wt r ∧ eqs (tagTail r).2.2 ≤ eqs r := by
  have z1 := wt_nil
  have key : ∀ r1 : Bytes, wt (match r1 with | c :: cs => if c = c!">" then b!">" else [] | [] => []) + wt (match r1 with | c :: cs => if c = c!">" then cs else c :: cs | [] => []) ≤ wt r1 ∧
      eqs (match r1 with | c :: cs => if c = c!">" then cs else c :: cs | [] => []) ≤ eqs r1 := by
    intro r1
    cases r1 with
    | nil => simp [z1]
    | cons c cs =>
      by_cases h : c = c!">"
      · subst h
        simp only [if_true]
        have := wt_cons_ne (c := c!">") (by decide) cs
        have h2 : wt b!">" = 4 := by decide +kernel
        have h3 : (escByte c!">").length = 4 := by decide
        have := eqs_drop1 c!">" cs
        omega
      · simp only [if_neg h, z1]; omega
  cases r with
  | nil => simp [tagTail, z1]
  | cons c cs =>
    by_cases h : c = c!"/"
    · subst h
      have k := key cs
      have h1 := wt_cons_ne (c := c!"/") (by decide) cs
      have h2 : wt b!"/" = 1 := by decide +kernel
      have h3 : (escByte c!"/").length = 1 := by decide
      have h4 := eqs_drop1 c!"/" cs
      cases cs with
      | nil => simp only [tagTail, if_true]; simp [z1] at *; omega
      | cons d ds =>
        simp only [tagTail, if_true]
        simp only at k
        by_cases hd : d = c!">"
        · simp only [if_pos hd] at k ⊢; simp only [if_true]; omega
        · simp only [if_neg hd] at k ⊢; simp only [if_true, Bool.false_eq_true, if_false]; omega
    · have k := key (c :: cs)
      simp only [tagTail, if_neg h]
      simp only at k
      by_cases hd : c = c!">"
      · simp only [if_pos hd] at k ⊢; simp only [if_true, Bool.false_eq_true, if_false, z1]; omega
      · simp only [if_neg hd] at k ⊢; simp only [Bool.false_eq_true, if_false, z1]; omega

theorem writeAttrs_cost (as : Attrs) : wt (writeAttrs as) ≤ (as.map awt).sum ∧ eqs (writeAttrs as) = (as.map aeq).sum := by
  induction as with
  | nil => simp [writeAttrs, wt_nil, eqs]
  | cons p as ih =>
    obtain ⟨k, v⟩ := p
    simp only [writeAttrs, List.map_cons, List.sum_cons, awt, aeq]
    have h1 := wt_append (b!" " ++ k ++ b!"=\"" ++ escapeXML v ++ b!"\"") (writeAttrs as)
    have h2 := wt_append (b!" " ++ k ++ b!"=\"" ++ escapeXML v) b!"\""
    have h3 := wt_append (b!" " ++ k ++ b!"=\"") (escapeXML v)
    have h4 := wt_append (b!" " ++ k) b!"=\""
    have h5 := wt_append b!" " k
    have e1 : wt b!" " = 1 := by decide +kernel
    have e2 : wt b!"=\"" = 7 := by decide +kernel
    have e3 : wt b!"\"" = 6 := by decide +kernel
    have e4 := wt_esc v
    have q1 : eqs b!" " = 0 := by decide
    have q2 : eqs b!"=\"" = 1 := by decide
    have q3 : eqs b!"\"" = 0 := by decide
    have q4 := eqs_esc v
    constructor
    · omega
    · rw [eqs_append, eqs_append, eqs_append, eqs_append, eqs_append]; omega

theorem parseTag_cost (r : Bytes) {a : Attrs} (ha : a.Perm (parseTag r).1.attrs) :
    wt (writeTag (parseTag r).1 a) + wt (parseTag r).2 + 13 * eqs (parseTag r).2 ≤ 4 + wt r + 13 * eqs r ∧
      eqs (writeTag (parseTag r).1 a) + eqs (parseTag r).2 ≤ eqs r := by
  have h1 := readUntilP_cost nameDelim_cut r
  have h2 := parseAttrsN_cost maxAttributes [] (readUntilP isNameDelim r).2
  have h3 := tagTail_cost (parseAttributes (readUntilP isNameDelim r).2).2
  have e1 : (parseTag r).1.name = (readUntilP isNameDelim r).1 := rfl
  have e2 : (parseTag r).1.attrs = (parseAttributes (readUntilP isNameDelim r).2).1 := rfl
  have e3 : (parseTag r).1.selfClosing = (tagTail (parseAttributes (readUntilP isNameDelim r).2).2).1 := rfl
  have e4 : (parseTag r).1.gt = (tagTail (parseAttributes (readUntilP isNameDelim r).2).2).2.1 := rfl
  have e5 : (parseTag r).2 = (tagTail (parseAttributes (readUntilP isNameDelim r).2).2).2.2 := rfl
  have p1 : (a.map awt).sum = ((parseTag r).1.attrs.map awt).sum := (ha.map awt).sum_nat
  have p2 : (a.map aeq).sum = ((parseTag r).1.attrs.map aeq).sum := (ha.map aeq).sum_nat
  have hw := writeAttrs_cost a
  unfold writeTag
  rw [e3, e4]
  have e6 : parseAttributes (readUntilP isNameDelim r).2 = parseAttrsN maxAttributes [] (readUntilP isNameDelim r).2 := rfl
  rw [← e6] at h2
  rw [← e2] at h2
  rw [← e1] at h1
  rw [← e5] at h3 
  have w1 := wt_append (b!"<" ++ (parseTag r).1.name ++ writeAttrs a ++ (if (tagTail (parseAttributes (readUntilP isNameDelim r).2).2).1 then b!"/" else []))
    (if (tagTail (parseAttributes (readUntilP isNameDelim r).2).2).2.1 then b!">" else [])
  have w2 := wt_append (b!"<" ++ (parseTag r).1.name ++ writeAttrs a) (if (tagTail (parseAttributes (readUntilP isNameDelim r).2).2).1 then b!"/" else [])
  have w3 := wt_append (b!"<" ++ (parseTag r).1.name) (writeAttrs a)
  have w4 := wt_append b!"<" (parseTag r).1.name
  have w5 : wt b!"<" = 4 := by decide +kernel
  have q1 : eqs b!"<" = 0 := by decide
  have q2 : ∀ b : Bool, eqs (if b then b!"/" else []) = 0 := by decide
  have q3 : ∀ b : Bool, eqs (if b then b!">" else []) = 0 := by decide
  simp only [List.map_nil, List.sum_nil] at h2
  constructor
  · omega
  · rw [eqs_append, eqs_append, eqs_append, eqs_append, q1, q2, q3]; omega

theorem trimFront_split (len : Bytes → Nat) (s : Bytes) : ∃ p, s = p ++ trimFront len s := by
  fun_induction trimFront len s with
  | case1 s h ih =>
    obtain ⟨p, hp⟩ := ih
    exact ⟨s.take (len s) ++ p, by rw [List.append_assoc, ← hp, List.take_append_drop]⟩
  | case2 => exact ⟨[], rfl⟩

theorem spaceRev_last (s : Bytes) (h : 0 < spaceLenRev s) : ∃ c, (s.take (spaceLenRev s)).getLast? = some c ∧ ¬ InEntity c := by
  have hsp : ∀ c : UInt8, InEntity c → ((9 ≤ c && c ≤ 13) || c = 32) = false := by
    intro c hc
    have : ∀ d ∈ b!"ltgquoaspm;", ((9 ≤ d && d ≤ 13) || d = 32) = false := by decide
    exact this c hc
  match s with
  | [] => simp [spaceLenRev] at h
  | [c] =>
    simp only [spaceLenRev] at h ⊢
    split at h
    · rename_i h1
      rw [if_pos h1]
      exact ⟨c, rfl, fun hc => by rw [hsp c hc] at h1; simp at h1⟩
    · simp at h
  | [c, d] =>
    simp only [spaceLenRev] at h ⊢
    split at h
    · rename_i h1
      rw [if_pos h1]
      exact ⟨c, rfl, fun hc => by rw [hsp c hc] at h1; simp at h1⟩
    · rename_i h1
      rw [if_neg h1]
      split at h
      · rename_i h2
        rw [if_pos h2]
        split at h
        · rename_i h3
          rw [if_pos h3]
          exact ⟨d, rfl, by rw [h2]; decide⟩
        · simp at h
      · simp at h
  | c :: d :: e :: r =>
    simp only [spaceLenRev] at h ⊢
    split at h
    · rename_i h1
      rw [if_pos h1]
      exact ⟨c, rfl, fun hc => by rw [hsp c hc] at h1; simp at h1⟩
    · rename_i h1
      rw [if_neg h1]
      split at h
      · rename_i h2
        rw [if_pos h2]
        split at h
        · rename_i h3
          rw [if_pos h3]
          exact ⟨d, rfl, by rw [h2]; decide⟩
        · simp at h
      · rename_i h2
        rw [if_neg h2]
        repeat' split at h
        all_goals first | simp at h | skip
        all_goals simp only [*, if_true, if_false, Bool.false_eq_true]
        all_goals first | exact ⟨0xE1, rfl, by decide⟩ | exact ⟨0xE2, rfl, by decide⟩ | exact ⟨0xE3, rfl, by decide⟩

theorem trimRev_split (s : Bytes) : ∃ p, s = p ++ trimFront spaceLenRev s ∧ (p = [] ∨ ∃ c, p.getLast? = some c ∧ ¬ InEntity c) := by
  fun_induction trimFront spaceLenRev s with
  | case1 s h ih =>
    obtain ⟨p, hp, h2⟩ := ih
    refine ⟨s.take (spaceLenRev s) ++ p, by rw [List.append_assoc, ← hp, List.take_append_drop], .inr ?_⟩
    rcases h2 with rfl | ⟨c, hc, h3⟩
    · rw [List.append_nil]; exact spaceRev_last s h.1
    · exact ⟨c, by rw [List.getLast?_append, hc]; rfl, h3⟩
  | case2 => exact ⟨[], rfl, .inl rfl⟩

theorem trimSpace_cost (s : Bytes) : wt (trimSpace s) ≤ wt s ∧ eqs (trimSpace s) ≤ eqs s := by
  obtain ⟨p, hp⟩ := trimFront_split spaceLen s
  obtain ⟨q, hq, h2⟩ := trimRev_split (trimFront spaceLen s).reverse
  have e : trimFront spaceLen s = trimSpace s ++ q.reverse := by
    have := congrArg List.reverse hq
    simpa [trimSpace] using this
  have hc : Cut q.reverse := by
    rcases h2 with rfl | ⟨c, hc, h3⟩
    · exact cut_nil
    · intro d hd
      rw [List.head?_reverse, hc] at hd
      cases hd; exact h3
  have w1 := wt_suffix p (trimFront spaceLen s)
  have q1 := eqs_append p (trimFront spaceLen s)
  rw [← hp] at w1 q1
  have w2 := wt_cut (trimSpace s) hc
  have q2 := eqs_append (trimSpace s) q.reverse
  rw [← e] at w2 q2
  omega

theorem closeName_cost (s : Bytes) : wt (closeName s) ≤ wt s ∧ eqs (closeName s) ≤ eqs s := by
  have h := trimSpace_cost s
  have e := List.takeWhile_append_dropWhile (p := fun c => !isWs c) (l := trimSpace s)
  have hc : Cut ((trimSpace s).dropWhile (fun c => !isWs c)) := by
    intro c hc
    have h2 := List.head?_dropWhile_not (p := fun c => !isWs c) (trimSpace s)
    rw [hc] at h2
    simp only [Bool.not_eq_eq_eq_not, Bool.not_false] at h2
    intro hin
    have : ∀ d ∈ b!"ltgquoaspm;", isWs d = false := by decide
    have h3 := this c hin
    simp [h3] at h2
  have w := wt_cut ((trimSpace s).takeWhile (fun c => !isWs c)) hc
  have q := eqs_append ((trimSpace s).takeWhile (fun c => !isWs c)) ((trimSpace s).dropWhile (fun c => !isWs c))
  rw [e] at w q
  unfold closeName
  omega

theorem readClose_cost (ds : Bytes) :
    wt (closeName (readUntil c!">" ds).1) + 4 + wt ((readUntil c!">" ds).2.drop 1) ≤ wt ds + (if (readUntil c!">" ds).2.drop 1 = [] then 4 else 0) ∧
      eqs (closeName (readUntil c!">" ds).1) + eqs ((readUntil c!">" ds).2.drop 1) ≤ eqs ds := by
  have hs : ∀ c : UInt8, (c == c!">") = true → ¬ InEntity c := by
    intro c h hc; simp only [beq_iff_eq] at h; subst h; exact absurd hc (by decide)
  have e1 : (readUntil c!">" ds).1 = (readAux (· == c!">") 0 ds).1.getD [] := rfl
  have e2 : (readUntil c!">" ds).2 = (readAux (· == c!">") 0 ds).2 := rfl
  rw [e1, e2]
  have z1 := wt_nil
  have z2 : eqs [] = 0 := rfl
  rcases readAux_cost hs 0 ds with ⟨t, h1, h2, h3, h4⟩ | ⟨h1, p, h2, h3⟩
  · rw [h1, Option.getD_some]
    have c := closeName_cost t
    have w := wt_cut t h3
    have q := eqs_append t (readAux (· == c!">") 0 ds).2
    rw [← h2] at w q
    generalize (readAux (· == c!">") 0 ds).2 = r at *
    cases r with
    | nil => simp only [List.drop_nil, if_true, z1, z2] at *; omega
    | cons x r =>
      have hx := h4 x rfl
      simp only [beq_iff_eq] at hx
      subst hx
      have h5 := wt_cons_ne (c := c!">") (by decide) r
      have h6 : (escByte c!">").length = 4 := by decide
      have h7 := eqs_drop1 c!">" r
      simp only [List.drop_succ_cons, List.drop_zero]
      split <;> omega
  · rw [h1, Option.getD_none]
    have hb : maxTokenSize = 1048576 := rfl
    have c := closeName_cost []
    have w := wt_suffix p (readAux (· == c!">") 0 ds).2
    have q := eqs_append p (readAux (· == c!">") 0 ds).2
    rw [← h2] at w q
    have d := drop1_cost (readAux (· == c!">") 0 ds).2
    split <;> omega


theorem split_lt (r : Bytes) : ∃ t u, r = t ++ u ∧ c!"<" ∉ t ∧ (u = [] ∨ ∃ v, u = c!"<" :: v) := by
  induction r with
  | nil => exact ⟨[], [], rfl, by simp, .inl rfl⟩
  | cons c cs ih =>
    by_cases h : c = c!"<"
    · subst h; exact ⟨[], _, rfl, by simp, .inr ⟨cs, rfl⟩⟩
    · obtain ⟨t, u, h1, h2, h3⟩ := ih
      exact ⟨c :: t, u, by rw [h1]; rfl, by simp only [List.mem_cons, not_or]; exact ⟨fun e => h e.symm, h2⟩, h3⟩

/-- Content: at most 13 more per `=`, and 4 for a `>` missing at the end. -/
theorem contentLoop_cost {o : Ord} (ho : o.IsPerm) (name : Bytes) (depth : Nat) (r : Bytes) :
    wt (contentLoop o name depth r).1 ≤ wt r + 13 * eqs r + (if r = [] then 0 else 4) ∧ eqs (contentLoop o name depth r).1 ≤ eqs r := by
  have z1 := wt_nil
  have z2 : eqs [] = 0 := rfl
  induction hn : r.length using Nat.strongRecOn generalizing r depth with
  | _ n ih =>
    subst hn
    obtain ⟨t, u, rfl, ht, hu⟩ := split_lt r
    rw [contentLoop_text o name depth ht u]
    have hcut : Cut u := by
      rcases hu with rfl | ⟨v, rfl⟩
      · exact cut_nil
      · exact cut_cons (by decide)
    have w0 := wt_append t (contentLoop o name depth u).1
    have w1 := wt_cut t hcut
    have q0 := eqs_append t (contentLoop o name depth u).1
    have q1 := eqs_append t u
    simp only [prepend]
    suffices hs : wt (contentLoop o name depth u).1 ≤ wt u + 13 * eqs u + (if u = [] then 0 else 4) ∧ eqs (contentLoop o name depth u).1 ≤ eqs u by
      have h4 : (if u = [] then 0 else 4) ≤ (if t ++ u = [] then 0 else 4) := by
        by_cases hu : u = []
        · rw [if_pos hu]; omega
        · rw [if_neg hu, if_neg (by simp [hu])]; omega
      omega
    rcases hu with rfl | ⟨v, rfl⟩
    · rw [contentLoop.eq_def]; simp [z1]
    · rw [if_neg (by simp), contentLoop.eq_def]
      simp only [if_true]
      have l1 := wt_cons_ne (c := c!"<") (by decide) v
      have l2 : (escByte c!"<").length = 4 := by decide
      have l3 := eqs_cons_ne (c := c!"<") (by decide) v
      cases v with
      | nil =>
        simp only
        have : wt [c!"<"] = 4 := by decide +kernel
        have : eqs [c!"<"] = 0 := by decide
        omega
      | cons d ds =>
        simp only
        have s1 : wt b!"</" = 5 := by decide +kernel
        have s2 : wt b!">" = 4 := by decide +kernel
        have s3 : eqs b!"</" = 0 := by decide
        have s4 : eqs b!">" = 0 := by decide
        split
        · rename_i hd
          subst hd
          have m1 := wt_cons_ne (c := c!"/") (by decide) ds
          have m2 : (escByte c!"/").length = 1 := by decide
          have m3 := eqs_cons_ne (c := c!"/") (by decide) ds
          have rc := readClose_cost ds
          have lr : ((readUntil c!">" ds).2.drop 1).length < (t ++ c!"<" :: c!"/" :: ds).length := by
            have := readUntil_length c!">" ds
            simp only [List.length_drop, List.length_append, List.length_cons]; omega
          have i1 := fun k => ih _ lr k ((readUntil c!">" ds).2.drop 1) rfl
          generalize (readUntil c!">" ds).2.drop 1 = rest at rc i1
          generalize closeName (readUntil c!">" ds).1 = cn at rc
          have fin : ∀ k, wt (b!"</" ++ cn ++ b!">" ++ (contentLoop o name k rest).1) ≤ wt (c!"<" :: c!"/" :: ds) + 13 * eqs (c!"<" :: c!"/" :: ds) + 4 ∧
              eqs (b!"</" ++ cn ++ b!">" ++ (contentLoop o name k rest).1) ≤ eqs (c!"<" :: c!"/" :: ds) := by
            intro k
            have i1 := i1 k
            have a1 := wt_append (b!"</" ++ cn ++ b!">") (contentLoop o name k rest).1
            have a2 := wt_append (b!"</" ++ cn) b!">"
            have a3 := wt_append b!"</" cn
            have b1 := eqs_append (b!"</" ++ cn ++ b!">") (contentLoop o name k rest).1
            have b2 := eqs_append (b!"</" ++ cn) b!">"
            have b3 := eqs_append b!"</" cn
            by_cases hr : rest = []
            · rw [if_pos hr] at rc i1; omega
            · rw [if_neg hr] at rc i1; omega
          split
          · split
            · simp only [z1, z2]; omega
            · exact fin _
          · exact fin _
        · split
          · rename_i hd
            have i1 := ih (d :: ds).length (by simp only [List.length_append, List.length_cons]; omega) depth (d :: ds) rfl
            rw [if_neg (by simp)] at i1
            simp only [prepend]
            have a1 := wt_append [c!"<"] (contentLoop o name depth (d :: ds)).1
            have a2 : wt [c!"<"] = 4 := by decide +kernel
            have b1 := eqs_append [c!"<"] (contentLoop o name depth (d :: ds)).1
            have b2 : eqs [c!"<"] = 0 := by decide
            omega
          · have pt := parseTag_cost (d :: ds) (ho (parseTag (d :: ds)).2 (parseTag (d :: ds)).1.attrs)
            have lr : (parseTag (d :: ds)).2.length < (t ++ c!"<" :: d :: ds).length := by
              have := parseTag_length (d :: ds)
              simp only [List.length_append, List.length_cons] at *; omega
            have i1 := ih _ lr (depthAfter name depth (parseTag (d :: ds)).1) (parseTag (d :: ds)).2 rfl
            simp only [prepend]
            have i2 : (if (parseTag (d :: ds)).2 = [] then 0 else 4) ≤ 4 := by split <;> omega
            have a1 := wt_append (writeTag (parseTag (d :: ds)).1 (o (parseTag (d :: ds)).2 (parseTag (d :: ds)).1.attrs))
              (contentLoop o name (depthAfter name depth (parseTag (d :: ds)).1) (parseTag (d :: ds)).2).1
            have b1 := eqs_append (writeTag (parseTag (d :: ds)).1 (o (parseTag (d :: ds)).2 (parseTag (d :: ds)).1.attrs))
              (contentLoop o name (depthAfter name depth (parseTag (d :: ds)).1) (parseTag (d :: ds)).2).1
            omega

/-! ### what is left is a suffix -/

theorem suffix_cons {x r : Bytes} (c : UInt8) (h : x <:+ r) : x <:+ c :: r := h.trans (List.suffix_cons c r)
theorem suffix_drop (n : Nat) (r : Bytes) : r.drop n <:+ r := List.drop_suffix n r

theorem readAux_suffix (stop : UInt8 → Bool) (k : Nat) (r : Bytes) : (readAux stop k r).2 <:+ r := by
  induction r generalizing k with
  | nil => exact List.suffix_rfl
  | cons c cs ih =>
    simp only [readAux]
    split
    · exact List.suffix_rfl
    · split
      · exact List.suffix_rfl
      · exact suffix_cons c (ih _)

theorem readUntilP_suffix (stop : UInt8 → Bool) (r : Bytes) : (readUntilP stop r).2 <:+ r := readAux_suffix stop 0 r
theorem readUntil_suffix (d : UInt8) (r : Bytes) : (readUntil d r).2 <:+ r := readAux_suffix _ 0 r

theorem skipWs_suffix (r : Bytes) : skipWs r <:+ r := by
  induction r with
  | nil => exact List.suffix_rfl
  | cons c cs ih =>
    simp only [skipWs]
    split
    · exact suffix_cons c ih
    · exact List.suffix_rfl

theorem parseAttrsN_suffix (n : Nat) (acc : Attrs) (r : Bytes) : (parseAttrsN n acc r).2 <:+ r := by
  induction n generalizing acc r with
  | zero => exact skipWs_suffix r
  | succ n ih =>
    have h0 := skipWs_suffix r
    rw [parseAttrsN]
    split
    · exact List.nil_suffix
    · rename_i c cs heq
      rw [heq] at h0
      split
      · exact h0
      · have h1 := (readUntilP_suffix isAttrDelim (c :: cs)).trans h0
        simp only
        split
        · exact h1
        · have h2 := (skipWs_suffix (readUntilP isAttrDelim (c :: cs)).2).trans h1
          split
          · exact List.nil_suffix
          · rename_i e r2 heq2
            rw [heq2] at h2
            split
            · exact h2
            · have h3 := (skipWs_suffix r2).trans ((List.suffix_cons e r2).trans h2)
              split
              · exact (ih _ _).trans List.nil_suffix
              · rename_i q r3 heq3
                rw [heq3] at h3
                split
                · exact (ih _ _).trans ((suffix_drop 1 _).trans ((readUntil_suffix q r3).trans ((List.suffix_cons q r3).trans h3)))
                · exact (ih _ _).trans ((readUntilP_suffix isNameDelim (q :: r3)).trans h3)

theorem tagTail_suffix (r : Bytes) : (tagTail r).2.2 <:+ r := by
  unfold tagTail
  cases r with
  | nil => exact List.suffix_rfl
  | cons c cs =>
    by_cases h : c = c!"/"
    · simp only [h, if_true]
      cases cs with
      | nil => exact List.nil_suffix
      | cons d ds =>
        simp only
        split
        · exact suffix_cons _ (List.suffix_cons _ _)
        · exact List.suffix_cons _ _
    · simp only [h, if_false]
      split
      · exact List.suffix_cons _ _
      · exact List.suffix_rfl

theorem parseTag_suffix (r : Bytes) : (parseTag r).2 <:+ r :=
  (tagTail_suffix _).trans ((parseAttrsN_suffix maxAttributes [] _).trans (readUntilP_suffix isNameDelim r))

theorem contentLoop_suffix (o : Ord) (name : Bytes) (depth : Nat) (r : Bytes) : (contentLoop o name depth r).2 <:+ r := by
  fun_induction contentLoop o name depth r with
  | case1 => exact List.suffix_rfl
  | case2 => exact List.nil_suffix
  | case3 _ ds => exact (suffix_drop 1 _).trans ((readUntil_suffix _ ds).trans (suffix_cons _ (List.suffix_cons _ _)))
  | case4 _ ds _ _ ih => exact ih.trans ((suffix_drop 1 _).trans ((readUntil_suffix _ ds).trans (suffix_cons _ (List.suffix_cons _ _))))
  | case5 _ ds _ ih => exact ih.trans ((suffix_drop 1 _).trans ((readUntil_suffix _ ds).trans (suffix_cons _ (List.suffix_cons _ _))))
  | case6 _ _ _ ih => exact suffix_cons _ ih
  | case7 _ d ds _ _ ih => exact ih.trans ((parseTag_suffix (d :: ds)).trans (List.suffix_cons _ _))
  | case8 _ _ _ _ ih => exact suffix_cons _ ih

theorem skipDoctype_suffix (d : Int) (r : Bytes) : skipDoctype d r <:+ r := by
  induction r generalizing d with
  | nil => exact List.suffix_rfl
  | cons c cs ih =>
    simp only [skipDoctype]
    split
    · exact suffix_cons c (ih _)
    · split
      · exact suffix_cons c (ih _)
      · split
        · exact List.suffix_cons c cs
        · exact suffix_cons c (ih _)

theorem skipCommentP_suffix (r : Bytes) : skipCommentP r <:+ r := by
  fun_induction skipCommentP r with
  | case1 => exact suffix_cons _ (suffix_cons _ (List.suffix_cons _ _))
  | case2 _ _ _ _ _ ih => exact suffix_cons _ ih
  | case3 => exact List.suffix_rfl

theorem skipToNext_suffix (r s : Bytes) (h : skipToNext r = some s) : s <:+ r := by
  fun_induction skipToNext r with
  | case1 => simp at h
  | case2 => simp at h
  | case3 => simp only [Option.some.injEq] at h; subst h; exact List.suffix_rfl
  | case4 =>
    rename_i ds _ _ ih
    exact (ih h).trans ((skipDoctype_suffix 0 _).trans ((suffix_drop 7 _).trans (suffix_cons _ (List.suffix_cons _ _))))
  | case5 =>
    rename_i ds _ _ _ ih
    exact (ih h).trans ((skipCommentP_suffix _).trans (suffix_cons _ (List.suffix_cons _ _)))
  | case6 => rename_i ih; exact (ih h).trans (suffix_cons _ (List.suffix_cons _ _))
  | case7 =>
    rename_i d ds _ _ ih
    exact (ih h).trans ((suffix_drop 1 _).trans (readUntil_suffix _ _))
  | case8 => rename_i ih; exact suffix_cons _ (ih h)

theorem elemAt_suffix (o : Ord) (s : Bytes) : (elemAt o s).2 <:+ s := by
  unfold elemAt
  simp only
  split
  · exact (parseTag_suffix _).trans (suffix_drop 1 s)
  · exact (contentLoop_suffix ..).trans ((parseTag_suffix _).trans (suffix_drop 1 s))

theorem suffix_cost {x r : Bytes} (h : x <:+ r) : wt x ≤ wt r ∧ eqs x ≤ eqs r := by
  obtain ⟨p, rfl⟩ := h
  have := wt_suffix p x
  have := eqs_append p x
  omega

theorem sum_mem {x : Nat} {l : List Nat} (h : x ∈ l) : x ≤ l.sum := by
  induction l with
  | nil => simp at h
  | cons a l ih =>
    rw [List.sum_cons]
    rcases List.mem_cons.mp h with rfl | h
    · omega
    · have := ih h; omega

/-- An element of `y`: its content and the values of its attributes. -/
theorem topElems_cost {o : Ord} (ho : o.IsPerm) (y : Bytes) : ∀ e ∈ topElems o y, wt e.content ≤ wt y + 13 * eqs y + 4 ∧ eqs e.content ≤ eqs y ∧
    ∀ p ∈ e.attrs, (escapeXML p.2).length ≤ wt y + 13 * eqs y := by
  fun_induction topElems o y with
  | case1 => simp
  | case2 r s h ih =>
    have h1 := suffix_cost (skipToNext_suffix r s h)
    have h2 := suffix_cost (elemAt_suffix o s)
    have h5 := suffix_cost (suffix_drop 1 s)
    have h3 := suffix_cost (parseTag_suffix (s.drop 1))
    intro e he
    rcases List.mem_cons.mp he with rfl | he
    · have hattr : ∀ p ∈ (parseTag (s.drop 1)).1.attrs, (escapeXML p.2).length ≤ wt r + 13 * eqs r := by
        intro p hp
        have c := (parseAttrsN_cost maxAttributes [] (readUntilP isNameDelim (s.drop 1)).2).1
        have c2 := suffix_cost (readUntilP_suffix isNameDelim (s.drop 1))
        have e1 : (parseTag (s.drop 1)).1.attrs = (parseAttrsN maxAttributes [] (readUntilP isNameDelim (s.drop 1)).2).1 := rfl
        rw [← e1] at c
        have c3 : awt p ≤ ((parseTag (s.drop 1)).1.attrs.map awt).sum := sum_mem (List.mem_map.mpr ⟨p, hp, rfl⟩)
        simp only [awt, List.map_nil, List.sum_nil] at *
        omega
      unfold elemAt
      simp only
      split
      · simp only [wt_nil]
        refine ⟨by omega, by simp [eqs], hattr⟩
      · have c := contentLoop_cost ho (parseTag (s.drop 1)).1.name 1 (parseTag (s.drop 1)).2
        have : (if (parseTag (s.drop 1)).2 = [] then 0 else 4) ≤ 4 := by split <;> omega
        simp only [parseElementContent]
        refine ⟨by omega, by omega, hattr⟩
    · have := ih e he
      refine ⟨by omega, by omega, fun p hp => ?_⟩
      have := this.2.2 p hp
      omega

end Verif
