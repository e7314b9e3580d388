import Verif.Props.Hops
import Verif.Lemmas.Slots
import Verif.Lemmas.SlotsValid
/- C69: Set where the path leads nowhere: what is written for steps that are not names. -/
namespace Verif.Props
open Verif Verif.Spec

theorem intent_none {rest : List Bytes} {rs : List Seg} (h : All2 IsSeg rest rs) (hneg : ∀ x ∈ rest, ∀ n, ¬ Negative x n) (cs : Bool) : indexIntent ((fuseFields rs).map (lowIf cs)) = none := by
  rw [intent_low, intent_fuse]
  obtain ⟨h1, h2⟩ := intent_iff h
  cases hi : indexIntent rs with
  | none => rfl
  | some b =>
    cases b with
    | false => obtain ⟨pre, q, post, n, rfl, hn, _⟩ := h1.mp hi; exact absurd hn (hneg q (by simp) n)
    | true => obtain ⟨_, pre, q, rfl, hn⟩ := h2.mp hi; exact absurd hn (hneg q (by simp) 1)

theorem last_slot {cs : Bool} {l : List Seg} {ts : List (Option Bytes)} (h : (l.map (lowIf cs)).map Seg.slot = ts) (hl : ts.getLast? ≠ some none) :
    ∀ s a, (l.map (lowIf cs)).getLast? = some s → s.kind ≠ .attr a := by
  intro s a hs hk
  apply hl
  rw [← h, List.getLast?_map, hs]
  simp [Seg.slot, Seg.isAttr, hk]

/-- C69: Every path says what is written for its steps. -/
theorem C69_slots (cs : Bool) (ps : List Bytes) : ∃ ts, Slots cs ps ts := by
  have key : ∀ n (ps : List Bytes), ps.length ≤ n → ∃ ts, Slots cs ps ts := by
    intro n
    induction n with
    | zero => intro ps h; have := List.eq_nil_of_length_eq_zero (Nat.le_zero.mp h); subst this; exact ⟨_, .nil⟩
    | succ n ih =>
      intro ps h
      cases ps with
      | nil => exact ⟨_, .nil⟩
      | cons p ps =>
        simp only [List.length_cons] at h
        obtain ⟨ts, ht⟩ := ih ps (by omega)
        by_cases h1 : NameStep p
        · exact ⟨_, .name h1 ht⟩
        by_cases h2 : AttrStep p
        · exact ⟨_, .attr h2 ht⟩
        by_cases h3 : beforeBar p = b!"#" ∧ ∃ q, ps.head? = some q ∧ Collected q
        · obtain ⟨h3, q, hq, h4⟩ := h3
          cases ps with
          | nil => cases hq
          | cons q' ps =>
            injection hq with hq; subst hq
            obtain ⟨ts, ht⟩ := ih ps (by simp at h; omega)
            exact ⟨_, .collect h3 h4 ht⟩
        · exact ⟨_, .other h1 h2 h3 ht⟩
  exact key _ ps (Nat.le_refl _)

/-- C69: If the beginning of the path leads to an element, and the next step leads nowhere in it, Set writes an element for every further step at the end
of its content: under its name, or without a name if the step is none. No other byte changes, except that a self-closing tag is opened. -/
theorem C69_create {o : Ord} (ho : o.IsPerm) (opts : Options) {c : Ctx} {e : El} (h : Editable (c.plug (e.cons .nil))) {hs : List Hop} {ps rest : List Bytes} {p : Bytes} {ts : List (Option Bytes)}
    (hp : PathSteps p (ps ++ rest)) (h1 : HopParts hs ps) (r1 : Reach opts.caseSensitive hs c e.name) (hm : Missing opts.caseSensitive e.kids.info rest)
    (hneg : ∀ x ∈ rest, ∀ n, ¬ Negative x n) (hts : Slots opts.caseSensitive rest ts) (hl : ts.getLast? ≠ some none) :
    ∃ as ws, Opened e as ws ∧ ∀ (v : GoVal) (w : Bytes), v ≠ .nil → valueToXML v = some w → w.length ≤ 5242880 →
      setWithOptions o (c.plug (e.cons .nil)).render p v (some opts) =
        .ret (c.before ++ (openTag e.name as ws ++ b!">" ++ e.inner ++ slotLines opts.indent 0 ts w ++ closeTag e.name []) ++ c.after, none) := by
  have hsnd := editable_sound h
  obtain ⟨ss, rs, a1, a0, a2, a3⟩ := parse_hops hp h1 (reach_ne r1) opts.caseSensitive
  obtain ⟨m1, m2, m3⟩ := missing_none (o := o) hm a2
  have hsl := slots_parts opts.caseSensitive a2 hts
  obtain ⟨as, ws, k1, k2⟩ := setElement_slots ho opts.indent h a1 r1 m1 (fun t ht => by
      refine findLoc_reach ho a1 (reach_ne r1) (says_reads ho (sound_says hsnd)) (fresh_take m2 t) (.inr ⟨?_, ?_⟩) 0
      · have h3 := List.length_pos_iff.mpr m1
        intro h4; have := congrArg List.length h4; rw [List.length_take] at this; simp only [List.length_nil] at this; omega
      · intro nd hnd data base hrd
        rw [reach_spot r1] at hnd
        injection hnd with hnd
        subst hnd
        rw [el_node_kids] at hrd
        exact m3 t ht data base hrd) (intent_none a2 hneg _) (last_slot hsl hl)
  refine ⟨as, ws, k1, fun v w hv0 hv hw => ?_⟩
  rw [set_parsed (sound_valid hsnd) hv0 a3 (by simp [m1]), k2 v w hv hw, hsl, finish_ok (by simp)]

/-- C69: A position that is too large creates nothing of the kind it follows: Set goes to the first element that qualifies, and writes an element without
a name at the end of its content. -/
theorem C69_position {o : Ord} (ho : o.IsPerm) (opts : Options) {c : Ctx} {e : El} (h : Editable (c.plug (e.cons .nil))) {hs : List Hop} {ps rest : List Bytes} {q d p : Bytes} {ts : List (Option Bytes)}
    (hp : PathSteps p (ps ++ q :: d :: rest)) (h1 : HopParts hs ps) {k : Pick} (hq : Asks q k) {j : Nat} (hd : Decimal (beforeBar d) j) (hj : j < 2 ^ 63)
    (r1 : Reach opts.caseSensitive (hs ++ [(k, 0)]) c e.name) (hm : (c.plug (e.cons .nil)).info.spot opts.caseSensitive (hs ++ [(k, j)]) = none)
    (hr : ∀ x, rest.head? = some x → ¬ Position x) (hneg : ∀ x ∈ rest, ∀ n, ¬ Negative x n) (hts : Slots opts.caseSensitive rest ts) (hl : ts.getLast? ≠ some none) :
    ∃ as ws, Opened e as ws ∧ ∀ (v : GoVal) (w : Bytes), v ≠ .nil → valueToXML v = some w → w.length ≤ 5242880 →
      setWithOptions o (c.plug (e.cons .nil)).render p v (some opts) =
        .ret (c.before ++ (openTag e.name as ws ++ b!">" ++ e.inner ++ slotLines opts.indent 0 (some [] :: ts) w ++ closeTag e.name []) ++ c.after, none) := by
  have hsnd := editable_sound h
  obtain ⟨ss, s, t, rs, a1, a2, a3, a4, a5, a6, a7⟩ := parse_position hp h1 hq hd hj opts.caseSensitive
  have hsl := slots_parts opts.caseSensitive a6 hts
  have g1 := hopSegs_append a1 (.first a2 .nil)
  have g2 := hopSegs_append a1 (.nth a2 a3 .nil)
  have hfr := fuse_fresh (cs := opts.caseSensitive) a6 hr
  have hin := intent_none a6 hneg opts.caseSensitive
  rw [a5] at a7
  generalize hrr : (fuseFields rs.tail).map (lowIf opts.caseSensitive) = r at *
  have hts2 : (t :: r).map Seg.slot = some [] :: ts := by
    rw [List.map_cons, hsl]
    simp [Seg.slot, Seg.isAttr, Seg.value, a3]
  obtain ⟨as, ws, k1, k2⟩ := setElement_slots ho opts.indent h g1 r1 (r := t :: r) (by simp) (fun n hn => by
      obtain ⟨n, rfl⟩ : ∃ m, n = m + 1 := ⟨n - 1, by omega⟩
      rw [List.take_succ_cons, List.append_assoc, List.singleton_append, show ss ++ s :: t :: r.take n = (ss ++ [s, t]) ++ r.take n by simp]
      exact findLoc_reach ho g2 (by simp) (says_reads ho (sound_says hsnd)) (fresh_take hfr n) (.inl hm) 0)
    (by rw [intent_cons (by intro i hi; rw [a3] at hi; injection hi with hi; omega)]; exact hin) (by
      intro x a hx hk
      cases hz : r.getLast? with
      | none =>
        have := List.getLast?_eq_none_iff.mp hz; subst this
        simp at hx; subst hx; rw [a3] at hk; cases hk
      | some y =>
        obtain ⟨r', hr'⟩ := List.getLast?_eq_some_iff.mp hz
        rw [hr', ← List.cons_append, List.getLast?_concat] at hx
        injection hx with hx; subst hx
        apply hl
        rw [← hsl, List.getLast?_map, hz]
        simp [Seg.slot, Seg.isAttr, hk])
  refine ⟨as, ws, k1, fun v w hv0 hv hw => ?_⟩
  have k3 := k2 v w hv hw
  rw [List.append_assoc, List.singleton_append, hts2] at k3
  rw [set_parsed (sound_valid hsnd) hv0 a7 (by simp), k3, finish_ok (by simp)]

/-- The first segment after joining. -/
theorem fuse_first {cs : Bool} {s : Seg} {r : List Seg} (hs : (∃ i, s.kind = .index i) ∨ Never cs s) :
    ∃ s' r', (fuseFields (s :: r)).map (lowIf cs) = s' :: r' ∧ (∀ x, s'.matchesOpt x cs = false) ∧ ∀ n, s'.kind ≠ .elem n := by
  have low : ∀ t : Seg, ((∃ i, t.kind = .index i) ∨ Never cs t) → (∀ x, (lowIf cs t).matchesOpt x cs = false) ∧ ∀ n, (lowIf cs t).kind ≠ .elem n := by
    rintro ⟨k, m⟩ ht
    have hk : (∀ n, k ≠ .elem n) ∧ ∀ b, k ≠ .wild b := by
      rcases ht with ⟨i, hi⟩ | ht
      · simp at hi; subst hi; simp
      · have := never_kind.mp ht; exact ⟨this.1, this.2.1⟩
    cases k <;> cases cs <;> simp_all [lowIf, Seg.matchesOpt, lowerSeg]
  cases r with
  | nil => exact ⟨lowIf cs s, [], by simp [fuseFields], low s hs⟩
  | cons t r =>
    rw [fuse_cons2]
    cases hj : joined s t with
    | none => exact ⟨_, _, rfl, low s hs⟩
    | some x =>
      obtain ⟨_, ⟨f, _, rfl⟩, _⟩ := joined_facts hj
      exact ⟨_, _, rfl, low _ (.inr (never_kind.mpr (by simp)))⟩

/-- C69: If the first step of the path can lead to no element at all, every step is written inside the first root element. -/
theorem C69_root {o : Ord} (ho : o.IsPerm) (opts : Options) {b a : Forest} {e : El} (h : Editable ((Ctx.here b a).plug (e.cons .nil))) (hb : b.info.elems = []) {p x : Bytes} {rest : List Bytes} {ts : List (Option Bytes)}
    (hp : PathSteps p (x :: rest)) (hx : Blind x ∨ Position x) (hneg : ∀ y ∈ x :: rest, ∀ n, ¬ Negative y n) (hts : Slots opts.caseSensitive (x :: rest) ts) (hl : ts.getLast? ≠ some none) :
    ∃ as ws, Opened e as ws ∧ ∀ (v : GoVal) (w : Bytes), v ≠ .nil → valueToXML v = some w → w.length ≤ 5242880 →
      setWithOptions o ((Ctx.here b a).plug (e.cons .nil)).render p v (some opts) =
        .ret (b.render ++ (openTag e.name as ws ++ b!">" ++ e.inner ++ slotLines opts.indent 0 ts w ++ closeTag e.name []) ++ a.render, none) := by
  obtain ⟨segs, h1, h2⟩ := parseOpt_reads hp (by simp) opts.caseSensitive
  have hsl := slots_parts opts.caseSensitive h2 hts
  have hla := last_slot hsl hl
  have hin := intent_none h2 hneg opts.caseSensitive
  cases h2 with
  | @cons _ s _ segs h3 h4 =>
    obtain ⟨s', r', e1, e2, e3⟩ := fuse_first (cs := opts.caseSensitive) (s := s) (r := segs) (hx.elim (fun hx => .inr (isSeg_blind h3 hx).2) (fun hx => .inl ((isSeg_position h3).mp hx)))
    rw [e1] at h1 hsl hla hin
    obtain ⟨as, ws, k1, k2⟩ := setElement_root ho opts.indent h hb e2 e3 hin hla
    refine ⟨as, ws, k1, fun v w hv0 hv hw => ?_⟩
    rw [set_parsed (sound_valid (editable_sound h)) hv0 h1 (by simp), k2 v w hv hw, hsl, finish_ok (by simp)]

/-- C69: An attribute of an element that no step can lead to is not set: Set reports an error, or panics. -/
theorem C69_attribute {o : Ord} (opts : Options) {xml : Bytes} (hx : valid xml = true) {pre mid : List Bytes} {x q p : Bytes} (hp : PathSteps p (pre ++ x :: mid ++ [q])) (hb : Blind x) (hq : AttrStep q)
    (hc : ∀ y, (pre ++ x :: mid).getLast? = some y → beforeBar y ≠ b!"#") (hneg : ∀ y ∈ pre ++ x :: mid, ∀ n, ¬ Negative y n) {v : GoVal} (hv : v ≠ .nil) (r : Bytes) :
    setWithOptions o xml p v (some opts) ≠ .ret (r, none) := by
  obtain ⟨segs, h1, h2⟩ := parseOpt_reads hp (by simp) opts.caseSensitive
  obtain ⟨sa, t, rfl, h3, h4⟩ := all2_snoc_inv h2
  obtain ⟨a, ha⟩ := (isSeg_kind h4).1.mp hq
  have hin := intent_none h2 (fun y hy n hn => by
    rcases List.mem_append.mp hy with hy | hy
    · exact hneg y hy n hn
    · simp only [List.mem_singleton] at hy
      subst hy
      obtain ⟨i, hi, _⟩ := (isSeg_kind h4).2.2.2.2.1.mp ⟨n, hn⟩
      rw [ha] at hi
      cases hi) opts.caseSensitive
  have hkeep : fuseFields (sa ++ [t]) = fuseFields sa ++ [t] := by
    apply fuse_keep
    intro c hcl
    rcases List.eq_nil_or_concat (pre ++ x :: mid) with h0 | ⟨ps', y, h0⟩
    · simp at h0
    rw [List.concat_eq_append] at h0
    rw [h0] at h3 hc
    obtain ⟨sa', c', rfl, _, e2⟩ := all2_snoc_inv h3
    rw [List.getLast?_concat] at hcl
    injection hcl with hcl
    subst hcl
    have := hc y (by rw [List.getLast?_concat])
    unfold joined
    rw [if_neg (fun hk => this ((isSeg_kind e2).2.1.mpr hk))]
  obtain ⟨sb, sc, rfl, g1, g2⟩ := all2_split h3
  cases g2 with
  | @cons _ s _ sc g2 g3 =>
  obtain ⟨a', s', b', k1, k2, _, _⟩ := fuse_never (a := sb) (b := sc) (isSeg_blind (cs := opts.caseSensitive) g2 hb).2
  rw [hkeep, List.map_append] at h1 hin
  simp only [List.map_cons, List.map_nil] at h1 hin
  have hne : ∀ data, findLoc o opts.caseSensitive ((fuseFields (sb ++ s :: sc)).map (lowIf opts.caseSensitive)) data 0 = none := by
    intro data
    rw [k1, List.map_append, List.map_cons]
    refine findLoc_never (s := lowIf opts.caseSensitive s') ?_ _ _ data 0
    obtain ⟨k, m⟩ := s'
    have := never_kind.mp k2
    apply never_kind.mpr
    cases k <;> cases hcs : opts.caseSensitive <;> simp_all [lowIf, lowerSeg]
  have hak : ∃ a, (lowIf opts.caseSensitive t).kind = .attr a := by
    obtain ⟨k, m⟩ := t
    simp at ha; subst ha
    cases opts.caseSensitive <;> simp [lowIf, lowerSeg]
  obtain ⟨a, ha⟩ := hak
  rw [set_parsed hx hv h1 (by simp)]
  generalize (fuseFields (sb ++ s :: sc)).map (lowIf opts.caseSensitive) = l at *
  unfold setElement
  rw [List.getLast?_concat]
  simp only
  cases valueToXML v with
  | none => simp [finish]
  | some w =>
    simp only
    split
    · simp [finish]
    · split
      · simp [finish]
      · rw [hin]
        simp only [ha, List.dropLast_concat, hne]
        unfold createElementForAttribute
        simp only [hne]
        cases createElement o opts.caseSensitive opts.indent xml l [] with
        | panic => simp [finish]
        | err => simp [finish]
        | ok r => simp only; split <;> simp [finish]

/-- C69: The document written in this way is valid exactly if every element has a good name, they are not too deep, and it is not too large, as long as no other markup hides in the names
and the value is no markup. Set itself checks none of this. -/
theorem C69_valid {c : Ctx} {e : El} (h : Editable (c.plug (e.cons .nil))) {as : List Attr} {ws : Bytes} (ho : Opened e as ws) {indent w : Bytes} (hi : c!"<" ∉ indent) (hw : c!"<" ∉ w)
    {ts : List (Option Bytes)} (hc : ∀ n, some n ∈ ts → TagOnly n) :
    valid (c.before ++ (openTag e.name as ws ++ b!">" ++ e.inner ++ slotLines indent 0 ts w ++ closeTag e.name []) ++ c.after) = true ↔
      (∀ n, some n ∈ ts → IsName n) ∧ c.depth + 1 + (ts.filter Option.isSome).length ≤ 100 ∧
        (c.before ++ (openTag e.name as ws ++ b!">" ++ e.inner ++ slotLines indent 0 ts w ++ closeTag e.name []) ++ c.after).length ≤ 10485760 :=
  slotted_valid h ho hi hw hc

/-- C69: Where a further step is no name and no attribute, Set succeeds with a document that is not valid, so that the next Set or Delete fails. -/
theorem C69_nameless {o : Ord} (ho : o.IsPerm) (opts : Options) {c : Ctx} {e : El} (h : Editable (c.plug (e.cons .nil))) {hs : List Hop} {ps rest : List Bytes} {p : Bytes} {ts : List (Option Bytes)}
    (hp : PathSteps p (ps ++ rest)) (h1 : HopParts hs ps) (r1 : Reach opts.caseSensitive hs c e.name) (hm : Missing opts.caseSensitive e.kids.info rest)
    (hneg : ∀ x ∈ rest, ∀ n, ¬ Negative x n) (hts : Slots opts.caseSensitive rest ts) (hl : ts.getLast? ≠ some none) (hi : c!"<" ∉ opts.indent) (hc : ∀ n, some n ∈ ts → TagOnly n) (hn : some [] ∈ ts)
    {v : GoVal} {w : Bytes} (hv0 : v ≠ .nil) (hv : valueToXML v = some w) (hw : w.length ≤ 5242880) (hlt : c!"<" ∉ w) :
    ∃ r, setWithOptions o (c.plug (e.cons .nil)).render p v (some opts) = .ret (r, none) ∧ valid r = false := by
  obtain ⟨as, ws, k1, k2⟩ := C69_create ho opts h hp h1 r1 hm hneg hts hl
  refine ⟨_, k2 v w hv0 hv hw, ?_⟩
  rw [← Bool.not_eq_true, C69_valid h k1 hi hlt hc]
  rintro ⟨g, _⟩
  obtain ⟨⟨x, xs, hx, _⟩, _⟩ := g [] hn
  cases hx

theorem not_negative {x : Bytes} (h : (beforeBar x).head? ≠ some c!"-") (n : Nat) : ¬ Negative x n := by
  rintro ⟨ds, rest, h1, _⟩
  rw [h1] at h
  simp at h

theorem tagOnly_of {n : Bytes} (h : (n.all fun c => !isWs c && c != c!"/" && c != c!">") = true) (h1 : n.head? ≠ some c!"!") (h2 : n.head? ≠ some c!"?") : TagOnly n := by
  refine ⟨fun c hc => ?_, h1, h2⟩
  have := List.all_eq_true.mp h c hc
  simp at this
  exact ⟨fun hw => absurd ((isWs_iff c).mpr hw) (by simp [this.1.1]), this.1.2, this.2⟩

/-- `r.a.1.#.name.b`: the second `a` has no `#`; the two parts `#.name` together give one element without a name. -/
example (o : Ord) (ho : o.IsPerm) : ∃ as ws, Opened exEl as ws ∧ ∀ (v : GoVal) (w : Bytes), v ≠ .nil → valueToXML v = some w → w.length ≤ 5242880 →
    setWithOptions o (exCtx.plug (exEl.cons .nil)).render b!"r.a.1.#.name.@k.b" v (some defaultOptions) =
      .ret (exCtx.before ++ (openTag b!"a" as ws ++ b!">" ++ b!"<b>y</b>" ++ (b!"<><b>" ++ w ++ b!"</b></>") ++ b!"</a>") ++ exCtx.after, none) := by
  obtain ⟨as, ws, h1, h2⟩ := C69_create ho defaultOptions exEdit (hs := [(.name b!"r", 0), (.name b!"a", 1)]) (ps := [b!"r", b!"a", b!"1"]) (rest := [b!"#", b!"name", b!"@k", b!"b"])
    (p := b!"r.a.1.#.name.@k.b") (ts := [some [], none, some b!"b"]) (pathSteps_by (by decide) (by decide) (by decide +kernel) (by decide +kernel))
    (.first (.name (name_step (by decide))) (.nth (.name (name_step (by decide))) (.digit 49 (by decide)) (by decide) .nil)) ⟨rfl, by decide +kernel, rfl, by decide +kernel⟩
    (.blind (.inr (.inr (.inr (by decide))))) (fun x hx => not_negative (by revert x hx; decide))
    (.collect (by decide) (.inr (.inl ⟨identifier_iff.mp (by decide), by decide⟩)) (.attr (by unfold AttrStep; decide) (.name (name_step (by decide)) .nil))) (by decide)
  refine ⟨as, ws, h1, fun v w a b c => ?_⟩
  rw [h2 v w a b c]
  simp [slotLines, newLine, defaultOptions, exEl, El.inner, closeTag, Forest.render, openTag]

/-- `r.a.7.x`: there is no eighth `a`; the elements are written into the first one. -/
example (o : Ord) (ho : o.IsPerm) : ∃ as ws, Opened (⟨b!"a", [], [], none⟩ : El) as ws ∧ ∀ (v : GoVal) (w : Bytes), v ≠ .nil → valueToXML v = some w → w.length ≤ 5242880 →
    setWithOptions o b!"<r><a/></r>" b!"r.a.7.x" v (some defaultOptions) = .ret (b!"<r>" ++ (openTag b!"a" as ws ++ b!">" ++ (b!"<><x>" ++ w ++ b!"</x></>") ++ b!"</a>") ++ b!"</r>", none) := by
  obtain ⟨as, ws, h1, h2⟩ := C69_position ho defaultOptions (c := .within .nil b!"r" [] [] (.here .nil .nil) [] .nil) (e := ⟨b!"a", [], [], none⟩) (editable_of (by decide +kernel))
    (hs := [(.name b!"r", 0)]) (ps := [b!"r"]) (q := b!"a") (d := b!"7") (rest := [b!"x"]) (p := b!"r.a.7.x") (ts := [some b!"x"])
    (pathSteps_by (by decide) (by decide) (by decide +kernel) (by decide +kernel)) (.first (.name (name_step (by decide))) .nil) (.name (name_step (by decide))) (.digit 55 (by decide)) (by decide)
    ⟨rfl, by decide +kernel, rfl, by decide +kernel⟩ (by decide +kernel) (by intro x hx; injection hx with hx; subst hx; exact fun h => absurd (h.2.2 120 (by decide)) (by decide))
    (fun x hx => not_negative (by revert x hx; decide)) (.name (name_step (by decide)) .nil) (by decide)
  refine ⟨as, ws, h1, fun v w a b c => ?_⟩
  refine Eq.trans ?_ ((h2 v w a b c).trans ?_)
  · rfl
  · simp [slotLines, newLine, defaultOptions, El.inner, closeTag, Forest.render, openTag, Ctx.before, Ctx.after]

/-- `%.@id.x`: no element is the text. -/
example (o : Ord) (ho : o.IsPerm) : ∃ as ws, Opened (⟨b!"r", [], [], none⟩ : El) as ws ∧ ∀ (v : GoVal) (w : Bytes), v ≠ .nil → valueToXML v = some w → w.length ≤ 5242880 →
    setWithOptions o b!"<r/>" b!"%.@id.x" v (some defaultOptions) = .ret (openTag b!"r" as ws ++ b!">" ++ (b!"<><x>" ++ w ++ b!"</x></>") ++ b!"</r>", none) := by
  obtain ⟨as, ws, h1, h2⟩ := C69_root ho defaultOptions (b := .nil) (a := .nil) (e := ⟨b!"r", [], [], none⟩) (editable_of (by decide +kernel)) rfl
    (x := b!"%") (rest := [b!"@id", b!"x"]) (p := b!"%.@id.x") (ts := [some [], none, some b!"x"])
    (pathSteps_by (by decide) (by decide) (by decide +kernel) (by decide +kernel)) (.inl (.inr (.inr (.inl (by decide)))))
    (fun x hx => not_negative (by revert x hx; decide)) (.other (fun h => absurd h (by unfold NameStep; decide +kernel)) (by unfold AttrStep; decide) (fun h => absurd h.1 (by decide)) (.attr (by unfold AttrStep; decide) (.name (name_step (by decide)) .nil))) (by decide)
  refine ⟨as, ws, h1, fun v w a b c => ?_⟩
  refine Eq.trans ?_ ((h2 v w a b c).trans ?_)
  · rfl
  · simp [slotLines, newLine, defaultOptions, El.inner, closeTag, Forest.render, openTag]

/-- `r.%.b.@id` cannot be set. -/
example (o : Ord) (r : Bytes) : setWithOptions o b!"<r/>" b!"r.%.b.@id" (.str b!"v") (some defaultOptions) ≠ .ret (r, none) :=
  C69_attribute defaultOptions (by decide +kernel) (pre := [b!"r"]) (x := b!"%") (mid := [b!"b"]) (q := b!"@id") (pathSteps_by (by decide) (by decide) (by decide +kernel) (by decide +kernel))
    (.inr (.inr (.inl (by decide)))) (by unfold AttrStep; decide) (by intro y hy; simp at hy; subst hy; decide) (fun x hx => not_negative (by revert x hx; decide)) (by simp) r

/-- `r.a.1.#(x==1).b`: the result is not valid. -/
example (o : Ord) (ho : o.IsPerm) : ∃ r, setWithOptions o (exCtx.plug (exEl.cons .nil)).render b!"r.a.1.#(x==1).b" (.str b!"v") (some defaultOptions) = .ret (r, none) ∧ valid r = false :=
  C69_nameless ho defaultOptions exEdit (hs := [(.name b!"r", 0), (.name b!"a", 1)]) (ps := [b!"r", b!"a", b!"1"]) (rest := [b!"#(x==1)", b!"b"]) (ts := [some [], some b!"b"])
    (pathSteps_by (by decide) (by decide) (by decide +kernel) (by decide +kernel))
    (.first (.name (name_step (by decide))) (.nth (.name (name_step (by decide))) (.digit 49 (by decide)) (by decide) .nil)) ⟨rfl, by decide +kernel, rfl, by decide +kernel⟩
    (.blind (.inl (by decide))) (fun x hx => not_negative (by revert x hx; decide))
    (.other (fun h => absurd h (by unfold NameStep; decide +kernel)) (by unfold AttrStep; decide) (fun h => absurd h.1 (by decide)) (.name (name_step (by decide)) .nil)) (by decide) (by decide)
    (by intro n hn; simp at hn; rcases hn with rfl | rfl <;> exact tagOnly_of (by decide) (by decide) (by decide)) (by decide) (by simp) rfl (by decide) (by decide)

/-- A position that is too large, an attribute and a filter where nothing is. -/
theorem C69_witness : setWithOptions exEnv.ord b!"<r><a/></r>" b!"r.a.3" (.str b!"v") (some defaultOptions) = .ret (b!"<r><a><>v</></a></r>", none) ∧
    setWithOptions exEnv.ord b!"<r><a/></r>" b!"r.@id.b" (.str b!"v") (some defaultOptions) = .ret (b!"<r><a/><b>v</b></r>", none) ∧
    setWithOptions exEnv.ord b!"<r><a/></r>" b!"r.#(b==1).c" (.str b!"v") (some defaultOptions) = .ret (b!"<r><a/><><c>v</c></></r>", none) := by
  decide +kernel

/-- Markup may hide in a name, and then the result can be valid though the name is not good: a blank after the name, and a comment instead of an element. -/
theorem C69_hidden_witness : setWithOptions exEnv.ord b!"<r/>" b!"r.b " (.str b!"v") (some defaultOptions) = .ret (b!"<r><b >v</b ></r>", none) ∧
    valid b!"<r><b >v</b ></r>" = true ∧
    setWithOptions exEnv.ord b!"<r/>" b!"r.!--" (.str b!"v") (some defaultOptions) = .ret (b!"<r><!-->v</!--></r>", none) ∧
    valid b!"<r><!-->v</!--></r>" = true ∧ ¬ TagOnly b!"b " ∧ ¬ TagOnly b!"!--" := by
  refine ⟨by decide +kernel, by decide +kernel, by decide +kernel, by decide +kernel, fun h => ?_, fun h => h.2.1 rfl⟩
  exact (h.1 32 (by decide)).1 (by decide)

end Verif.Props
