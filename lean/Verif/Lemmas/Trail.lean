import Verif.Spec.Trail
import Verif.Lemmas.SenseTotal
import Verif.Lemmas.Slots
import Verif.Lemmas.AttrOpt
/- Where any steps lead, for Set and Delete. -/
namespace Verif
open Spec

theorem place_exact {p : Bytes} {j : Nat} (h : Place p (some j)) (hp : Position p) (hb : c!"|" ∉ p) : atoi p = (min j (2 ^ 63 - 1) : Nat) := by
  rcases place_atoi h hp hb with h1 | ⟨h1, h2⟩
  · have : atoi p ≤ 2 ^ 63 - 1 := by
      unfold atoi
      simp only
      generalize digitsVal _ = n
      repeat' split
      all_goals omega
    omega
  · cases h with
    | @number ds rest _ he hd hr =>
      obtain ⟨h3, h4, h5⟩ := decimal_facts hd
      have hdig : ∀ d ∈ ds, isDigit d = true := fun d hd => isDigit_iff.mpr (h4 d hd)
      subst he
      have htw : (ds ++ rest).takeWhile isDigit = ds := by
        rw [List.takeWhile_append_of_pos hdig]
        rcases hr with rfl | ⟨-, hr⟩
        · simp
        · cases rest with
          | nil => simp
          | cons c cs => simp at hr; subst hr; simp [isDigit]
      cases ds with
      | nil => exact absurd rfl h3
      | cons c cs =>
        have hc := h4 c (by simp)
        have hc1 : c ≠ c!"-" := by rintro rfl; revert hc; decide
        have hc2 : c ≠ c!"+" := by rintro rfl; revert hc; decide
        unfold atoi at h1 ⊢
        simp only [List.cons_append, hc1, hc2, if_false] at htw h1 ⊢
        rw [htw, h5] at h1 ⊢
        split at h1
        · omega
        · rename_i hh
          rw [if_neg hh]
          simp only [Bool.false_eq_true, if_false] at h1 ⊢
          split <;> omega
    | none => omega

theorem bar_free (p : Bytes) : c!"|" ∉ beforeBar p := by
  intro h
  unfold beforeBar at h
  induction p with
  | nil => simp at h
  | cons c p ih =>
    rw [List.takeWhile_cons] at h
    split at h
    · rename_i hc
      rcases List.mem_cons.mp h with h | h
      · subst h; simp at hc
      · exact ih h
    · cases h

theorem position_bar {p : Bytes} (h : Position p) : Position (beforeBar p) := by
  unfold Position at *
  rw [beforeBar_idem]; exact h

/-- The position of a part. -/
theorem isSeg_place {d : Bytes} {s : Seg} (h : IsSeg d s) (hd : Position d) : (∀ j, Place (beforeBar d) (some j) → s.kind = .index (min j (2 ^ 63 - 1) : Nat)) ∧ (Place (beforeBar d) none → ∃ i, s.kind = .index i ∧ i < 0) := by
  obtain ⟨i, hi⟩ := (isSeg_position h).mp hd
  have hf : ¬ b!"#(" <+: d := by
    intro hf; obtain ⟨f, all, hk⟩ := isSeg_filter h hf; rw [hk] at hi; cases hi
  have hk := (isSeg_not_filter h hf).2
  have hik : i = atoi (beforeBar d) := by
    rw [hi] at hk
    repeat' split at hk
    all_goals first | (injection hk) | (cases hk)
  constructor
  · intro j hj
    rw [hi, hik, place_exact hj (position_bar hd) (bar_free d)]
  · intro hj
    cases hj with
    | negative hn =>
      have : ∃ n, Negative d n := by
        obtain ⟨ds, rest, h1, h2⟩ := hn
        exact ⟨_, ds, rest, by rw [← beforeBar_idem]; exact h1, h2⟩
      exact (isSeg_kind h).2.2.2.2.1.mp this

theorem isSeg_asks {p : Bytes} {s : Seg} (h : IsSeg p s) : (∃ k, Asks p k) ∨ ((∀ k, ¬ Asks p k) ∧ (∀ n, s.kind ≠ .elem n) ∧ ∀ b, s.kind ≠ .wild b) := by
  by_cases hk : ∃ k, Asks p k
  · exact .inl hk
  · refine .inr ⟨fun k hh => hk ⟨k, hh⟩, fun n hn => hk ⟨_, .name ((isSeg_kind h).2.2.1.mpr ⟨n, hn⟩)⟩, fun b hb => hk ⟨.any, .any ?_⟩⟩
    have hf : ¬ b!"#(" <+: p := by
      intro hf; obtain ⟨f, all, hk⟩ := isSeg_filter h hf; rw [hk] at hb; cases hb
    have hk := (isSeg_not_filter h hf).2
    rw [hb] at hk
    repeat' split at hk
    all_goals first | (cases hk; done) | skip
    · exact .inl (by assumption)
    · exact .inr (by assumption)

/-! ### segments -/

/-- Where segments lead. -/
inductive SegTrail (cs : Bool) : List Seg → Option (List Hop) → Prop where
  | nil : SegTrail cs [] (some [])
  | nth {s d : Seg} {k : Pick} {j : Nat} {ss : List Seg} {t : Option (List Hop)} (hp : SegAsks cs s k) (hd : d.kind = .index (j : Int)) (h : SegTrail cs ss t) :
      SegTrail cs (s :: d :: ss) (t.map ((k, j) :: ·))
  | negative {s d : Seg} {k : Pick} {i : Int} {ss : List Seg} (hp : SegAsks cs s k) (hd : d.kind = .index i) (hi : i < 0) : SegTrail cs (s :: d :: ss) none
  | first {s : Seg} {k : Pick} {ss : List Seg} {t : Option (List Hop)} (hp : SegAsks cs s k) (hd : Fresh ss) (h : SegTrail cs ss t) : SegTrail cs (s :: ss) (t.map ((k, 0) :: ·))
  | lost {s : Seg} {ss : List Seg} (hs : ∀ x, s.matchesOpt x cs = false) : SegTrail cs (s :: ss) none

theorem segTrail_hops {cs : Bool} {ss : List Seg} {t : Option (List Hop)} (h : SegTrail cs ss t) : ∀ hs, t = some hs → HopSegs cs hs ss := by
  induction h with
  | nil => rintro hs e; injection e with e; subst e; exact .nil
  | @nth s d k j ss t hp hd _ ih =>
    intro hs e
    cases t with
    | none => cases e
    | some t => simp only [Option.map_some, Option.some.injEq] at e; subst e; exact .nth hp hd (ih _ rfl)
  | negative => intro hs e; cases e
  | @first s k ss t hp hd _ ih =>
    intro hs e
    cases t with
    | none => cases e
    | some t => simp only [Option.map_some, Option.some.injEq] at e; subst e; exact .first hp (ih _ rfl)
  | lost => intro hs e; cases e

theorem segTrail_none {o : Ord} {cs : Bool} {ss : List Seg} {t : Option (List Hop)} (h : SegTrail cs ss t) : t = none → ∀ data base, findLoc o cs ss data base = none := by
  induction h with
  | nil => intro e; cases e
  | @nth s d k j ss t hp hd hss ih =>
    intro e data base
    have e' : t = none := by cases t with | none => rfl | some => cases e
    have ih := ih e'
    have hne : ss ≠ [] := by rintro rfl; cases hss; cases e'
    rw [findLoc]
    simp only [hd]
    rw [if_neg (by omega : ¬ ((j : Int) < 0))]
    split
    · rfl
    · split
      · rfl
      · rw [if_neg (by simpa using hne)]
        split
        · exact ih _ _
        · rfl
  | @negative s d k i ss hp hd hi =>
    intro _ data base
    rw [findLoc]
    simp only [hd]
    rw [if_pos hi]
    split <;> rfl
  | @first s k ss t hp hd hss ih =>
    intro e data base
    have e' : t = none := by cases t with | none => rfl | some => cases e
    have ih := ih e'
    cases ss with
    | nil => cases hss; cases e'
    | cons u ss =>
      rw [findLoc]
      split
      · rfl
      · have hk := hd u
        cases hu : u.kind with
        | index i => exact absurd hu (hk i rfl)
        | _ =>
          simp only [hu]
          cases ((topElems o data).filter fun e => s.matchesOpt e.name cs).head? with
          | none => rfl
          | some e =>
            simp only
            split
            · exact ih _ _
            · rfl
  | @lost s ss hs =>
    intro _ data base
    rw [findLoc]
    have : (topElems o data).filter (fun e => s.matchesOpt e.name cs) = [] := by simp [hs]
    rw [this]
    split
    · rfl
    · cases ss with
      | nil => rfl
      | cons t b => cases hk : t.kind <;> simp [hk]

theorem matchesOpt_no {cs : Bool} {s : Seg} (h1 : ∀ n, s.kind ≠ .elem n) (h2 : ∀ b, s.kind ≠ .wild b) (x : Bytes) : s.matchesOpt x cs = false := by
  unfold Seg.matchesOpt
  cases hk : s.kind with
  | elem n => exact absurd hk (h1 n)
  | wild b => exact absurd hk (h2 b)
  | _ => rfl

theorem low_no {cs : Bool} {s : Seg} (h1 : ∀ n, s.kind ≠ .elem n) (h2 : ∀ b, s.kind ≠ .wild b) (x : Bytes) : (lowIf cs s).matchesOpt x cs = false := by
  apply matchesOpt_no
  · intro n hn; obtain ⟨m, hm⟩ := (lowIf_kind cs s).2.1.mp ⟨n, hn⟩; exact h1 m hm
  · intro b hb
    obtain ⟨k, m⟩ := s
    cases cs
    · cases k <;> simp [lowIf, lowerSeg] at hb
      exact h2 _ rfl
    · exact h2 b hb

/-- The segments of steps lead where the steps lead. -/
theorem trail_segs {cs : Bool} {ps : List Bytes} {t : Option (List Hop)} (h : Trail ps t) {ss : List Seg} (ha : All2 IsSeg ps ss) : SegTrail cs ((fuseFields ss).map (lowIf cs)) t := by
  induction h generalizing ss with
  | nil => cases ha; exact .nil
  | @nth p d k j ps t hp hd hj _ ih =>
    cases ha with | @cons _ s _ ss h1 h2 =>
    cases h2 with | @cons _ u _ ss h2 h3 =>
    have hq := lowIf_asks (cs := cs) h1 hp
    have hu := (isSeg_place h2 hd).1 j hj
    rw [fuseFields_cons (show s.kind ≠ .count from (lowIf_asks (cs := true) h1 hp).count), fuseFields_cons (by rw [hu]; simp), List.map_cons, List.map_cons]
    exact .nth hq (((lowIf_kind cs u).2.2.1 _).mpr hu) (ih h3)
  | @negative p d k ps hp hd hj =>
    cases ha with | @cons _ s _ ss h1 h2 =>
    cases h2 with | @cons _ u _ ss h2 h3 =>
    have hq := lowIf_asks (cs := cs) h1 hp
    obtain ⟨i, hi, hneg⟩ := (isSeg_place h2 hd).2 hj
    rw [fuseFields_cons (show s.kind ≠ .count from (lowIf_asks (cs := true) h1 hp).count), fuseFields_cons (by rw [hi]; simp), List.map_cons, List.map_cons]
    exact .negative hq (((lowIf_kind cs u).2.2.1 _).mpr hi) hneg
  | @first p k ps t hp hd _ ih =>
    cases ha with | @cons _ s _ ss h1 h2 =>
    have hq := lowIf_asks (cs := cs) h1 hp
    rw [fuseFields_cons (show s.kind ≠ .count from (lowIf_asks (cs := true) h1 hp).count), List.map_cons]
    exact .first hq (fuse_fresh h2 hd) (ih h2)
  | @lost p ps hp =>
    cases ha with | @cons _ s _ ss h1 h2 =>
    rcases isSeg_asks h1 with ⟨k, hk⟩ | ⟨-, g1, g2⟩
    · exact absurd hk (hp k)
    cases ss with
    | nil => rw [fuseFields]; exact .lost (low_no g1 g2)
    | cons u ss =>
      rw [fuse_cons2]
      cases hj : joined s u with
      | none => exact .lost (low_no g1 g2)
      | some x =>
        obtain ⟨_, ⟨f, _, rfl⟩, _⟩ := joined_facts hj
        exact .lost (low_no (by simp) (by simp))

/-! ### one way only -/

theorem asks_fun {p : Bytes} {k k' : Pick} (h : Asks p k) (h' : Asks p k') : k = k' := by
  cases h with
  | name h =>
    cases h' with
    | name => rfl
    | any h' => exact absurd (by rcases h' with h' | h' <;> simp [h']) h.2.2.2.1
  | any h =>
    cases h' with
    | name h' => exact absurd (by rcases h with h | h <;> simp [h]) h'.2.2.2.1
    | any => rfl

theorem trail_total (ps : List Bytes) : ∃ t, Trail ps t := by
  have key : ∀ n (ps : List Bytes), ps.length ≤ n → ∃ t, Trail ps t := by
    intro n
    induction n with
    | zero => intro ps h; have := List.eq_nil_of_length_eq_zero (Nat.le_zero.mp h); subst this; exact ⟨_, .nil⟩
    | succ n ih =>
      intro ps h
      cases ps with
      | nil => exact ⟨_, .nil⟩
      | cons p ps =>
        simp only [List.length_cons] at h
        by_cases hk : ∃ k, Asks p k
        · obtain ⟨k, hk⟩ := hk
          cases ps with
          | nil => exact ⟨_, .first hk (by simp) .nil⟩
          | cons d ps =>
            by_cases hd : Position d
            · obtain ⟨j, hj⟩ := place_total (beforeBar d)
              cases j with
              | none => exact ⟨_, .negative hk hd hj⟩
              | some j =>
                obtain ⟨t, ht⟩ := ih ps (by simp at h; omega)
                exact ⟨_, .nth hk hd hj ht⟩
            · obtain ⟨t, ht⟩ := ih (d :: ps) (by omega)
              exact ⟨_, .first hk (by simpa using hd) ht⟩
        · exact ⟨_, .lost (fun k hh => hk ⟨k, hh⟩)⟩
  exact key _ ps (Nat.le_refl _)

theorem trail_fun {ps : List Bytes} {t t' : Option (List Hop)} (h : Trail ps t) (h' : Trail ps t') : t = t' := by
  induction h generalizing t' with
  | nil => cases h'; rfl
  | nth hp hd hj _ ih =>
    cases h' with
    | nth hp' hd' hj' h' =>
      rw [asks_fun hp hp', ih h']
      have := place_fun (bar_free _) hj hj'
      injection this with this
      rw [this]
    | negative hp' hd' hj' => have := place_fun (bar_free _) hj hj'; cases this
    | first _ hd' => exact absurd hd (hd' _ rfl)
    | lost hp' => exact absurd hp (hp' _)
  | negative hp hd hj =>
    cases h' with
    | nth hp' hd' hj' h' => have := place_fun (bar_free _) hj hj'; cases this
    | negative => rfl
    | first _ hd' => exact absurd hd (hd' _ rfl)
    | lost => rfl
  | first hp hd _ ih =>
    cases h' with
    | nth _ hd' => exact absurd hd' (hd _ rfl)
    | negative _ hd' => exact absurd hd' (hd _ rfl)
    | first hp' _ h' => rw [asks_fun hp hp', ih h']
    | lost hp' => exact absurd hp (hp' _)
  | lost hp =>
    cases h' with
    | nth hp' => exact absurd hp' (hp _)
    | negative => rfl
    | first hp' => exact absurd hp' (hp _)
    | lost => rfl

/-! ### the element at the end of the steps -/

theorem reach_full {cs : Bool} {hs : List Hop} {c : Ctx} {x : Bytes} (h : Reach cs hs c x) : hs ≠ [] := by
  rintro rfl; simp [Reach] at h

/-- Steps lead to one element. -/
theorem reach_unique {cs : Bool} {hs : List Hop} {c d : Ctx} {e x : El} (h : c.plug (e.cons .nil) = d.plug (x.cons .nil)) (h1 : Reach cs hs c e.name) (h2 : Reach cs hs d x.name) : c = d ∧ e = x := by
  induction hs generalizing c d with
  | nil => simp [Reach] at h1
  | cons p hs ih =>
    obtain ⟨k, j⟩ := p
    cases c with
    | here b a =>
      cases hs with
      | cons => simp [Reach] at h1
      | nil =>
        cases d with
        | within => simp [Reach] at h2
        | here b' a' =>
          obtain ⟨g1, g2⟩ := h1
          obtain ⟨k1, k2⟩ := h2
          have e1 := tops_getP (p := k.takes cs) b e a g1
          have e2 := tops_getP (p := k.takes cs) b' x a' k1
          rw [Ctx.plug, Ctx.plug, cons_append, cons_append] at h
          simp only [Forest.append] at h
          unfold Info.count at g2 k2
          rw [g2, h] at e1
          rw [k2, e1] at e2
          simp only [Option.some.injEq, Prod.mk.injEq] at e2
          obtain ⟨rfl, rfl, rfl⟩ := e2
          exact ⟨rfl, rfl⟩
    | within b m as ws c cws a =>
      cases hs with
      | nil => simp [Reach] at h1
      | cons p2 hs =>
        cases d with
        | here => simp [Reach] at h2
        | within b' m' as' ws' d cws' a' =>
          obtain ⟨g1, g2, g3⟩ := h1
          obtain ⟨k1, k2, k3⟩ := h2
          have e1 := tops_getP (p := k.takes cs) b ⟨m, as, ws, some (c.plug (e.cons .nil), cws)⟩ a g1
          have e2 := tops_getP (p := k.takes cs) b' ⟨m', as', ws', some (d.plug (x.cons .nil), cws')⟩ a' k1
          have h : b.append ((⟨m, as, ws, some (c.plug (e.cons .nil), cws)⟩ : El).cons a) = b'.append ((⟨m', as', ws', some (d.plug (x.cons .nil), cws')⟩ : El).cons a') := h
          unfold Info.count at g2 k2
          rw [g2, h] at e1
          rw [k2, e1] at e2
          simp only [Option.some.injEq, Prod.mk.injEq, El.mk.injEq] at e2
          obtain ⟨rfl, ⟨rfl, rfl, rfl, e3, rfl⟩, rfl⟩ := e2
          obtain ⟨rfl, rfl⟩ := ih e3 g3 k3
          exact ⟨rfl, rfl⟩

theorem leadTo_unique {cs : Bool} {ss : List Bytes} {c d : Ctx} {e x : El} (h : c.plug (e.cons .nil) = d.plug (x.cons .nil)) (h1 : LeadTo cs ss c e.name) (h2 : LeadTo cs ss d x.name) : c = d ∧ e = x := by
  obtain ⟨hs, t1, r1⟩ := h1
  obtain ⟨hs', t2, r2⟩ := h2
  have := trail_fun t1 t2
  injection this with this
  subst this
  exact reach_unique h r1 r2

theorem leadTo_full {cs : Bool} {ss : List Bytes} {c : Ctx} {x : Bytes} (h : LeadTo cs ss c x) : ss ≠ [] := by
  rintro rfl
  obtain ⟨hs, t, r⟩ := h
  cases t
  simp [Reach] at r

/-- No step on a way is `#`. -/
theorem trail_count {ps : List Bytes} {t : Option (List Hop)} (h : Trail ps t) : t ≠ none → ∀ {ss : List Seg}, All2 IsSeg ps ss → ∀ s ∈ ss, s.kind ≠ .count := by
  induction h with
  | nil => intro _ ss ha; cases ha; simp
  | @nth p d k j ps t hp hd hj _ ih =>
    intro h0 ss ha
    have h0 : t ≠ none := by rintro rfl; exact h0 rfl
    cases ha with | @cons _ s _ ss h1 h2 =>
    cases h2 with | @cons _ u _ ss h2 h3 =>
    intro x hx
    rcases List.mem_cons.mp hx with rfl | hx
    · exact (lowIf_asks (cs := true) h1 hp).count
    rcases List.mem_cons.mp hx with rfl | hx
    · rw [(isSeg_place h2 hd).1 j hj]; simp
    · exact ih h0 h3 x hx
  | negative => intro h0; exact absurd rfl h0
  | @first p k ps t hp hd _ ih =>
    intro h0 ss ha
    have h0 : t ≠ none := by rintro rfl; exact h0 rfl
    cases ha with | @cons _ s _ ss h1 h2 =>
    intro x hx
    rcases List.mem_cons.mp hx with rfl | hx
    · exact (lowIf_asks (cs := true) h1 hp).count
    · exact ih h0 h2 x hx
  | lost => intro h0; exact absurd rfl h0

/-- The segments of steps that lead somewhere, with what follows. -/
theorem trail_split {cs : Bool} {ps rest : List Bytes} {hs : List Hop} (h : Trail ps (some hs)) {segs : List Seg} (ha : All2 IsSeg (ps ++ rest) segs) :
    ∃ ss rs, All2 IsSeg ps ss ∧ All2 IsSeg rest rs ∧ segs = ss ++ rs ∧ HopSegs cs hs (ss.map (lowIf cs)) ∧ (fuseFields segs).map (lowIf cs) = ss.map (lowIf cs) ++ (fuseFields rs).map (lowIf cs) := by
  obtain ⟨ss, rs, rfl, h1, h2⟩ := all2_split ha
  have hc := trail_count h (by simp) h1
  have hss : fuseFields ss = ss := by
    have := fuse_left ss [] hc
    simpa [fuseFields] using this
  have := segTrail_hops (trail_segs (cs := cs) h h1) hs rfl
  rw [hss] at this
  exact ⟨ss, rs, h1, h2, rfl, this, by rw [fuse_left _ _ hc, List.map_append]⟩

/-- Steps that lead nowhere are not found. -/
theorem nowhere_none {o : Ord} (ho : o.IsPerm) {cs : Bool} {f : Forest} (h : Says f.render f.info) {ps : List Bytes} (h0 : ps ≠ []) (hn : LeadNowhere cs ps f) {ss : List Seg} (ha : All2 IsSeg ps ss) :
    findLoc o cs ((fuseFields ss).map (lowIf cs)) f.render 0 = none := by
  obtain ⟨t, ht⟩ := trail_total ps
  have hs := trail_segs (cs := cs) ht ha
  cases t with
  | none => exact segTrail_none hs rfl _ _
  | some hs' =>
    have hh := segTrail_hops hs hs' rfl
    have h1 : hs' ≠ [] := by
      rintro rfl
      have he : ∀ {l : List Seg}, HopSegs cs [] l → l = [] := by intro l h; cases h; rfl
      cases ha with
      | nil => exact h0 rfl
      | cons _ _ => have := List.map_eq_nil_iff.mp (he hh); exact fuse_full _ _ this
    have hsp : f.info.spot cs hs' = none := by
      cases hsp : f.info.spot cs hs' with
      | none => rfl
      | some nd =>
        obtain ⟨c, e, he, hr, -⟩ := spot_reach hsp
        exact absurd ⟨hs', ht, hr⟩ (hn c e he)
    have := findLoc_reach ho hh h1 (says_reads ho h) fresh_nil (.inl hsp) 0
    rwa [List.append_nil] at this

theorem leadTo_found {o : Ord} (ho : o.IsPerm) {cs : Bool} {c : Ctx} {e : El} (h : Editable (c.plug (e.cons .nil))) {hs : List Hop} {ss : List Seg} (hh : HopSegs cs hs ss) (hr : Reach cs hs c e.name) :
    ∃ l, findLoc o cs ss (c.plug (e.cons .nil)).render 0 = some l ∧ LocOK l c.before.length e := by
  obtain ⟨l, hl, hok⟩ := editable_goto ho h cs
  have hf := findLoc_goto hh hr (sound_along ho (editable_sound h)) fresh_nil 0
  rw [List.append_nil, hl] at hf
  exact ⟨l, hf, hok⟩

theorem setElement_here {o : Ord} (ho : o.IsPerm) (ind : Bytes) {cs : Bool} {c : Ctx} {e : El} (h : Editable (c.plug (e.cons .nil))) {hs : List Hop} {ss : List Seg} (hh : HopSegs cs hs ss) (hr : Reach cs hs c e.name)
    {v : GoVal} {w : Bytes} (hv : valueToXML v = some w) (hw : w.length ≤ 5242880) :
    setElement o cs ind (c.plug (e.cons .nil)).render ss v = .ok (c.before ++ e.start ++ w ++ e.stop ++ c.after) := by
  obtain ⟨l, hf, hok⟩ := leadTo_found ho h hh hr
  have hpl := hopSegs_plainly hh (reach_full hr)
  have he : setElement o cs ind (c.plug (e.cons .nil)).render ss v = replaceElement (c.plug (e.cons .nil)).render l w := by
    unfold setElement
    have hin := hpl.intent []
    rw [List.append_nil] at hin
    cases e1 : ss.getLast? with
    | none => exact absurd (List.getLast?_eq_none_iff.mp e1) hpl.ne
    | some s =>
      have hk := hpl.last s
      have hd := docMax
      simp only [hv, hin, indexIntent]
      rw [if_neg (by simp [maxValueSize]; omega), if_neg (by have := h.1; omega), hf]
      cases hk1 : s.kind with
      | attr a => exact absurd hk1 (hk a e1)
      | _ => rfl
  rw [he, replaceElement, plug_el_render]
  have e1 : c.before ++ e.start ++ e.inner ++ e.stop ++ c.after = (c.before ++ e.start) ++ e.inner ++ (e.stop ++ c.after) := by simp
  rw [e1, splice_at (by rw [hok.cstart]; simp) (by rw [hok.cend]; simp)]
  simp

theorem deleteElement_here {o : Ord} (ho : o.IsPerm) {cs : Bool} {c : Ctx} {e : El} (h : Editable (c.plug (e.cons .nil))) {hs : List Hop} {ss : List Seg} (hh : HopSegs cs hs ss) (hr : Reach cs hs c e.name) :
    deleteElement o cs (c.plug (e.cons .nil)).render ss = .ok (c.before ++ c.after) := by
  obtain ⟨l, hf, hok⟩ := leadTo_found ho h hh hr
  have hpl := hopSegs_plainly hh (reach_full hr)
  unfold deleteElement
  cases e1 : ss.getLast? with
  | none => exact absurd (List.getLast?_eq_none_iff.mp e1) hpl.ne
  | some s =>
    have hk := hpl.last s
    have hd := docMax
    have key : (if l.selfClosing then splice (c.plug (e.cons .nil)).render l.startPos l.contentStart []
          else splice (c.plug (e.cons .nil)).render l.startPos (l.endTagPos + l.name.length + 3) []) = .ok (c.before ++ [] ++ c.after) := by
      have hr : (c.plug (e.cons .nil)).render = c.before ++ e.render ++ c.after := by rw [plug_el_render]; simp [El.render]
      have hself := hok.self
      rw [hr]
      cases hbd : e.body with
      | none =>
        rw [if_pos (by rw [hself, hbd]; rfl)]
        refine splice_at hok.start ?_
        rw [hok.cstart]; simp [El.render, El.inner, El.stop, hbd]
      | some q =>
        obtain ⟨k, cws⟩ := q
        rw [if_neg (by rw [hself, hbd]; simp)]
        refine splice_at hok.start ?_
        have hc : cws = [] := by
          have := h.2.2.2.2
          have h6 := (plug_stable this).1
          obtain ⟨n, as, ws, body⟩ := e
          simp only at hbd; subst hbd
          exact h6.1
        rw [hok.tend, hok.name]; simp [El.render, El.stop, hbd, closeTag, hc]; omega
    simp only
    rw [if_neg (by have := h.1; omega), hf]
    rw [List.append_nil] at key
    cases hk1 : s.kind with
    | attr a => exact absurd hk1 (hk a e1)
    | _ => exact key

theorem isSeg_attr {cs : Bool} {p : Bytes} {s : Seg} (h : IsSeg p s) (ha : AttrStep p) : (lowIf cs s).kind = .attr (spelling cs ((beforeBar p).drop 1)) := by
  have hf : ¬ b!"#(" <+: p := by
    intro hf; obtain ⟨t, rfl⟩ := hf; obtain ⟨u, hu⟩ := ha; simp at hu
  have hk := (isSeg_not_filter h hf).2
  rw [if_pos (by rw [hasPrefix, List.isPrefixOf_iff_prefix]; exact (prefix_beforeBar (by decide)).mp ha)] at hk
  obtain ⟨k, m⟩ := s
  simp only at hk
  subst hk
  cases cs
  · simp [lowIf, lowerSeg, spelling, foldCase_eq]
  · rfl

/-! ### the beginnings of the segments -/

theorem fuse_prefix (l : List Seg) (t : Nat) (h : 0 < t) (hl : l ≠ []) : ∃ a b, l = a ++ b ∧ a ≠ [] ∧ (fuseFields l).take t = fuseFields a := by
  have key : ∀ n (l : List Seg) (t : Nat), l.length ≤ n → ∃ a b, l = a ++ b ∧ (0 < t → l ≠ [] → a ≠ []) ∧ (fuseFields l).take t = fuseFields a ∧ (t = 0 → a = []) := by
    intro n
    induction n with
    | zero => intro l t h; have := List.eq_nil_of_length_eq_zero (Nat.le_zero.mp h); subst this; exact ⟨[], [], rfl, by simp, by simp [fuseFields], fun _ => rfl⟩
    | succ n ih =>
      intro l t hn
      cases t with
      | zero => exact ⟨[], l, rfl, by simp, by simp [fuseFields], fun _ => rfl⟩
      | succ t =>
        cases l with
        | nil => exact ⟨[], [], rfl, by simp, by simp [fuseFields], by simp⟩
        | cons s l =>
          cases l with
          | nil => exact ⟨[s], [], rfl, by simp, by simp [fuseFields], by simp⟩
          | cons u l =>
            simp only [List.length_cons] at hn
            rw [fuse_cons2]
            cases hj : joined s u with
            | some x =>
              obtain ⟨a, b, e1, -, e2, -⟩ := ih l t (by omega)
              refine ⟨s :: u :: a, b, by rw [e1]; rfl, by simp, ?_, by simp⟩
              rw [fuse_cons2, hj]
              simp only [List.take_succ_cons, e2]
            | none =>
              obtain ⟨a, b, e1, -, e2, e3⟩ := ih (u :: l) t (by simp; omega)
              refine ⟨s :: a, b, by rw [List.cons_append, ← e1], by simp, ?_, by simp⟩
              simp only [List.take_succ_cons, e2]
              cases a with
              | nil => simp [fuseFields]
              | cons u' a =>
                injection e1 with e1 _
                subst e1
                rw [fuse_cons2, hj]
  obtain ⟨a, b, h1, h2, h3, -⟩ := key _ l t (Nat.le_refl _)
  exact ⟨a, b, h1, h2 h hl, h3⟩

theorem all2_prefix {ps : List Bytes} {a b : List Seg} (h : All2 IsSeg ps (a ++ b)) : ∃ qs rest, ps = qs ++ rest ∧ All2 IsSeg qs a := by
  induction a generalizing ps with
  | nil => exact ⟨[], ps, rfl, .nil⟩
  | cons s a ih =>
    cases h with
    | cons h1 h2 =>
      obtain ⟨qs, rest, rfl, h3⟩ := ih h2
      exact ⟨_ :: qs, rest, rfl, .cons h1 h3⟩

/-- Whether or not steps lead to an element. -/
theorem lead_or (cs : Bool) (ss : List Bytes) (f : Forest) : (∃ c e, f = c.plug (El.cons e .nil) ∧ LeadTo cs ss c e.name) ∨ LeadNowhere cs ss f := by
  by_cases h : ∃ c e, f = c.plug (El.cons e .nil) ∧ LeadTo cs ss c e.name
  · exact .inl h
  · exact .inr fun c e he hl => h ⟨c, e, he, hl⟩

theorem deepest_or (cs : Bool) (ss : List Bytes) (f : Forest) (hn : LeadNowhere cs ss f) :
    (∃ ps rest c e, f = c.plug (El.cons e .nil) ∧ Deepest cs ss ps rest c e) ∨ ∀ qs rest, ss = qs ++ rest → LeadNowhere cs qs f := by
  have key : ∀ n, n ≤ ss.length → (∀ qs rest, ss = qs ++ rest → n ≤ qs.length → LeadNowhere cs qs f) →
      (∃ ps rest c e, f = c.plug (El.cons e .nil) ∧ Deepest cs ss ps rest c e) ∨ ∀ qs rest, ss = qs ++ rest → LeadNowhere cs qs f := by
    intro n
    induction n with
    | zero => intro _ h; exact .inr fun qs rest e => h qs rest e (Nat.zero_le _)
    | succ n ih =>
      intro hn h
      rcases lead_or cs (ss.take n) f with ⟨c, e, he, hl⟩ | hl
      · subst he
        refine .inl ⟨ss.take n, ss.drop n, c, e, rfl, (List.take_append_drop n ss).symm, ?_, hl, ?_⟩
        · intro h0; have := congrArg List.length h0; simp at this; omega
        · intro qs rest e1 e2
          refine h qs rest e1 ?_
          rw [List.length_take] at e2; omega
      · refine ih (by omega) fun qs rest e1 e2 => ?_
        by_cases e3 : qs.length = n
        · have : qs = ss.take n := by rw [e1, ← e3, List.take_left]
          rw [this]; exact hl
        · exact h qs rest e1 (by omega)
  refine key ss.length (Nat.le_refl _) fun qs rest e1 e2 => ?_
  have : rest = [] := by
    have := congrArg List.length e1; simp at this
    exact List.eq_nil_of_length_eq_zero (by omega)
  subst this
  rw [List.append_nil] at e1
  rw [← e1]; exact hn

theorem findLoc_empty {o : Ord} {cs : Bool} {s : Seg} {data : Bytes} (h : (topElems o data).filter (fun e => s.matchesOpt e.name cs) = []) (r : List Seg) (base : Int) : findLoc o cs (s :: r) data base = none := by
  rw [findLoc, h]
  split
  · rfl
  · cases r with
    | nil => rfl
    | cons t b => cases hk : t.kind <;> simp [hk]

/-- A first step by name that no root element has: a further root element. -/
theorem setElement_sibling {o : Ord} (ind : Bytes) {cs : Bool} {data : Bytes} (hd : data.length ≤ 10485760) (hne : data ≠ []) {s : Seg} {r : List Seg} {n : Bytes} (hs : s.kind = .elem n)
    (hn : (topElems o data).filter (fun e => s.matchesOpt e.name cs) = []) (hi : indexIntent (s :: r) = none) (hla : ∀ t a, (s :: r).getLast? = some t → t.kind ≠ .attr a)
    {v : GoVal} {w : Bytes} (hv : valueToXML v = some w) (hw : w.length ≤ 5242880) :
    setElement o cs ind data (s :: r) v = .ok (data ++ slotLines ind 0 ((s :: r).map Seg.slot) w) := by
  have hnr := findLoc_empty hn r 0
  have hd2 := docMax
  have hv2 := valMax
  have hcr : createElement o cs ind data (s :: r) w = .ok (data ++ slotLines ind 0 ((s :: r).map Seg.slot) w) := by
    unfold createElement
    rw [if_neg (by simpa using hne), deepestParent_noneB (by
      intro i g1 g2
      obtain ⟨t, rfl⟩ : ∃ t, i = t + 1 := ⟨i - 1, by omega⟩
      exact findLoc_empty hn _ 0)]
    simp only
    unfold createInRoot
    have hsib : shouldCreateSiblingRoot o data n = true := by
      unfold shouldCreateSiblingRoot
      simp only [Bool.and_eq_true, Bool.not_eq_true', List.all_eq_true, decide_eq_true_eq]
      refine ⟨by simpa using hne, fun e he hen => ?_⟩
      have := List.filter_eq_nil_iff.mp hn e he
      apply this
      have h2 := agrees_self cs n
      rw [← matchesOpt_agrees] at h2
      rw [hen]
      unfold Seg.matchesOpt at h2 ⊢
      rw [hs]
      exact h2
    simp only [hs, hsib, if_true]
    rw [buildElementPath, build_slots ind w (s :: r) (by simp) (fun t ht => by
        have := hla t
        unfold Seg.isAttr
        cases hk : t.kind with
        | attr a => exact absurd hk (this a ht)
        | _ => rfl)]
  unfold setElement
  cases hz : (s :: r).getLast? with
  | none => simp at hz
  | some z =>
    simp only [hv, hi]
    rw [if_neg (by omega), if_neg (by omega), hnr]
    cases hk1 : z.kind with
    | attr a => exact absurd hk1 (hla z a hz)
    | _ => exact hcr

/-- A part that is no name and no wildcard. -/
theorem asks_blind {p : Bytes} {s : Seg} (h : IsSeg p s) (hk : ∀ k, ¬ Asks p k) : Blind p ∨ Position p := by
  by_cases hf : b!"#(" <+: p
  · exact .inl (.inl hf)
  by_cases ha : AttrStep p
  · exact .inl (.inr (.inl ha))
  by_cases h1 : beforeBar p = b!"%"
  · exact .inl (.inr (.inr (.inl h1)))
  by_cases h2 : beforeBar p = b!"#"
  · exact .inl (.inr (.inr (.inr h2)))
  by_cases h3 : Position p
  · exact .inr h3
  exfalso
  by_cases h4 : beforeBar p = b!"*" ∨ beforeBar p = b!"**"
  · exact hk _ (.any h4)
  · exact hk _ (.name ⟨(isSeg_not_filter h hf).1, hf, ha, by rw [not_or] at h4; simp [h1, h2, h4.1, h4.2], h3⟩)

theorem hasElem_elems {f : Forest} (h : f.HasElem) : f.info.elems ≠ [] := by
  induction f with
  | nil => exact h.elim
  | text b next ih => exact ih h
  | misc m next ih => exact ih h
  | leaf => intro h; cases h
  | node => intro h; cases h

/-- `*` leads to the first root element. -/
theorem any_leads {cs : Bool} {f : Forest} (h : f.HasElem) {x : Bytes} (hx : Asks x .any) : ∃ c e, f = c.plug (El.cons e .nil) ∧ LeadTo cs [x] c e.name := by
  have h0 := hasElem_elems h
  cases hs : f.info.elems with
  | nil => exact absurd hs h0
  | cons nd l =>
    have : f.info.spot cs [(.any, 0)] = some nd := by
      rw [Info.spot, hs]; simp [Pick.takes]
    obtain ⟨c, e, h1, h2, -⟩ := spot_reach this
    exact ⟨c, e, h1, [(.any, 0)], .first hx (by simp) .nil, h2⟩

end Verif
