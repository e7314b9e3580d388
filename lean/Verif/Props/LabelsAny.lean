import Verif.Spec.LabelsAny
import Verif.Props.UndoAny
import Verif.Props.ApartMore
import Verif.Props.Labels
/- C94: the attributes of an element are a map under Set and Delete, whatever paths lead to the element and whatever the options. -/
namespace Verif.Props
open Verif Verif.Spec

/-! ## C94 The attributes of an element are a map, with any paths and options -/

theorem onBy_exact (p : MapOp) (m : Bytes → Option Bytes) : p.onBy true m = p.on m := by
  funext j
  cases p with
  | put k s =>
    simp only [MapOp.onBy, MapOp.on, sameKey, if_true, spelling]
    by_cases hj : j = k
    · subst hj
      simp only [if_true, exists_eq_left]
      by_cases hm : m j = none <;> simp [hm]
    · simp [hj]
  | drop k => simp [MapOp.onBy, MapOp.on, sameKey]

theorem retagBy_put {cs : Bool} {e : El} {k s : Bytes} {as : List Attr} (h : RetagBy cs e k (some s) as) : Spec.attrVal as = (MapOp.put k s).onBy cs (Spec.attrVal e.attrs) := by
  funext j
  simp only [MapOp.onBy]
  by_cases hj : sameKey cs j k
  · rw [if_pos hj]
    by_cases hx : ∃ i, sameKey cs i k ∧ Spec.attrVal e.attrs i ≠ none
    · rw [if_pos hx]
      by_cases hn : Spec.attrVal e.attrs j = none
      · rw [if_pos hn]; exact h.no j hj hx hn
      · rw [if_neg hn]; exact h.this j hj hn
    · rw [if_neg hx]
      exact h.new (fun i hi => Classical.byContradiction fun hh => hx ⟨i, hi, hh⟩) j hj
  · rw [if_neg hj]; exact h.others j hj

theorem retagBy_drop {cs : Bool} {e : El} {k : Bytes} {as : List Attr} (h : RetagBy cs e k none as) : Spec.attrVal as = (MapOp.drop k).onBy cs (Spec.attrVal e.attrs) := by
  funext j
  simp only [MapOp.onBy]
  by_cases hj : sameKey cs j k
  · rw [if_pos hj]
    by_cases hn : Spec.attrVal e.attrs j = none
    · by_cases hx : ∃ i, sameKey cs i k ∧ Spec.attrVal e.attrs i ≠ none
      · exact h.no j hj hx hn
      · rw [h.new (fun i hi => Classical.byContradiction fun hh => hx ⟨i, hi, hh⟩) j hj]; simp
    · exact h.this j hj hn
  · rw [if_neg hj]; exact h.others j hj

theorem onBy_names {cs : Bool} {p : MapOp} {m : Bytes → Option Bytes} {j : Bytes} (h : p.onBy cs m j ≠ none) : m j ≠ none ∨ j = spelling cs p.key := by
  cases p with
  | put k s =>
    simp only [MapOp.onBy] at h
    by_cases hj : sameKey cs j k
    · rw [if_pos hj] at h
      by_cases hx : ∃ i, sameKey cs i k ∧ m i ≠ none
      · rw [if_pos hx] at h
        by_cases hn : m j = none
        · rw [if_pos hn] at h; exact absurd rfl h
        · exact .inl hn
      · rw [if_neg hx] at h
        by_cases hs : j = spelling cs k
        · exact .inr hs
        · rw [if_neg hs] at h; exact absurd rfl h
    · rw [if_neg hj] at h; exact .inl h
  | drop k =>
    simp only [MapOp.onBy] at h
    by_cases hj : sameKey cs j k
    · rw [if_pos hj] at h; exact absurd rfl h
    · rw [if_neg hj] at h; exact .inl h

theorem names_onBy {cs : Bool} {p : MapOp} {as bs : List Attr} (h : Spec.attrVal as = p.onBy cs (Spec.attrVal bs)) {ks : List Bytes} (hk : spelling cs p.key ∈ ks) (hn : ∀ a ∈ bs, a.name ∈ ks) :
    ∀ a ∈ as, a.name ∈ ks := by
  intro a ha
  have h1 : Spec.attrVal as a.name ≠ none := (attrVal_iff _ _).mpr (List.mem_map_of_mem ha)
  rw [h] at h1
  rcases onBy_names h1 with h1 | h1
  · rw [attrVal_iff] at h1
    obtain ⟨a', h2, h3⟩ := List.mem_map.mp h1
    rw [← h3]; exact hn a' h2
  · rw [h1]; exact hk

theorem labelsAt_step {ks : List Bytes} (hks : ks.length ≤ 100) {c : Ctx} {e : El} {m : Bytes → Option Bytes} (h : LabelsAt ks c e m) {q : LabelCall} (hq : q.Meant ks c e.name) :
    ∃ e' : El, e'.name = e.name ∧ e'.body = e.body ∧ q.run (c.plug (e.cons .nil)).render = .ret ((c.plug (e'.cons .nil)).render, none) ∧
      ((c.plug (e'.cons .nil)).render.length ≤ 10485760 → LabelsAt ks c e' (q.op.onBy q.opts.caseSensitive m)) ∧
      (Canonical e → Canonical e') ∧ (∀ k s, q.op = .put k s → Canonical e') := by
  obtain ⟨hd, hnd, hnames, rfl⟩ := h
  obtain ⟨o, p, opts, op⟩ := q
  obtain ⟨ho, hf, hk, ss, hL, hp⟩ := hq
  simp only at ho hf hk hL hp ⊢
  have hg := editable_el hd
  obtain ⟨l1, l2⟩ := el_attrs hg.legal hg.tame
  have hr : ∀ as, c.before ++ (e.retag as).render ++ c.after = (c.plug ((e.retag as).cons .nil)).render := by
    intro as; rw [plug_el_render]; simp [El.render]
  cases op with
  | put k s =>
    obtain ⟨hk1, hs⟩ := hf
    simp only [MapOp.key] at hk hp
    have hkb : beforeBar (c!"@" :: k) = c!"@" :: k := beforeBar_plain (by simpa using (name_plain hk1).noBar)
    obtain ⟨as, h1, h2⟩ := C79_set_attribute ho opts hd hp ⟨k, rfl⟩ hL (v := .str s) (s := s) (by simp) rfl (by omega)
    rw [hkb, List.drop_one, List.tail_cons] at h1
    rw [hr] at h2
    have hroom : (∃ j, sameKey opts.caseSensitive j k ∧ Spec.attrVal e.attrs j ≠ none) ∨ e.attrs.length < 100 := by
      by_cases hmem : spelling opts.caseSensitive k ∈ e.attrs.map (·.name)
      · exact .inl ⟨_, sameKey_self _ _, (attrVal_iff _ _).mpr hmem⟩
      · have : (spelling opts.caseSensitive k :: e.attrs.map (·.name)).length ≤ ks.length := nodup_subset_length (by simp [List.nodup_cons, hnd]; simpa using hmem) (by
          intro j hj
          rcases List.mem_cons.mp hj with rfl | hj
          · exact hk
          · obtain ⟨a, h2, rfl⟩ := List.mem_map.mp hj; exact hnames a h2)
        simp at this
        exact .inr (by omega)
    obtain ⟨f1, f2⟩ := retagBy_fits h1 l1 l2 hk1 hs hroom
    have hcan : Canonical (e.retag as) := ⟨h1.neat, h1.sorted, rfl⟩
    have hon := retagBy_put h1
    exact ⟨e.retag as, rfl, rfl, h2, fun hsz => ⟨editable_retag hd f1 f2 h1.neat hsz, h1.neat.2, names_onBy hon hk hnames, hon⟩, fun _ => hcan, fun _ _ _ => hcan⟩
  | drop k =>
    simp only [MapOp.key] at hk hp
    have hkb : beforeBar (c!"@" :: k) = c!"@" :: k := beforeBar_plain (by simpa [MapOp.Fits] using hf)
    obtain ⟨d1, d2⟩ := C79_delete_attribute ho opts hd hp ⟨k, rfl⟩ hL
    rw [hkb, List.drop_one, List.tail_cons] at d1 d2
    by_cases hx : ∃ j, sameKey opts.caseSensitive j k ∧ Spec.attrVal e.attrs j ≠ none
    · obtain ⟨j, j1, j2⟩ := hx
      obtain ⟨as, h1, h2⟩ := d2 j j1 j2
      rw [hr] at h2
      obtain ⟨f1, f2⟩ := retag_less h1 l1 l2
      have hcan : Canonical (e.retag as) := ⟨h1.neat, h1.sorted, rfl⟩
      have hon := retagBy_drop h1
      exact ⟨e.retag as, rfl, rfl, h2, fun hsz => ⟨editable_retag hd f1 f2 h1.neat hsz, h1.neat.2, names_onBy hon hk hnames, hon⟩, fun _ => hcan, fun _ _ _ => hcan⟩
    · have hno : ∀ j, sameKey opts.caseSensitive j k → Spec.attrVal e.attrs j = none := fun j hj => Classical.byContradiction fun hh => hx ⟨j, hj, hh⟩
      refine ⟨e, rfl, rfl, d1 hno, fun _ => ⟨hd, hnd, hnames, ?_⟩, id, fun _ _ hh => by cases hh⟩
      funext j
      simp only [MapOp.onBy]
      by_cases hj : sameKey opts.caseSensitive j k
      · rw [if_pos hj]; exact hno j hj
      · rw [if_neg hj]

/-- C94: the attributes of an element are a map: a Set whose path leads to the element and goes on with `@k` gives the value to `k`, and such a Delete removes `k`; both always succeed. With
options that compare without regard to case this is done to all spellings that are there, or to the lower one if there is none. The name and the content of the element, byte for byte, and the
document around it stay. (At most 100 names can occur.) -/
theorem C94_step {ks : List Bytes} (hks : ks.length ≤ 100) {c : Ctx} {e : El} {m : Bytes → Option Bytes} (h : LabelsAt ks c e m) {q : LabelCall} (hq : q.Meant ks c e.name) :
    ∃ e' : El, e'.name = e.name ∧ e'.body = e.body ∧ q.run (c.plug (e.cons .nil)).render = .ret ((c.plug (e'.cons .nil)).render, none) ∧
      ((c.plug (e'.cons .nil)).render.length ≤ 10485760 → LabelsAt ks c e' (q.op.onBy q.opts.caseSensitive m)) := by
  obtain ⟨e', h1, h2, h3, h4, -, -⟩ := labelsAt_step hks h hq
  exact ⟨e', h1, h2, h3, h4⟩

theorem labelsAt_run {ks : List Bytes} (hks : ks.length ≤ 100) {c : Ctx} (qs : List LabelCall) {e : El} {m : Bytes → Option Bytes} (h : LabelsAt ks c e m) (hq : ∀ q ∈ qs, q.Meant ks c e.name)
    {r : Bytes} (hr : LabelCall.runAll (c.plug (e.cons .nil)).render qs = some r) :
    ∃ e' : El, r = (c.plug (e'.cons .nil)).render ∧ LabelsAt ks c e' (LabelCall.onAll qs m) ∧ e'.name = e.name ∧ e'.body = e.body ∧
      ((Canonical e ∨ ∃ q ∈ qs, ∃ k s, q.op = .put k s) → Canonical e') := by
  induction qs generalizing e m with
  | nil =>
    simp only [LabelCall.runAll, Option.some.injEq] at hr
    exact ⟨e, hr.symm, h, rfl, rfl, fun hc => hc.elim id (fun ⟨q, hm, _⟩ => absurd hm (by simp))⟩
  | cons q qs ih =>
    obtain ⟨e1, k1, k2, k3, k4, k5, k6⟩ := labelsAt_step hks h (hq q (by simp))
    rw [LabelCall.runAll, k3] at hr
    simp only at hr
    split at hr
    · rename_i hsz
      obtain ⟨e2, q1, q2, q3, q4, q5⟩ := ih (k4 hsz) (fun q' hm => by rw [k1]; exact hq q' (by simp [hm])) hr
      refine ⟨e2, q1, q2, q3.trans k1, q4.trans k2, fun hc => q5 ?_⟩
      rcases hc with hc | ⟨q', hm, k, s, hop⟩
      · exact .inl (k5 hc)
      · rcases List.mem_cons.mp hm with rfl | hm
        · exact .inl (k6 k s hop)
        · exact .inr ⟨q', hm, k, s, hop⟩
    · cases hr

/-- C94: any number of such calls, each with its own path and options, does to the attributes what the operations do to a map. -/
theorem C94_run {ks : List Bytes} (hks : ks.length ≤ 100) {c : Ctx} (qs : List LabelCall) {e : El} {m : Bytes → Option Bytes} (h : LabelsAt ks c e m) (hq : ∀ q ∈ qs, q.Meant ks c e.name)
    {r : Bytes} (hr : LabelCall.runAll (c.plug (e.cons .nil)).render qs = some r) :
    ∃ e' : El, r = (c.plug (e'.cons .nil)).render ∧ LabelsAt ks c e' (LabelCall.onAll qs m) ∧ e'.name = e.name ∧ e'.body = e.body := by
  obtain ⟨e', h1, h2, h3, h4, -⟩ := labelsAt_run hks qs h hq hr
  exact ⟨e', h1, h2, h3, h4⟩

/-- C94: the paths, the options and the order of the calls leave no trace. Two sequences of calls that give the same map, each with at least one Set, give the same document. -/
theorem C94_order {ks : List Bytes} (hks : ks.length ≤ 100) {c : Ctx} (qs1 qs2 : List LabelCall) {e : El} {m : Bytes → Option Bytes} (h : LabelsAt ks c e m)
    (hq1 : ∀ q ∈ qs1, q.Meant ks c e.name) (hq2 : ∀ q ∈ qs2, q.Meant ks c e.name) (hs1 : ∃ q ∈ qs1, ∃ k s, q.op = .put k s) (hs2 : ∃ q ∈ qs2, ∃ k s, q.op = .put k s)
    (heq : LabelCall.onAll qs1 m = LabelCall.onAll qs2 m) {r1 r2 : Bytes} (hr1 : LabelCall.runAll (c.plug (e.cons .nil)).render qs1 = some r1)
    (hr2 : LabelCall.runAll (c.plug (e.cons .nil)).render qs2 = some r2) : r1 = r2 := by
  obtain ⟨e1, rfl, h2, h3, h4, h5⟩ := labelsAt_run hks qs1 h hq1 hr1
  obtain ⟨e2, rfl, g2, g3, g4, g5⟩ := labelsAt_run hks qs2 h hq2 hr2
  rw [canonical_eq (h5 (.inr hs1)) (g5 (.inr hs2)) (h3.trans g3.symm) (h4.trans g4.symm) (by rw [h2.map, g2.map, heq])]

/-- C94: the map as Get reads it, through every path that leads Get first to where it leads Set. (Without regard to case: where no element has two attributes whose names differ only in case.) -/
theorem C94_read (env : Env) (ho : env.ord.IsPerm) (opts : Options) {ks : List Bytes} {c : Ctx} {e : El} {m : Bytes → Option Bytes} (h : LabelsAt ks c e m) {ss : List Bytes} {k p : Bytes}
    (hl : LeadTo opts.caseSensitive ss c e.name) (hp : PathSteps p (ss ++ [c!"@" :: k])) (hbar : c!"|" ∉ p) (ha : Ahead ss) (hu : opts.caseSensitive = false → (c.plug (e.cons .nil)).info.CaseUnique)
    {j v : Bytes} (hj : sameKey opts.caseSensitive j k) (hv : m j = some v) :
    ∃ a, getWithOptions env (c.plug (e.cons .nil)).render p (some opts) = .ret a ∧ a.array.head? = some (.ofAttr v) := by
  obtain ⟨hs, ht, hr⟩ := hl
  have hbs : ∀ s ∈ ss ++ [c!"@" :: k], c!"|" ∉ s := fun s hm hc => hbar ((steps_bytes hp hm).1 _ hc)
  obtain ⟨ks, ms, g1, g2, g3, g4, g5, g6⟩ := ahead_plan ht rfl (fun s hs => hbs s (by simp [hs])) ha.deep ha.wild ha.small
  obtain ⟨-, g7⟩ := g6 [.attr k] (.inr ⟨k, rfl⟩)
  have hpl := g7 false (.attr k) rfl rfl
  obtain ⟨a, k1, k2⟩ := get_roles env ho opts (sound_says (editable_sound h.doc)) hp (by simp) (g1.append (.cons .attr .nil)) hbs (by simpa using g3) (fun _ => hu) hpl rfl
  have hlone : Lone opts.caseSensitive e.node := fun hc => caseUnique_plug (hu hc)
  have hat : e.node.attrBy opts.caseSensitive k = some v := (attrBy_some hlone k v).mpr ⟨j, hj, by show Spec.attrVal e.attrs j = some v; rw [h.map]; exact hv⟩
  have k3 := spot_first (cs := opts.caseSensitive) (g := .attr k) (x := .attr v) (.inr ⟨k, rfl⟩) (by simp [Goal.itemsBy, hat]) g2 true
    (fun hn => by obtain ⟨d, d1, d2⟩ := g5 hn; exact absurd d2 (ha.top d d1)) (reach_spot hr)
  have k4 := gives_things k2
  cases hA : a.array with
  | nil => rw [hA] at k4; cases hx : (askBy opts.caseSensitive ms (.attr k) true (c.plug (e.cons .nil)).info).items with
    | nil => rw [hx] at k3; simp at k3
    | cons y l => rw [hx] at k4; cases k4
  | cons r rs =>
    cases hx : (askBy opts.caseSensitive ms (.attr k) true (c.plug (e.cons .nil)).info).items with
    | nil => rw [hx] at k3; simp at k3
    | cons y l =>
      rw [hA, hx] at k4
      rw [hx] at k3
      simp only [List.head?_cons, Option.some.injEq] at k3
      subst k3
      cases k4 with
      | cons k5 _ =>
        have k6 : r = .ofAttr v := k5
        exact ⟨a, k1, by rw [hA, k6]; rfl⟩

/-! ### cases -/

/-- `<R><a/><A z='1' B="&amp;">x</A></R>`, with the second `a`. -/
def labelCtx : Ctx := .within .nil b!"R" [] [] (.here (.leaf b!"a" [] [] .nil) .nil) [] .nil
def labelEl : El := ⟨b!"A", [⟨b!" ", b!"z", [], [], c!"'", b!"1"⟩, ⟨b!" ", b!"B", [], [], c!"\"", b!"&amp;"⟩], [], some (.text b!"x" .nil, [])⟩

def labelKeys : List Bytes := [b!"b", b!"B", b!"z", b!"Z"]

theorem labelEl_is : LabelsAt labelKeys labelCtx labelEl (Spec.attrVal labelEl.attrs) :=
  ⟨editable_of (by decide +kernel), by decide, by decide, rfl⟩

example : (labelCtx.plug (labelEl.cons .nil)).render = b!"<R><a/><A z='1' B=\"&amp;\">x</A></R>" := by decide +kernel

/-- The first adds a `b` beside the `B`, the third gives the value to both; the second removes nothing, the fourth does. -/
def labelCalls : List LabelCall :=
  [⟨exEnv.ord, b!"*.A.@b", defaultOptions, .put b!"b" b!"<"⟩, ⟨exEnv.ord, b!"*.A.@Z", defaultOptions, .drop b!"Z"⟩,
   ⟨exEnv.ord, b!"*.A.1.@b", ciOpts, .put b!"b" b!"2"⟩, ⟨exEnv.ord, b!"*.A.1.@Z", inOpts, .drop b!"Z"⟩]

theorem labelTrail : Trail [b!"*", b!"A"] (some [(.any, 0), (.name b!"A", 0)]) :=
  .first (t := some _) (.any (by decide)) (by intro d hd; simp at hd; subst hd; exact fun h => absurd h (by unfold Position; decide +kernel))
    (.first (t := some _) (.name (name_step (by decide))) (by simp) .nil)

theorem labelCalls_meant : ∀ q ∈ labelCalls, q.Meant labelKeys labelCtx labelEl.name := by
  intro q hq
  simp only [labelCalls, List.mem_cons, List.not_mem_nil, or_false] at hq
  rcases hq with rfl | rfl | rfl | rfl
  · exact ⟨exEnv_perm, ⟨isName_of (by decide) (by decide), by decide⟩, by decide, [b!"*", b!"A"], ⟨_, labelTrail, by decide +kernel, by decide +kernel, by decide +kernel, by decide +kernel⟩,
      pathSteps_by (by decide) (by decide) (by decide +kernel) (by decide +kernel)⟩
  · exact ⟨exEnv_perm, by simp [MapOp.Fits], by decide, [b!"*", b!"A"], ⟨_, labelTrail, by decide +kernel, by decide +kernel, by decide +kernel, by decide +kernel⟩,
      pathSteps_by (by decide) (by decide) (by decide +kernel) (by decide +kernel)⟩
  · exact ⟨exEnv_perm, ⟨isName_of (by decide) (by decide), by decide⟩, by decide, [b!"*", b!"A", b!"1"], ⟨_, exDeep_trail, by decide +kernel, by decide +kernel, by decide +kernel, by decide +kernel⟩,
      pathSteps_by (by decide) (by decide) (by decide +kernel) (by decide +kernel)⟩
  · exact ⟨exEnv_perm, by simp [MapOp.Fits], by decide, [b!"*", b!"A", b!"1"], ⟨_, exDeep_trail, by decide +kernel, by decide +kernel, by decide +kernel, by decide +kernel⟩,
      pathSteps_by (by decide) (by decide) (by decide +kernel) (by decide +kernel)⟩

/-- What they leave, and that it is what the operations do to the map. -/
example : ∃ e' : El, b!"<R><a/><A B=\"2\" b=\"2\">x</A></R>" = (labelCtx.plug (e'.cons .nil)).render ∧
    LabelsAt labelKeys labelCtx e' (LabelCall.onAll labelCalls (Spec.attrVal labelEl.attrs)) ∧ e'.name = labelEl.name ∧ e'.body = labelEl.body :=
  C94_run (by decide) labelCalls labelEl_is labelCalls_meant (by decide +kernel)

/-- C94: and it can be written with one exact call for each name. -/
theorem C94_witness :
    LabelCall.runAll b!"<R><a/><A z='1' B=\"&amp;\">x</A></R>" labelCalls = some b!"<R><a/><A B=\"2\" b=\"2\">x</A></R>" ∧
    LabelCall.runAll b!"<R><a/><A z='1' B=\"&amp;\">x</A></R>" [⟨exEnv.ord, b!"R.A.@z", defaultOptions, .drop b!"z"⟩, ⟨exEnv.ord, b!"R.A.@b", defaultOptions, .put b!"b" b!"2"⟩, ⟨exEnv.ord, b!"R.A.@B", defaultOptions, .put b!"B" b!"2"⟩] =
      some b!"<R><a/><A B=\"2\" b=\"2\">x</A></R>" ∧
    LabelCall.runAll b!"<R><A/></R>" [⟨exEnv.ord, b!"r.a.@K", ciOpts, .put b!"K" b!"v"⟩] = some b!"<R><A k=\"v\"/></R>" := by
  refine ⟨by decide +kernel, by decide +kernel, by decide +kernel⟩

theorem sameKey_trans {cs : Bool} {i j k : Bytes} (h1 : sameKey cs i j) (h2 : sameKey cs j k) : sameKey cs i k := by
  cases cs
  · simp only [sameKey, Bool.false_eq_true, if_false] at *; exact h1.trans h2
  · simp only [sameKey, if_true] at *; exact h1.trans h2

theorem sameKey_symm {cs : Bool} {i j : Bytes} (h1 : sameKey cs i j) : sameKey cs j i := by
  cases cs
  · simp only [sameKey, Bool.false_eq_true, if_false] at *; exact h1.symm
  · simp only [sameKey, if_true] at *; exact h1.symm

/-- C94: seen through the same comparison it is a map in any case: after a value is given to `k`, each spelling of `k` finds that value and no other; after a removal it finds nothing; other names find what they found. -/
theorem C94_seen (cs : Bool) (m : Bytes → Option Bytes) (k s x v : Bytes) :
    ((∃ j, sameKey cs j x ∧ (MapOp.put k s).onBy cs m j = some v) ↔ if sameKey cs x k then v = s else ∃ j, sameKey cs j x ∧ m j = some v) ∧
    ((∃ j, sameKey cs j x ∧ (MapOp.drop k).onBy cs m j = some v) ↔ ¬ sameKey cs x k ∧ ∃ j, sameKey cs j x ∧ m j = some v) := by
  have hne : ¬ sameKey cs x k → ∀ j, sameKey cs j x → ¬ sameKey cs j k := fun h j hj hh => h (sameKey_trans (sameKey_symm hj) hh)
  constructor
  · by_cases hx : sameKey cs x k
    · rw [if_pos hx]
      constructor
      · rintro ⟨j, h1, h2⟩
        simp only [MapOp.onBy] at h2
        rw [if_pos (sameKey_trans h1 hx)] at h2
        split at h2
        · split at h2
          · cases h2
          · injection h2 with h2; exact h2.symm
        · split at h2
          · injection h2 with h2; exact h2.symm
          · cases h2
      · rintro rfl
        by_cases he : ∃ i, sameKey cs i k ∧ m i ≠ none
        · obtain ⟨i, i1, i2⟩ := he
          refine ⟨i, sameKey_trans i1 (sameKey_symm hx), ?_⟩
          simp only [MapOp.onBy]
          rw [if_pos i1, if_pos ⟨i, i1, i2⟩, if_neg i2]
        · refine ⟨spelling cs k, sameKey_trans (sameKey_self _ _) (sameKey_symm hx), ?_⟩
          simp only [MapOp.onBy]
          rw [if_pos (sameKey_self _ _), if_neg he]; simp
    · rw [if_neg hx]
      constructor
      · rintro ⟨j, h1, h2⟩
        simp only [MapOp.onBy] at h2
        rw [if_neg (hne hx j h1)] at h2
        exact ⟨j, h1, h2⟩
      · rintro ⟨j, h1, h2⟩
        refine ⟨j, h1, ?_⟩
        simp only [MapOp.onBy]
        rw [if_neg (hne hx j h1)]; exact h2
  · constructor
    · rintro ⟨j, h1, h2⟩
      simp only [MapOp.onBy] at h2
      split at h2
      · cases h2
      · rename_i hj
        exact ⟨fun hx => hj (sameKey_trans h1 hx), j, h1, h2⟩
    · rintro ⟨hx, j, h1, h2⟩
      refine ⟨j, h1, ?_⟩
      simp only [MapOp.onBy]
      rw [if_neg (hne hx j h1)]; exact h2

/-- C94: with options that compare exactly, it is the map of C71. -/
theorem C94_exact (qs : List LabelCall) (h : ∀ q ∈ qs, q.opts.caseSensitive = true) (m : Bytes → Option Bytes) : LabelCall.onAll qs m = MapOp.onAll (qs.map (·.op)) m := by
  induction qs generalizing m with
  | nil => rfl
  | cons q qs ih =>
    have h1 := ih (fun q' hm => h q' (by simp [hm])) (q.op.onBy q.opts.caseSensitive m)
    rw [h q (by simp), onBy_exact] at h1
    rw [LabelCall.onAll, List.foldl_cons, h q (by simp), onBy_exact]
    exact h1

end Verif.Props
