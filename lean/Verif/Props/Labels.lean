import Verif.Spec.Labels
import Verif.Props.Attr
/- C71: the attributes of an element are a map, in which Set and Delete put and remove. -/
namespace Verif.Props
open Verif Verif.Spec

/-- The call for an operation on the attributes of the element at a path. -/
def labelOf (o : Ord) (parts : List Bytes) (xml : Bytes) : MapOp → Outcome (Bytes × Option Err)
  | .put k s => set o xml (pathOf (parts ++ [c!"@" :: k])) (.str s)
  | .drop k => delete o xml (pathOf (parts ++ [c!"@" :: k]))

/-- The calls one after the other; `none` when one fails or the document gets longer than 10 MiB. -/
def runLabels (o : Ord) (parts : List Bytes) : Bytes → List MapOp → Option Bytes
  | xml, [] => some xml
  | xml, p :: ps =>
    match labelOf o parts xml p with
    | .ret (r, none) => if r.length ≤ 10485760 then runLabels o parts r ps else none
    | _ => none

theorem attrVal_iff (as : List Attr) (k : Bytes) : attrVal as k ≠ none ↔ k ∈ as.map (·.name) := by
  unfold attrVal
  rw [ne_eq, Option.map_eq_none_iff, List.getLast?_eq_none_iff, List.filter_eq_nil_iff]
  simp

theorem retag_names {e : El} {k : Bytes} {x : Option Bytes} {as : List Attr} (h : Retag e k x as) {ks : List Bytes} (hk : k ∈ ks)
    (hn : ∀ a ∈ e.attrs, a.name ∈ ks) : ∀ a ∈ as, a.name ∈ ks := by
  intro a ha
  by_cases hj : a.name = k
  · rw [hj]; exact hk
  · have h1 : attrVal as a.name ≠ none := (attrVal_iff _ _).mpr (List.mem_map_of_mem ha)
    rw [h.others _ hj, attrVal_iff] at h1
    obtain ⟨a', h2, h3⟩ := List.mem_map.mp h1
    rw [← h3]; exact hn a' h2

theorem retag_on {e : El} {k : Bytes} {x : Option Bytes} {as : List Attr} (h : Retag e k x as) :
    attrVal as = fun j => if j = k then x else attrVal e.attrs j := by
  funext j
  by_cases hj : j = k
  · rw [if_pos hj, hj]; exact h.this
  · rw [if_neg hj]; exact h.others j hj

theorem name_noBar {k : Bytes} (hk : IsName k) : c!"|" ∉ k := by
  intro hh
  have := hk.2.1 _ hh
  revert this; decide

theorem nodup_subset_length {α : Type} [DecidableEq α] {l ks : List α} (h : l.Nodup) (hs : ∀ a ∈ l, a ∈ ks) : l.length ≤ ks.length := by
  induction l generalizing ks with
  | nil => simp
  | cons a l ih =>
    have ha := hs a (by simp)
    rw [List.nodup_cons] at h
    have := ih (ks := ks.erase a) h.2 (fun b hb => (List.mem_erase_of_ne (show b ≠ a by rintro rfl; exact h.1 hb)).mpr (hs b (by simp [hb])))
    rw [List.length_erase_of_mem ha] at this
    have := List.length_pos_of_mem ha
    simp; omega

theorem labels_step {o : Ord} (ho : o.IsPerm) {ps : List Step} {parts : List Bytes} (hps : StepsText ps parts) (hpl : parts.length < 100)
    {ks : List Bytes} (hks : ks.length ≤ 100) {c : Ctx} {e : El} {m : Bytes → Option Bytes} (h : Labels ps ks c e m) {p : MapOp} (hp : p.Fits) (hk : p.key ∈ ks) :
    ∃ e' : El, e'.name = e.name ∧ e'.body = e.body ∧ labelOf o parts (c.plug (e.cons .nil)).render p = .ret ((c.plug (e'.cons .nil)).render, none) ∧
      ((c.plug (e'.cons .nil)).render.length ≤ 10485760 → Labels ps ks c e' (p.on m)) ∧
      (Canonical e → Canonical e') ∧ (∀ k s, p = .put k s → Canonical e') := by
  obtain ⟨hd, hL, hnd, hnames, hm⟩ := h
  have hg := editable_el hd
  obtain ⟨ha, hf⟩ := el_attrs hg.legal hg.tame
  have hr : ∀ as, c.before ++ (e.retag as).render ++ c.after = (c.plug ((e.retag as).cons .nil)).render := by
    intro as; rw [plug_el_render]; simp [El.render]
  cases p with
  | put k s =>
    obtain ⟨hk1, hs⟩ := hp
    obtain ⟨as, h1, h2, h3⟩ := set_attr ho hps hpl hL hd (name_noBar hk1) (v := .str s) (by simp) rfl (by omega)
    have hcount : attrVal e.attrs k ≠ none ∨ e.attrs.length < 100 := by
      by_cases hmem : k ∈ e.attrs.map (·.name)
      · exact .inl ((attrVal_iff _ _).mpr hmem)
      · have : (k :: e.attrs.map (·.name)).length ≤ ks.length := nodup_subset_length (by simp [List.nodup_cons, hnd]; simpa using hmem) (by
          intro j hj
          rcases List.mem_cons.mp hj with rfl | hj
          · exact hk
          · obtain ⟨a, h2, rfl⟩ := List.mem_map.mp hj; exact hnames a h2)
        simp at this
        exact .inr (by omega)
    obtain ⟨h4, h5⟩ := h3 ha hf hk1 hs hcount
    refine ⟨e.retag as, rfl, rfl, by rw [labelOf, h2, hr], fun hsz => ⟨editable_retag hd h4 h5 h1.neat hsz, hL, h1.neat.2, retag_names h1 hk hnames, ?_⟩,
      fun _ => ⟨h1.neat, h1.sorted, rfl⟩, fun _ _ _ => ⟨h1.neat, h1.sorted, rfl⟩⟩
    rw [show (e.retag as).attrs = as from rfl, retag_on h1, ← hm]; rfl
  | drop k =>
    obtain ⟨d1, d2⟩ := delete_attr ho hps hpl hL hd (k := k) hp
    by_cases hx : attrVal e.attrs k = none
    · refine ⟨e, rfl, rfl, d1 hx, fun _ => ⟨hd, hL, hnd, hnames, ?_⟩, id, fun _ _ hh => by cases hh⟩
      funext j
      rw [MapOp.on, ← hm]
      simp only
      by_cases hj : j = k
      · rw [if_pos hj, hj, hx]
      · rw [if_neg hj]
    · obtain ⟨as, h1, h4, h5, h2⟩ := d2 hx
      refine ⟨e.retag as, rfl, rfl, by rw [labelOf, h2, hr], fun hsz => ⟨editable_retag hd h4 h5 h1.neat hsz, hL, h1.neat.2, retag_names h1 hk hnames, ?_⟩,
        fun _ => ⟨h1.neat, h1.sorted, rfl⟩, fun _ _ _ => ⟨h1.neat, h1.sorted, rfl⟩⟩
      rw [show (e.retag as).attrs = as from rfl, retag_on h1, ← hm]; rfl

/-- C71: the attributes of an element are a map. When a path leads to an element, `Set(path.@k, s)` puts `s` at `k` and `Delete(path.@k)` removes `k`; both always succeed.
The name and the content of the element, byte for byte, and the document around it stay. (At most 100 names can occur.) -/
theorem C71_step (o : Ord) (ho : o.IsPerm) (ps : List Step) (parts : List Bytes) (hps : StepsText ps parts) (hpl : parts.length < 100)
    (ks : List Bytes) (hks : ks.length ≤ 100) (c : Ctx) (e : El) (m : Bytes → Option Bytes) (h : Labels ps ks c e m) (p : MapOp) (hp : p.Fits) (hk : p.key ∈ ks) :
    ∃ e' : El, e'.name = e.name ∧ e'.body = e.body ∧ labelOf o parts (c.plug (e.cons .nil)).render p = .ret ((c.plug (e'.cons .nil)).render, none) ∧
      ((c.plug (e'.cons .nil)).render.length ≤ 10485760 → Labels ps ks c e' (p.on m)) := by
  obtain ⟨e', h1, h2, h3, h4, -, -⟩ := labels_step ho hps hpl hks h hp hk
  exact ⟨e', h1, h2, h3, h4⟩

theorem labels_run {o : Ord} (ho : o.IsPerm) {ps : List Step} {parts : List Bytes} (hps : StepsText ps parts) (hpl : parts.length < 100)
    {ks : List Bytes} (hks : ks.length ≤ 100) {c : Ctx} (qs : List MapOp) {e : El} {m : Bytes → Option Bytes} (h : Labels ps ks c e m)
    (hq : ∀ q ∈ qs, q.Fits ∧ q.key ∈ ks) {r : Bytes} (hr : runLabels o parts (c.plug (e.cons .nil)).render qs = some r) :
    ∃ e' : El, r = (c.plug (e'.cons .nil)).render ∧ Labels ps ks c e' (MapOp.onAll qs m) ∧ e'.name = e.name ∧ e'.body = e.body ∧
      ((Canonical e ∨ ∃ k s, MapOp.put k s ∈ qs) → Canonical e') := by
  induction qs generalizing e m with
  | nil =>
    simp only [runLabels, Option.some.injEq] at hr
    exact ⟨e, hr.symm, h, rfl, rfl, fun hc => hc.elim id (fun ⟨k, s, hm⟩ => absurd hm (by simp))⟩
  | cons q qs ih =>
    obtain ⟨e1, k1, k2, k3, k4, k5, k6⟩ := labels_step ho hps hpl hks h (hq q (by simp)).1 (hq q (by simp)).2
    rw [runLabels, k3] at hr
    simp only at hr
    split at hr
    · rename_i hsz
      obtain ⟨e2, q1, q2, q3, q4, q5⟩ := ih (k4 hsz) (fun q hq' => hq q (by simp [hq'])) hr
      refine ⟨e2, q1, q2, q3.trans k1, q4.trans k2, fun hc => q5 ?_⟩
      rcases hc with hc | ⟨k, s, hm⟩
      · exact .inl (k5 hc)
      · rcases List.mem_cons.mp hm with hm | hm
        · exact .inl (k6 k s hm.symm)
        · exact .inr ⟨k, s, hm⟩
    · cases hr

/-- C71: any number of such calls does to the attributes what the operations do to a map. -/
theorem C71_run (o : Ord) (ho : o.IsPerm) (ps : List Step) (parts : List Bytes) (hps : StepsText ps parts) (hpl : parts.length < 100)
    (ks : List Bytes) (hks : ks.length ≤ 100) (c : Ctx) (e : El) (m : Bytes → Option Bytes) (h : Labels ps ks c e m)
    (qs : List MapOp) (hq : ∀ q ∈ qs, q.Fits ∧ q.key ∈ ks) (r : Bytes) (hr : runLabels o parts (c.plug (e.cons .nil)).render qs = some r) :
    ∃ e' : El, r = (c.plug (e'.cons .nil)).render ∧ Labels ps ks c e' (MapOp.onAll qs m) ∧ e'.name = e.name ∧ e'.body = e.body := by
  obtain ⟨e', h1, h2, h3, h4, -⟩ := labels_run ho hps hpl hks qs h hq hr
  exact ⟨e', h1, h2, h3, h4⟩

theorem lex_asymm {a b : Bytes} (h : LexBefore a b) : ¬ LexBefore b a := by
  induction h with
  | nil => intro h; cases h
  | head xs ys h =>
    intro h'
    cases h' with
    | head _ _ h' => exact absurd (UInt8.lt_trans h h') (UInt8.lt_irrefl _)
    | tail _ _ => exact absurd h (UInt8.lt_irrefl _)
  | tail x _ ih =>
    intro h'
    cases h' with
    | head _ _ h' => exact absurd h' (UInt8.lt_irrefl _)
    | tail _ h' => exact ih h'

theorem lex_irrefl (a : Bytes) : ¬ LexBefore a a := fun h => lex_asymm h h

theorem sorted_same {l1 l2 : List Bytes} (h1 : l1.Pairwise LexBefore) (h2 : l2.Pairwise LexBefore) (h : ∀ a, a ∈ l1 ↔ a ∈ l2) : l1 = l2 := by
  induction l1 generalizing l2 with
  | nil => cases l2 with
    | nil => rfl
    | cons b l2 => exact absurd ((h b).mpr (by simp)) (by simp)
  | cons a l1 ih =>
    cases l2 with
    | nil => exact absurd ((h a).mp (by simp)) (by simp)
    | cons b l2 =>
      rw [List.pairwise_cons] at h1 h2
      have hab : a = b := by
        rcases List.mem_cons.mp ((h a).mp (by simp)) with hh | hh
        · exact hh
        · rcases List.mem_cons.mp ((h b).mpr (by simp)) with hh2 | hh2
          · exact hh2.symm
          · exact absurd (h1.1 b hh2) (lex_asymm (h2.1 a hh))
      subst hab
      congr 1
      refine ih h1.2 h2.2 (fun x => ⟨fun hx => ?_, fun hx => ?_⟩)
      · rcases List.mem_cons.mp ((h x).mp (by simp [hx])) with rfl | hh
        · exact absurd (h1.1 _ hx) (lex_irrefl _)
        · exact hh
      · rcases List.mem_cons.mp ((h x).mpr (by simp [hx])) with rfl | hh
        · exact absurd (h2.1 _ hx) (lex_irrefl _)
        · exact hh

theorem attrVal_once {as : List Attr} (h : (as.map (·.name)).Nodup) {a : Attr} (ha : a ∈ as) : attrVal as a.name = some (unescapeXML a.raw) := by
  have : as.filter (fun b => b.name = a.name) = [a] := by
    induction as with
    | nil => cases ha
    | cons b as ih =>
      rw [List.map_cons, List.nodup_cons] at h
      rcases List.mem_cons.mp ha with rfl | ha
      · rw [List.filter_cons, if_pos (by simp)]
        congr 1
        rw [List.filter_eq_nil_iff]
        intro b hb hh
        exact h.1 (by simp only [decide_eq_true_eq] at hh; rw [← hh]; exact List.mem_map_of_mem hb)
      · rw [List.filter_cons, if_neg, ih h.2 ha]
        simp only [decide_eq_true_eq]
        intro hh
        exact h.1 (by rw [hh]; exact List.mem_map_of_mem ha)
  rw [attrVal, this]; rfl

theorem canonical_eq {e1 e2 : El} (h1 : Canonical e1) (h2 : Canonical e2) (hn : e1.name = e2.name) (hb : e1.body = e2.body) (hm : attrVal e1.attrs = attrVal e2.attrs) :
    e1 = e2 := by
  obtain ⟨n1, as, w1, b1⟩ := e1
  obtain ⟨n2, bs, w2, b2⟩ := e2
  obtain ⟨⟨p1, p2⟩, p3, p4⟩ := h1
  obtain ⟨⟨q1, q2⟩, q3, q4⟩ := h2
  simp only at *
  subst hn hb p4 q4
  congr 1
  have hnames : as.map (·.name) = bs.map (·.name) := sorted_same p3 q3 (fun a => by rw [← attrVal_iff, ← attrVal_iff, hm])
  have e1 : ∀ (cs : List Attr), (∀ a ∈ cs, a.pre = b!" " ∧ a.mid1 = [] ∧ a.mid2 = [] ∧ a.quote = c!"\"" ∧ ∃ v, a.raw = escapeXML v) → (cs.map (·.name)).Nodup →
      cs = (cs.map (·.name)).map (fun n => ⟨b!" ", n, [], [], c!"\"", escapeXML ((attrVal cs n).getD [])⟩) := by
    intro cs hc hnd
    conv => lhs; rw [← List.map_id cs]
    rw [List.map_map]
    refine List.map_congr_left (fun a ha => ?_)
    obtain ⟨r1, r2, r3, r4, v, r5⟩ := hc a ha
    have := attrVal_once hnd ha
    obtain ⟨a1, a2, a3, a4, a5, a6⟩ := a
    simp only at *
    subst r1 r2 r3 r4 r5
    simp only [Function.comp_def, id_eq, this, unescape_escape, Option.getD_some]
  rw [e1 as p1 p2, e1 bs q1 q2, hnames, hm]

/-- C71: the order of the calls leaves no trace. Two sequences of calls that give the same map, each with at least one Set, give the same document. -/
theorem C71_order (o : Ord) (ho : o.IsPerm) (ps : List Step) (parts : List Bytes) (hps : StepsText ps parts) (hpl : parts.length < 100)
    (ks : List Bytes) (hks : ks.length ≤ 100) (c : Ctx) (e : El) (m : Bytes → Option Bytes) (h : Labels ps ks c e m)
    (qs1 qs2 : List MapOp) (hq1 : ∀ q ∈ qs1, q.Fits ∧ q.key ∈ ks) (hq2 : ∀ q ∈ qs2, q.Fits ∧ q.key ∈ ks)
    (hs1 : ∃ k s, MapOp.put k s ∈ qs1) (hs2 : ∃ k s, MapOp.put k s ∈ qs2) (heq : MapOp.onAll qs1 m = MapOp.onAll qs2 m)
    (r1 r2 : Bytes) (hr1 : runLabels o parts (c.plug (e.cons .nil)).render qs1 = some r1) (hr2 : runLabels o parts (c.plug (e.cons .nil)).render qs2 = some r2) : r1 = r2 := by
  obtain ⟨e1, rfl, h2, h3, h4, h5⟩ := labels_run ho hps hpl hks qs1 h hq1 hr1
  obtain ⟨e2, rfl, g2, g3, g4, g5⟩ := labels_run ho hps hpl hks qs2 h hq2 hr2
  rw [canonical_eq (h5 (.inr hs1)) (g5 (.inr hs2)) (h3.trans g3.symm) (h4.trans g4.symm) (by rw [h2.map, g2.map, heq])]

/-- C71: the map as Get reads it, if the path consists of names. -/
theorem C71_read (env : Env) (ho : env.ord.IsPerm) (ns : List Bytes) (n : Bytes) (hn : ∀ q ∈ ns ++ [n], PlainName q) (hl : ns.length < 99)
    (ks : List Bytes) (c : Ctx) (e : El) (m : Bytes → Option Bytes) (h : Labels (firsts (ns ++ [n])) ks c e m) (k v : Bytes) (hk : c!"|" ∉ k) (hv : m k = some v) :
    get env (c.plug (e.cons .nil)).render (pathOf (ns ++ [n] ++ [c!"@" :: k])) = .ret (.ofAttr v) := by
  have hf := leads_follow h.there
  obtain ⟨k0, ks, hk0, hk1⟩ := follow_reach hf
  have hval : ((k0.named n).head?.bind (·.attr k)) = some v := by rw [hk1, ← hv, ← h.map]; rfl
  rw [C05_get_attribute env ho _ _ (editable_says h.doc) ns n k hn hk hl, hk0, List.findSome?_cons, hval]

/-! ### cases -/

/-- `<r z='1'  b = "&amp;" >x</r>`. -/
def exLabels : El := ⟨b!"r", [⟨b!" ", b!"z", [], [], c!"'", b!"1"⟩, ⟨b!"  ", b!"b", b!" ", b!" ", c!"\"", b!"&amp;"⟩], b!" ", some (.text b!"x" .nil, [])⟩

theorem exLabels_is : Labels (firsts [b!"r"]) [b!"a", b!"b", b!"z"] (.here .nil .nil) exLabels (attrVal exLabels.attrs) :=
  ⟨editable_of (by decide +kernel), ⟨by decide +kernel, rfl⟩, by decide, by decide, rfl⟩

example : (Ctx.plug (.here .nil .nil) (exLabels.cons .nil)).render = b!"<r z='1'  b = \"&amp;\" >x</r>" := by decide +kernel

example : runLabels exEnv.ord [b!"r"] b!"<r z='1'  b = \"&amp;\" >x</r>" [.put b!"a" b!" \"<", .drop b!"z", .put b!"b" b!"2", .drop b!"q"] =
    some b!"<r a=\" &quot;&lt;\" b=\"2\">x</r>" := by decide +kernel

example : MapOp.onAll [.put b!"a" b!"1", .drop b!"z", .put b!"b" b!"2"] (attrVal exLabels.attrs) =
    MapOp.onAll [.put b!"z" b!"0", .put b!"b" b!"1", .put b!"b" b!"2", .put b!"a" b!"1", .drop b!"z"] (attrVal exLabels.attrs) := by
  funext j
  simp only [MapOp.onAll, List.foldl_cons, List.foldl_nil, MapOp.on]
  by_cases ha : j = b!"a"
  · subst ha; simp
  · by_cases hb : j = b!"b"
    · subst hb; simp
    · by_cases hz : j = b!"z"
      · subst hz; simp
      · simp [ha, hb, hz]

example (r1 r2 : Bytes) (h1 : runLabels exEnv.ord [b!"r"] (Ctx.plug (.here .nil .nil) (exLabels.cons .nil)).render [.put b!"a" b!"1", .put b!"b" b!"2"] = some r1)
    (h2 : runLabels exEnv.ord [b!"r"] (Ctx.plug (.here .nil .nil) (exLabels.cons .nil)).render [.put b!"b" b!"2", .put b!"a" b!"1"] = some r2) : r1 = r2 := by
  have hf : ∀ k s, k = b!"a" ∨ k = b!"b" → (escapeXML s).length ≤ 1048576 → (MapOp.put k s).Fits ∧ (MapOp.put k s).key ∈ [b!"a", b!"b", b!"z"] := by
    rintro k s (rfl | rfl) hs
    · exact ⟨⟨isName_of (by decide) (by decide), hs⟩, by simp [MapOp.key]⟩
    · exact ⟨⟨isName_of (by decide) (by decide), hs⟩, by simp [MapOp.key]⟩
  refine C71_order exEnv.ord exEnv_perm (firsts [b!"r"]) [b!"r"] (stepsText_names (by simpa using plain_of (by decide))) (by decide) _ (by decide)
    (.here .nil .nil) exLabels _ exLabels_is _ _ ?_ ?_ ⟨_, _, by simp; exact .inl ⟨rfl, rfl⟩⟩ ⟨_, _, by simp; exact .inl ⟨rfl, rfl⟩⟩ ?_ r1 r2 h1 h2
  · intro q hq
    rw [List.mem_cons, List.mem_singleton] at hq
    rcases hq with rfl | rfl
    · exact hf _ b!"1" (.inl rfl) (by decide)
    · exact hf _ b!"2" (.inr rfl) (by decide)
  · intro q hq
    rw [List.mem_cons, List.mem_singleton] at hq
    rcases hq with rfl | rfl
    · exact hf _ b!"2" (.inr rfl) (by decide)
    · exact hf _ b!"1" (.inl rfl) (by decide)
  · funext j
    simp only [MapOp.onAll, List.foldl_cons, List.foldl_nil, MapOp.on]
    by_cases ha : j = b!"a"
    · subst ha; simp
    · by_cases hb : j = b!"b"
      · subst hb; simp
      · simp [ha, hb]

/-- C71: names that differ only in a prefix are different names. -/
theorem C71_prefix : runLabels exEnv.ord [b!"r"] b!"<r/>" [.put b!"n:a" b!"1", .put b!"a" b!"2", .drop b!"a"] = some b!"<r n:a=\"1\"/>" := by decide +kernel

end Verif.Props
