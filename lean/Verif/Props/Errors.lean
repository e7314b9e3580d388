import Verif.Lemmas.Errors
import Verif.Props.Panic
import Verif.Props.Entry
/- C62: how any text is read as a path, and which error each modification returns. -/
namespace Verif.Props
open Spec

/-! ## texts and paths -/

/-- C62: a text is a path of steps, in one way, or no path, or one that panics; never two of these. -/
theorem C62_readings (path : Bytes) : ((∃ ss, PathSteps path ss) ∨ NoPath path ∨ BadPath path) ∧ (∀ ss ss', PathSteps path ss → PathSteps path ss' → ss = ss') ∧
    (∀ ss, PathSteps path ss → ¬ NoPath path ∧ ¬ BadPath path) ∧ ¬ (NoPath path ∧ BadPath path) := by
  refine ⟨path_total path, fun ss ss' h h' => pathSteps_fun h h', fun ss h => ⟨fun h' => ?_, fun h' => ?_⟩, fun ⟨h, h'⟩ => ?_⟩
  · rcases parsePath_reads h with ⟨h0, _⟩ | ⟨segs, h1, _⟩
    · subst h0
      obtain ⟨ps, hp, hc⟩ := h'
      have e := parts_fun hp
      simp only [splitPathAux] at e
      have hn : ∀ e, ¬ FilterBody [] e := by rintro e ⟨all, h⟩; simp [beforeBar, filterPart] at h
      rcases hc with hc | ⟨pre, p, post, e2, _, hr⟩
      · rw [e] at hc; simp at hc
      · rw [e] at e2
        cases pre with
        | nil =>
          simp only [List.nil_append, List.cons.injEq] at e2
          rw [← e2.1] at hr
          obtain ⟨x, _, hx, _⟩ := hr
          exact hn x hx
        | cons a as => simp at e2
    · rw [parsePath_none h'] at h1; cases h1
  · rcases parsePath_reads h with ⟨h0, _⟩ | ⟨segs, h1, _⟩
    · subst h0; have := parsePath_bad h'; cases this
    · rw [parsePath_bad h'] at h1; cases h1
  · have := (parsePath_none h).symm.trans (parsePath_bad h'); cases this

theorem parsePath_panic_iff {path : Bytes} : parsePath path = .panic ↔ BadPath path := by
  refine ⟨fun h => ?_, parsePath_bad⟩
  rcases path_total path with ⟨ss, hs⟩ | hn | hb
  · rcases parsePath_reads hs with ⟨h0, _⟩ | ⟨segs, h1, _⟩
    · subst h0; cases h
    · rw [h1] at h; cases h
  · rw [parsePath_none hn] at h; cases h
  · exact hb

/-- C62: a query panics for exactly these paths, whatever the document (of at most 10 MiB) and the options. -/
theorem C62_panics (env : Env) (xml path : Bytes) (opts : Option Options) :
    (get env xml path = .panic ↔ xml.length ≤ 10485760 ∧ BadPath path) ∧ (getWithOptions env xml path opts = .panic ↔ xml.length ≤ 10485760 ∧ BadPath path) := by
  have h1 : get env xml path = .panic ↔ xml.length ≤ 10485760 ∧ BadPath path := by rw [get_panic_iff, parsePath_panic_iff]
  exact ⟨h1, (C27_getWithOptions env xml path opts).trans h1⟩

/-- C62: what is no path, or has no step, finds nothing. -/
theorem C62_nothing (env : Env) (xml path : Bytes) (opts : Option Options) (h : NoPath path ∨ PathSteps path []) : get env xml path = .ret .null ∧ getWithOptions env xml path opts = .ret .null := by
  have hp : parsePath path = .err ∨ parsePath path = .ok [] := by
    have := parseOpt_none h true
    unfold parsePathWithOptions at this
    cases hq : parsePath path <;> simp [hq] at this ⊢
    exact this
  constructor
  · unfold get
    rcases hp with hp | hp <;> simp [hp]
  · unfold getWithOptions
    rcases hp with hp | hp <;> simp [parsePathWithOptions, hp]

/-- C62: two texts with the same steps are interchangeable: escapes, empty parts and ignored parts change nothing. -/
theorem C62_same (env : Env) (xml path path' : Bytes) (ss : List Bytes) (h : PathSteps path ss) (h' : PathSteps path' ss) (v : GoVal) (opts : Option Options) :
    get env xml path = get env xml path' ∧ getWithOptions env xml path opts = getWithOptions env xml path' opts ∧
    setWithOptions env.ord xml path v opts = setWithOptions env.ord xml path' v opts ∧ deleteWithOptions env.ord xml path opts = deleteWithOptions env.ord xml path' opts := by
  rcases Classical.em (ss = []) with h0 | h0
  · subst h0
    have a := C62_nothing env xml path opts (.inr h)
    have b := C62_nothing env xml path' opts (.inr h')
    have hd : ∀ {q : Bytes}, PathSteps q [] → deleteWithOptions env.ord xml q opts =
        if xml.length > maxDocumentSize then .ret (xml, some .malformed) else if !valid xml then .ret (xml, some .malformed) else .ret (xml, some .invalidPath) := by
      intro q hq
      unfold deleteWithOptions
      rcases parseOpt_none (.inr hq) (effOpts opts).caseSensitive with hp | hp <;> rw [hp]
    have hs : ∀ {q : Bytes}, PathSteps q [] → setWithOptions env.ord xml q v opts =
        if xml.length > maxDocumentSize then .ret (xml, some .malformed) else if !xml.isEmpty && !valid xml then .ret (xml, some .malformed)
        else if v = .nil then deleteWithOptions env.ord xml q opts else .ret (xml, some .invalidPath) := by
      intro q hq
      unfold setWithOptions
      rcases parseOpt_none (.inr hq) (effOpts opts).caseSensitive with hp | hp <;> rw [hp]
    exact ⟨a.1.trans b.1.symm, a.2.trans b.2.symm, by rw [hs h, hs h', hd h, hd h'], by rw [hd h, hd h']⟩
  · have e : parsePath path = parsePath path' := by
      rcases parsePath_reads h with ⟨_, h1⟩ | ⟨segs, h1, h2⟩
      · exact absurd h1 h0
      rcases parsePath_reads h' with ⟨_, h1'⟩ | ⟨segs', h1', h2'⟩
      · exact absurd h1' h0
      have : segs = segs' := by
        clear h1 h1' h h' h0
        induction h2 generalizing segs' with
        | nil => cases h2'; rfl
        | cons hs _ ih =>
          cases h2' with
          | cons hs' h2' =>
            rw [ih _ h2']
            have := hs.symm.trans hs'
            injection this with this
            rw [this]
      rw [h1, h1', this]
    have e' : ∀ cs, parsePathWithOptions path cs = parsePathWithOptions path' cs := fun cs => by unfold parsePathWithOptions; rw [e]
    have hd : deleteWithOptions env.ord xml path opts = deleteWithOptions env.ord xml path' opts := by unfold deleteWithOptions; rw [e']
    refine ⟨?_, ?_, ?_, hd⟩
    · unfold get; rw [e]
    · unfold getWithOptions; simp only [e, e']
    · unfold setWithOptions; rw [e', hd]

/-! ## Delete -/

theorem valid_small {xml : Bytes} (h : valid xml = true) : xml.length ≤ 10485760 := by
  rcases Nat.lt_or_ge 10485760 xml.length with h1 | h1
  · rw [C42_valid xml h1] at h; cases h
  · exact h1

theorem delete_valid {o : Ord} {xml path : Bytes} {opts : Option Options} (hv : valid xml = true) : deleteWithOptions o xml path opts =
    match parsePathWithOptions path (effOpts opts).caseSensitive with
    | .panic => .panic
    | .err => .ret (xml, some .invalidPath)
    | .ok [] => .ret (xml, some .invalidPath)
    | .ok ss => finish xml (deleteElement o (effOpts opts).caseSensitive xml ss) := by
  unfold deleteWithOptions
  rw [if_neg (by have := valid_small hv; simp [maxDocumentSize]; omega), if_neg (by simp [hv])]
  rfl

theorem delete_busy {o : Ord} {xml path : Bytes} {opts : Option Options} (hv : valid xml = true) {ss : List Bytes} (h : PathSteps path ss) (h0 : ss ≠ []) :
    ∃ segs, All2 IsSeg ss segs ∧ (fuseFields segs).map (lowIf (effOpts opts).caseSensitive) ≠ [] ∧
      deleteWithOptions o xml path opts = finish xml (deleteElement o (effOpts opts).caseSensitive xml ((fuseFields segs).map (lowIf (effOpts opts).caseSensitive))) := by
  obtain ⟨segs, h1, h2⟩ := parseOpt_reads h h0 (effOpts opts).caseSensitive
  have hne : (fuseFields segs).map (lowIf (effOpts opts).caseSensitive) ≠ [] := by
    have hs : segs ≠ [] := by rintro rfl; cases h2; exact h0 rfl
    have := fuse_isEmpty segs
    rw [List.isEmpty_eq_false_iff.mpr hs] at this
    simpa using this
  refine ⟨segs, h2, hne, ?_⟩
  rw [delete_valid hv, h1]
  split
  · rename_i e; cases e
  · rename_i e; cases e
  · rename_i e; injection e with e; exact absurd e hne
  · rename_i e; injection e with e; rw [e]

theorem finish_err {xml d : Bytes} {r : BRes} {e : Err} : finish xml r = .ret (d, some e) ↔ d = xml ∧ r = .err e := by
  cases r with
  | panic => simp [finish]
  | err e' => simp [finish]; exact fun _ => ⟨Eq.symm, Eq.symm⟩
  | ok x => simp [finish]

/-- C62: Delete reports a malformed document exactly when Valid does. -/
theorem C62_delete_malformed (o : Ord) (xml path : Bytes) (opts : Option Options) : (∃ d, deleteWithOptions o xml path opts = .ret (d, some .malformed)) ↔ valid xml = false := by
  constructor
  · rintro ⟨d, h⟩
    cases hv : valid xml with
    | false => rfl
    | true =>
      exfalso
      rcases path_total path with ⟨ss, hs⟩ | hn | hb
      · rcases Classical.em (ss = []) with h0 | h0
        · subst h0
          rw [delete_valid hv] at h
          rcases parseOpt_none (.inr hs) (effOpts opts).caseSensitive with hp | hp <;> (rw [hp] at h; simp at h)
        · obtain ⟨segs, h2, hne, he⟩ := delete_busy (o := o) (opts := opts) hv hs h0
          rw [he, finish_err] at h
          have := (deleteElement_err hne (valid_small hv)).mp h.2
          simp at this
      · rw [delete_valid hv] at h
        rcases parseOpt_none (.inl hn) (effOpts opts).caseSensitive with hp | hp <;> (rw [hp] at h; simp at h)
      · rw [delete_valid hv] at h
        simp [parsePathWithOptions, parsePath_bad hb] at h
  · intro h; exact ⟨xml, C26_delete o xml path opts h⟩

theorem fuse_single_attr {cs : Bool} {ss : List Bytes} {segs : List Seg} (h2 : All2 IsSeg ss segs) :
    (∃ s a, (fuseFields segs).map (lowIf cs) = [s] ∧ s.kind = .attr a) ↔ ∃ a, ss = [a] ∧ AttrStep a := by
  constructor
  · rintro ⟨s, a, he, hk⟩
    match segs, h2 with
    | [t], .cons hs .nil =>
      simp only [fuseFields, List.map_cons, List.map_nil, List.cons.injEq, and_true] at he
      subst he
      exact ⟨_, rfl, (isSeg_kind hs).1.mpr ((lowIf_kind cs t).1.mp ⟨a, hk⟩)⟩
    | t :: u :: r, _ =>
      exfalso
      rw [fuse_cons2] at he
      cases hj : joined t u with
      | some x =>
        obtain ⟨_, ⟨f, _, rfl⟩, _⟩ := joined_facts hj
        simp only [hj, List.map_cons, List.cons.injEq] at he
        obtain ⟨x, hx⟩ := (lowIf_kind cs ⟨.field f, u.mods⟩).1.mp ⟨a, by rw [he.1]; exact hk⟩
        cases hx
      | none =>
        simp only [hj, List.map_cons, List.cons.injEq] at he
        have := fuse_isEmpty (u :: r)
        have h3 : fuseFields (u :: r) = [] := by simpa using he.2
        rw [h3] at this; simp at this
  · rintro ⟨a, rfl, ha⟩
    match segs, h2 with
    | [t], .cons hs .nil =>
      obtain ⟨x, hx⟩ := (lowIf_kind cs t).1.mpr ((isSeg_kind hs).1.mp ha)
      exact ⟨_, x, rfl, hx⟩

/-- C62: on a valid document Delete reports an invalid path exactly when the text is no path, has no step, or is a single attribute. -/
theorem C62_delete_path (o : Ord) (xml path : Bytes) (opts : Option Options) (hv : valid xml = true) : deleteWithOptions o xml path opts = .ret (xml, some .invalidPath) ↔
    NoPath path ∨ PathSteps path [] ∨ ∃ a, PathSteps path [a] ∧ AttrStep a := by
  constructor
  · intro h
    rcases path_total path with ⟨ss, hs⟩ | hn | hb
    · rcases Classical.em (ss = []) with h0 | h0
      · subst h0; exact .inr (.inl hs)
      · obtain ⟨segs, h2, hne, he⟩ := delete_busy (o := o) (opts := opts) hv hs h0
        rw [he, finish_err] at h
        obtain ⟨a, rfl, ha⟩ := (fuse_single_attr h2).mp ((deleteElement_err hne (valid_small hv)).mp h.2).2
        exact .inr (.inr ⟨a, hs, ha⟩)
    · exact .inl hn
    · rw [delete_valid hv] at h
      simp [parsePathWithOptions, parsePath_bad hb] at h
  · have hn : NoPath path ∨ PathSteps path [] → deleteWithOptions o xml path opts = .ret (xml, some .invalidPath) := by
      intro h
      rw [delete_valid hv]
      rcases parseOpt_none h (effOpts opts).caseSensitive with hp | hp <;> rw [hp]
    rintro (h | h | ⟨a, h, ha⟩)
    · exact hn (.inl h)
    · exact hn (.inr h)
    · obtain ⟨segs, h2, hne, he⟩ := delete_busy (o := o) (opts := opts) hv h (by simp)
      rw [he, finish_err]
      exact ⟨rfl, (deleteElement_err hne (valid_small hv)).mpr ⟨rfl, (fuse_single_attr h2).mpr ⟨a, rfl, ha⟩⟩⟩

/-- C62: Delete never reports an invalid value. -/
theorem C62_delete_value (o : Ord) (xml path : Bytes) (opts : Option Options) (d : Bytes) : deleteWithOptions o xml path opts ≠ .ret (d, some .invalidValue) := by
  intro h
  cases hv : valid xml with
  | false => rw [C26_delete o xml path opts hv] at h; simp at h
  | true =>
    rcases path_total path with ⟨ss, hs⟩ | hn | hb
    · rcases Classical.em (ss = []) with h0 | h0
      · subst h0
        rw [(C62_delete_path o xml path opts hv).mpr (.inr (.inl hs))] at h; simp at h
      · obtain ⟨segs, h2, hne, he⟩ := delete_busy (o := o) (opts := opts) hv hs h0
        rw [he, finish_err] at h
        have := ((deleteElement_err hne (valid_small hv)).mp h.2).1
        cases this
    · rw [(C62_delete_path o xml path opts hv).mpr (.inl hn)] at h; simp at h
    · rw [delete_valid hv] at h
      simp [parsePathWithOptions, parsePath_bad hb] at h

/-! ## Set -/

theorem set_accepted {o : Ord} {xml path : Bytes} {v : GoVal} {opts : Option Options} (hx : xml = [] ∨ valid xml = true) (hn : v ≠ .nil) : setWithOptions o xml path v opts =
    match parsePathWithOptions path (effOpts opts).caseSensitive with
    | .panic => .panic
    | .err => .ret (xml, some .invalidPath)
    | .ok [] => .ret (xml, some .invalidPath)
    | .ok ss => finish xml (setElement o (effOpts opts).caseSensitive (effOpts opts).indent xml ss v) := by
  have hl : xml.length ≤ 10485760 := by
    rcases hx with rfl | hv
    · simp
    · exact valid_small hv
  unfold setWithOptions
  rw [if_neg (by simp [maxDocumentSize]; omega), if_neg (by rcases hx with rfl | hv <;> simp_all), if_neg hn]
  rfl

theorem set_busy {o : Ord} {xml path : Bytes} {v : GoVal} {opts : Option Options} (hx : xml = [] ∨ valid xml = true) (hn : v ≠ .nil) {ss : List Bytes} (h : PathSteps path ss) (h0 : ss ≠ []) :
    ∃ segs, All2 IsSeg ss segs ∧ (fuseFields segs).map (lowIf (effOpts opts).caseSensitive) ≠ [] ∧ setWithOptions o xml path v opts =
      finish xml (setElement o (effOpts opts).caseSensitive (effOpts opts).indent xml ((fuseFields segs).map (lowIf (effOpts opts).caseSensitive)) v) := by
  obtain ⟨segs, h1, h2⟩ := parseOpt_reads h h0 (effOpts opts).caseSensitive
  have hne : (fuseFields segs).map (lowIf (effOpts opts).caseSensitive) ≠ [] := by
    have hs : segs ≠ [] := by rintro rfl; cases h2; exact h0 rfl
    have := fuse_isEmpty segs
    rw [List.isEmpty_eq_false_iff.mpr hs] at this
    simpa using this
  refine ⟨segs, h2, hne, ?_⟩
  rw [set_accepted hx hn, h1]
  split
  · rename_i e; cases e
  · rename_i e; cases e
  · rename_i e; injection e with e; exact absurd e hne
  · rename_i e; injection e with e; rw [e]

theorem isValidIdentifier_iff {f : Bytes} : isValidIdentifier f = true ↔ Identifier f := by
  refine ⟨fun h => ?_, identifier_ok⟩
  match f with
  | [] => simp [isValidIdentifier] at h
  | c :: cs =>
    simp only [isValidIdentifier, isAlpha, isDigit, Bool.and_eq_true, Bool.or_eq_true, decide_eq_true_eq, List.all_eq_true] at h
    refine ⟨c, cs, rfl, ?_, fun x hx => ?_⟩
    · rcases h.1 with (h | h) | h
      · exact .inl (.inr h)
      · exact .inl (.inl h)
      · exact .inr h
    · rcases h.2 x hx with (((h | h) | h) | h) | h
      · rcases h with h | h
        · exact .inl (.inr h)
        · exact .inl (.inl h)
      · exact .inr (.inl h)
      · exact .inr (.inr (.inl h))
      · exact .inr (.inr (.inr (.inl h)))
      · exact .inr (.inr (.inr (.inr h)))

theorem all2_seg_fun {ps : List Bytes} {a b : List Seg} (h : All2 IsSeg ps a) (h' : All2 IsSeg ps b) : a = b := by
  induction h generalizing b with
  | nil => cases h'; rfl
  | cons hs _ ih =>
    cases h' with
    | cons hs' h' =>
      have e := Eq.trans (Eq.symm hs) hs'
      injection e with e
      rw [e, ih h']

/-- Whether the segments end in an element. -/
theorem endsInName_iff {ss : List Bytes} {segs : List Seg} (h : All2 IsSeg ss segs) : EndsInName ss ↔ ∃ s n, (fuseFields segs).getLast? = some s ∧ s.kind = .elem n := by
  rcases List.eq_nil_or_concat ss with rfl | ⟨pre, p, rfl⟩
  · cases h
    constructor
    · rintro ⟨pre, p, e, _⟩; simp at e
    · rintro ⟨s, n, e, _⟩; simp [fuseFields] at e
  · rw [List.concat_eq_append] at h ⊢
    obtain ⟨segs, s, rfl, h1, h2⟩ := all2_snoc_inv h
    have hk := isSeg_kind h2
    have hjoin : ∀ l' c x, segs = l' ++ [c] → joined c s = some x → ∃ q, pre.getLast? = some q ∧ IsSeg q c := by
      intro l' c x e _
      subst e
      rcases List.eq_nil_or_concat pre with rfl | ⟨pre', q, rfl⟩
      · have := all2_length h1; simp at this
      · rw [List.concat_eq_append] at h1 ⊢
        obtain ⟨bs, b, e, _, hq⟩ := all2_snoc_inv h1
        have := List.append_inj_right' e rfl
        injection this with this
        subst this
        exact ⟨q, by simp, hq⟩
    constructor
    · rintro ⟨pre', p', e, hname, hno⟩
      have e1 := List.append_inj_left' e rfl
      have e2 := List.append_inj_right' e rfl
      injection e2 with e2
      subst e1 e2
      obtain ⟨n, hn⟩ := hk.2.2.1.mp hname
      rcases fuse_snoc segs s with hf | ⟨l', c, x, e, hj, _⟩
      · exact ⟨s, n, by rw [hf]; simp, hn⟩
      · exfalso
        obtain ⟨q, hq1, hq2⟩ := hjoin l' c x e hj
        have hc := (joined_facts hj).1
        have hfn : fieldOf s.kind = some n := by rw [hn]; rfl
        unfold joined at hj
        rw [if_pos hc, hfn] at hj
        simp only at hj
        split at hj
        · rename_i hv
          rw [Bool.and_eq_true] at hv
          have hnb := hk.2.2.2.1 n hn
          subst hnb
          have hid : isValidIdentifier (beforeBar p) = true := by
            have hv1 := hv.1
            unfold isValidFieldName at hv1
            split at hv1
            · cases hv1
            · rename_i c cs hcs
              rw [hcs]
              split at hv1
              · rename_i hpc
                exact absurd (by rw [hcs, hpc]; simp : beforeBar p ∈ [b!"%", b!"#", b!"*", b!"**"]) hname.2.2.2.1
              · split at hv1
                · rename_i hat
                  exfalso
                  refine hname.2.2.1 ((prefix_beforeBar (by decide)).mpr ?_)
                  rw [hcs, hat]; exact ⟨cs, rfl⟩
                · exact hv1
          exact hno ⟨isValidIdentifier_iff.mp hid, of_decide_eq_true hv.2, q, hq1, (isSeg_kind hq2).2.1.mpr hc⟩
        · cases hj
    · rintro ⟨t, n, hl, hn⟩
      rcases fuse_snoc segs s with hf | ⟨l', c, x, e, hj, hf⟩
      · rw [hf] at hl
        have e : s = t := by simpa using hl
        subst e
        refine ⟨pre, p, rfl, hk.2.2.1.mpr ⟨n, hn⟩, ?_⟩
        rintro ⟨hid, hlen, q, hq1, hq2⟩
        have hnb := hk.2.2.2.1 n hn
        obtain ⟨pre', rfl⟩ := List.getLast?_eq_some_iff.mp hq1
        obtain ⟨bs, c, rfl, _, hc⟩ := all2_snoc_inv h1
        have hcc := (isSeg_kind hc).2.1.mp hq2
        have hj : joined c s = some ⟨.field n, s.mods⟩ := by
          have hfn : fieldOf s.kind = some n := by rw [hn]; rfl
          unfold joined
          rw [if_pos hcc, hfn]
          simp only
          rw [if_pos]
          rw [Bool.and_eq_true]
          rw [hnb]
          refine ⟨?_, decide_eq_true hlen⟩
          have hid' := identifier_ok hid
          obtain ⟨y, ys, hy, hyy, _⟩ := hid
          rw [hy] at hid' ⊢
          unfold isValidFieldName
          simp only
          split
          · rfl
          · split
            · rename_i hat
              rw [hat] at hyy; exact absurd hyy (by decide)
            · exact hid'
        rw [List.append_assoc] at hf
        have h4 := hf.symm.trans (fuse_take bs c s _ hj)
        have := List.append_inj_right' h4 rfl
        injection this with this
        rw [this] at hn; cases hn
      · rw [hf] at hl
        have e2 : x = t := by simpa using hl
        obtain ⟨_, ⟨f, _, hx⟩, _⟩ := joined_facts hj
        rw [← e2, hx] at hn; cases hn

theorem getLast_low {cs : Bool} {l : List Seg} : (∃ s n, (l.map (lowIf cs)).getLast? = some s ∧ s.kind = .elem n) ↔ ∃ s n, l.getLast? = some s ∧ s.kind = .elem n := by
  rw [List.getLast?_map]
  constructor
  · rintro ⟨s, n, h1, h2⟩
    rcases Option.eq_none_or_eq_some l.getLast? with hn | ⟨t, ht⟩
    · rw [hn] at h1; cases h1
    · rw [ht] at h1
      simp only [Option.map_some, Option.some.injEq] at h1
      subst h1
      obtain ⟨m, hm⟩ := (lowIf_kind cs t).2.1.mp ⟨n, h2⟩
      exact ⟨t, m, ht, hm⟩
  · rintro ⟨s, n, h1, h2⟩
    obtain ⟨m, hm⟩ := (lowIf_kind cs s).2.1.mpr ⟨n, h2⟩
    exact ⟨_, m, by rw [h1]; rfl, hm⟩

/-- The segments of a path that appends. -/
theorem appends_segs {ss pre : List Bytes} {segs : List Seg} (h : All2 IsSeg ss segs) (ha : Appends ss pre) (cs : Bool) :
    ∃ spre, All2 IsSeg pre spre ∧ ((fuseFields segs).map (lowIf cs)).dropLast = (fuseFields spre).map (lowIf cs) := by
  obtain ⟨p, rfl, hp⟩ := ha
  obtain ⟨spre, s, rfl, h1, h2⟩ := all2_snoc_inv h
  refine ⟨spre, h1, ?_⟩
  have hk := (isSeg_kind h2).2.2.2.2.2.mp hp
  rw [fuse_keep spre s]
  · simp
  · intro q _
    cases hj : joined q s with
    | none => rfl
    | some x => exact absurd hk ((joined_facts hj).2.2.2 _)

/-- C62: on a document it accepts, Set reports an invalid path if the text is no path or has no step, if a negative position is used otherwise than as a final -1, or if
the step before a final -1 is not a name; the last two only for values that can be stored. -/
theorem C62_set_path (o : Ord) (xml path : Bytes) (v : GoVal) (opts : Option Options) (hx : xml = [] ∨ valid xml = true) (hn : v ≠ .nil)
    (h : NoPath path ∨ PathSteps path [] ∨ ∃ ss, PathSteps path ss ∧ ¬ Unstorable v ∧ (BadPosition ss ∨ ∃ pre, Appends ss pre ∧ ¬ EndsInName pre)) :
    setWithOptions o xml path v opts = .ret (xml, some .invalidPath) := by
  have hnone : NoPath path ∨ PathSteps path [] → setWithOptions o xml path v opts = .ret (xml, some .invalidPath) := by
    intro h
    rw [set_accepted hx hn]
    rcases parseOpt_none h (effOpts opts).caseSensitive with hp | hp <;> rw [hp]
  rcases h with h | h | ⟨ss, hs, hu, hb⟩
  · exact hnone (.inl h)
  · exact hnone (.inr h)
  · have h0 : ss ≠ [] := by
      rintro rfl
      rcases hb with ⟨pre, p, post, n, e, _⟩ | ⟨pre, ⟨p, e, _⟩, _⟩ <;> simp at e
    obtain ⟨segs, h2, hne, he⟩ := set_busy (o := o) (opts := opts) hx hn hs h0
    rw [he, finish_err]
    refine ⟨rfl, ?_⟩
    have hl : xml.length ≤ 10485760 := by
      rcases hx with rfl | hv
      · simp
      · exact valid_small hv
    rw [unstorable_iff, not_or] at hu
    obtain ⟨t, ht⟩ := Option.ne_none_iff_exists'.mp hu.1
    have hts : ¬ 5242880 < t.length := fun h => hu.2 ⟨t, ht, h⟩
    unfold setElement
    rw [List.getLast?_eq_some_getLast hne]
    simp only [ht]
    rw [if_neg (by simpa [maxValueSize] using hts), if_neg (by simp [maxDocumentSize]; omega), intent_low, intent_fuse]
    have hi := intent_iff h2
    rcases Classical.em (BadPosition ss) with hbad | hbad
    · rw [hi.1.mpr hbad]
    · rcases hb with hb | ⟨pre, ha, hno⟩
      · exact absurd hb hbad
      · rw [hi.2.mpr ⟨hbad, pre, ha⟩]
        simp only
        obtain ⟨spre, h3, h4⟩ := appends_segs h2 ha (effOpts opts).caseSensitive
        rw [h4]
        rw [endsInName_iff h3, ← getLast_low (cs := (effOpts opts).caseSensitive)] at hno
        unfold appendElement
        split
        · rfl
        · rename_i seg hl
          split
          · rename_i n hk; exact absurd ⟨seg, n, hl, hk⟩ hno
          · rfl

/-- C62: and an invalid value if it has steps, but the value cannot be stored. -/
theorem C62_set_value (o : Ord) (xml path : Bytes) (v : GoVal) (opts : Option Options) (hx : xml = [] ∨ valid xml = true) (hn : v ≠ .nil) (ss : List Bytes) (hs : PathSteps path ss)
    (h0 : ss ≠ []) (hu : Unstorable v) : setWithOptions o xml path v opts = .ret (xml, some .invalidValue) := by
  obtain ⟨segs, h2, hne, he⟩ := set_busy (o := o) (opts := opts) hx hn hs h0
  rw [he, finish_err]
  refine ⟨rfl, ?_⟩
  unfold setElement
  rw [List.getLast?_eq_some_getLast hne]
  rcases unstorable_iff.mp hu with h | ⟨t, ht, h⟩
  · simp only [h]
  · simp only [ht]
    rw [if_pos (by simpa [maxValueSize] using h)]

/-- C62: and it panics for the paths that make queries panic. -/
theorem C62_set_panics (o : Ord) (xml path : Bytes) (v : GoVal) (opts : Option Options) (hx : xml = [] ∨ valid xml = true) (hn : v ≠ .nil) (h : BadPath path) :
    setWithOptions o xml path v opts = .panic := by
  rw [set_accepted hx hn]
  simp [parsePathWithOptions, parsePath_bad h]

/-- The path asks for an attribute of an element that Delete does not find either (or whose path is not that of an element). -/
def NewAttribute (o : Ord) (xml : Bytes) (opts : Option Options) (ss : List Bytes) : Prop :=
  ∃ pre a, ss = pre ++ [a] ∧ AttrStep a ∧
    (xml = [] ∨ pre = [] ∨ (∃ b, pre.getLast? = some b ∧ AttrStep b) ∨ ∀ q, PathSteps q pre → deleteWithOptions o xml q opts = .ret (xml, none))

/-- The path does not begin with a name, and the document has no element that queries see. -/
def NothingThere (env : Env) (xml : Bytes) (ss : List Bytes) : Prop := xml ≠ [] ∧ get env xml b!"*" = .ret .null ∧ ∀ p, ss.head? = some p → ¬ NameStep p

/-- The path appends an element, with which the document would be above 10 MiB. -/
def TooLong (xml indent : Bytes) (v : GoVal) (ss : List Bytes) : Prop :=
  ∃ pre p, Appends ss (pre ++ [p]) ∧ EndsInName (pre ++ [p]) ∧
    10485760 < xml.length + storedSize v + 2 * (beforeBar p).length + 5 + (if indent = [] then 0 else 1 + ss.length * indent.length)

theorem star_null {env : Env} {xml : Bytes} (hl : xml.length ≤ 10485760) (h : topElems env.ord xml = []) : get env xml b!"*" = .ret .null := by
  have hp : parsePath b!"*" = .ok [⟨.wild false, []⟩] := by decide +kernel
  unfold get
  rw [if_neg (by simp [maxDocumentSize]; omega), hp]
  simp only [executeQuery, execQ, execBody, h]
  rfl

theorem fuse_head {ss : List Bytes} {segs : List Seg} (h : All2 IsSeg ss segs) {cs : Bool} (hh : ∀ s n, ((fuseFields segs).map (lowIf cs)).head? = some s → s.kind ≠ .elem n) :
    ∀ p, ss.head? = some p → ¬ NameStep p := by
  intro p hp hname
  cases h with
  | nil => cases hp
  | @cons p' s ss segs hs ha =>
    simp only [List.head?_cons, Option.some.injEq] at hp
    subst hp
    obtain ⟨n, hn⟩ := (isSeg_kind hs).2.2.1.mp hname
    obtain ⟨m, hm, _⟩ := (lowIf_kind cs s).2.2.2 n hn
    refine hh (lowIf cs s) m ?_ hm
    have : (fuseFields (s :: segs)).head? = some s := by
      cases segs with
      | nil => rfl
      | cons t r =>
        rw [fuse_cons2]
        cases hj : joined s t with
        | none => rfl
        | some x => have := (joined_facts hj).1; rw [hn] at this; cases this
    rw [List.head?_map, this]; rfl

theorem wrapElem_length (n t : Bytes) : (wrapElem n t).length = t.length + 2 * n.length + 5 := by simp [wrapElem]; omega

/-- C62: every error of Set has one of these causes. -/
theorem C62_set_error (env : Env) (xml path : Bytes) (v : GoVal) (opts : Option Options) (hn : v ≠ .nil) (d : Bytes) (e : Err)
    (h : setWithOptions env.ord xml path v opts = .ret (d, some e)) :
    (e = .malformed ∧ xml ≠ [] ∧ valid xml = false) ∨
    (e = .invalidPath ∧ (NoPath path ∨ PathSteps path [])) ∨
    ∃ ss, PathSteps path ss ∧ ss ≠ [] ∧
      ((e = .invalidValue ∧ (Unstorable v ∨ TooLong xml (effOpts opts).indent v ss)) ∨
       (e = .invalidPath ∧ ¬ Unstorable v ∧ (BadPosition ss ∨ (∃ pre, Appends ss pre ∧ ¬ EndsInName pre) ∨ NewAttribute env.ord xml opts ss)) ∨
       (e = .malformed ∧ ¬ Unstorable v ∧ (NewAttribute env.ord xml opts ss ∨ NothingThere env xml ss))) := by
  rcases Classical.em (xml = [] ∨ valid xml = true) with hx | hx
  · have hl : xml.length ≤ 10485760 := by
      rcases hx with rfl | hv
      · simp
      · exact valid_small hv
    have hnone : NoPath path ∨ PathSteps path [] → e = .invalidPath := by
      intro hp
      rw [set_accepted hx hn] at h
      rcases parseOpt_none hp (effOpts opts).caseSensitive with hp | hp <;> (rw [hp] at h; simp at h; exact h.2.symm)
    rcases path_total path with ⟨ss, hs⟩ | hno | hb
    · rcases Classical.em (ss = []) with h0 | h0
      · subst h0; exact .inr (.inl ⟨hnone (.inr hs), .inr hs⟩)
      · refine .inr (.inr ⟨ss, hs, h0, ?_⟩)
        obtain ⟨segs, h2, hne, he⟩ := set_busy (o := env.ord) (opts := opts) hx hn hs h0
        rw [he, finish_err] at h
        rcases Classical.em (Unstorable v) with hu | hu
        · have := C62_set_value env.ord xml path v opts hx hn ss hs h0 hu
          rw [he, finish_err] at this
          have := h.2.symm.trans this.2
          injection this with this
          exact .inl ⟨this, .inl hu⟩
        · rcases setElement_err hne hl h.2 with ⟨_, h3⟩ | ⟨h3, h4⟩ | ⟨t, ht, hi, h3⟩ | ⟨hi, ⟨s, a, hl1, hk⟩, h3, h4⟩ | ⟨h3, h4, h5, h6⟩
          · exact absurd (unstorable_iff.mpr h3) hu
          · rw [intent_low, intent_fuse] at h4
            exact .inr (.inl ⟨h3, hu, .inl ((intent_iff h2).1.mp h4)⟩)
          · rw [intent_low, intent_fuse] at hi
            obtain ⟨hb, pre, ha⟩ := (intent_iff h2).2.mp hi
            obtain ⟨spre, h5, h6⟩ := appends_segs h2 ha (effOpts opts).caseSensitive
            rw [h6] at h3
            rcases appendElement_err h3 with ⟨h7, h8⟩ | ⟨s, n, h7, h8, h9⟩
            · rw [getLast_low, ← endsInName_iff h5] at h8
              exact .inr (.inl ⟨h7, hu, .inr (.inl ⟨pre, ha, h8⟩)⟩)
            · have hend : EndsInName pre := (endsInName_iff h5).mpr (getLast_low.mp ⟨s, n, h7, h8⟩)
              rcases h9 with ⟨h9, h10⟩ | ⟨h9, h10, h11, h12⟩
              · left
                refine ⟨h9, .inr ?_⟩
                have hend' := hend
                obtain ⟨pre', p, rfl, hname, _⟩ := hend'
                refine ⟨pre', p, ha, hend, ?_⟩
                obtain ⟨sp, sq, rfl, _, h13⟩ := all2_snoc_inv h5
                have hnl : n.length = (beforeBar p).length := by
                  obtain ⟨m, hm⟩ := (isSeg_kind h13).2.2.1.mp hname
                  have hmb := (isSeg_kind h13).2.2.2.1 m hm
                  rcases fuse_snoc sp sq with hf | ⟨l', c, x, _, hj, hf⟩
                  · rw [hf] at h7
                    have e2 : lowIf (effOpts opts).caseSensitive sq = s := by simpa using h7
                    obtain ⟨m', hm', hml⟩ := (lowIf_kind (effOpts opts).caseSensitive sq).2.2.2 m hm
                    rw [e2, h8] at hm'
                    injection hm' with hm'
                    rw [hm', hml, hmb]
                  · exfalso
                    rw [hf] at h7
                    have e2 : lowIf (effOpts opts).caseSensitive x = s := by simpa using h7
                    obtain ⟨_, ⟨f, _, hxf⟩, _⟩ := joined_facts hj
                    obtain ⟨y, hy⟩ := (lowIf_kind (effOpts opts).caseSensitive x).2.1.mp ⟨n, by rw [e2]; exact h8⟩
                    rw [hxf] at hy; cases hy
                rw [wrapElem_length, hnl, valueToXML_size ht] at h10
                have hlen : ((fuseFields (sp ++ [sq])).map (lowIf (effOpts opts).caseSensitive)).length - 1 ≤ ss.length := by
                  have h14 := fuseFields_length (sp ++ [sq])
                  have h15 := all2_length h5
                  obtain ⟨q, hq, _⟩ := ha
                  rw [hq]
                  rw [List.length_map]
                  simp only [List.length_append, List.length_cons, List.length_nil] at h14 h15 ⊢
                  omega
                have hm := Nat.mul_le_mul_right (effOpts opts).indent.length hlen
                split at h10
                · rename_i hi0; rw [if_pos hi0]; omega
                · rename_i hi0; rw [if_neg hi0]; omega
              · right; right
                refine ⟨h9, hu, .inr ⟨h10, star_null hl h11, ?_⟩⟩
                have hhead := fuse_head h5 h12
                obtain ⟨q, hq, _⟩ := ha
                intro p hp
                refine hhead p ?_
                obtain ⟨pre', p', rfl, _⟩ := hend
                rw [hq] at hp
                cases pre' <;> simpa using hp
          · have hat : NewAttribute env.ord xml opts ss := by
              rcases List.eq_nil_or_concat ss with rfl | ⟨pre, p, rfl⟩
              · exact absurd rfl h0
              · rw [List.concat_eq_append] at *
                obtain ⟨spre, sa, rfl, h5, h6⟩ := all2_snoc_inv h2
                rcases fuse_snoc spre sa with hf | ⟨l', c, x, _, hj, hf⟩
                · rw [hf] at hl1 h3
                  have e2 : lowIf (effOpts opts).caseSensitive sa = s := by simpa using hl1
                  have hattr := (isSeg_kind h6).1.mpr ((lowIf_kind (effOpts opts).caseSensitive sa).1.mp ⟨a, by rw [e2]; exact hk⟩)
                  refine ⟨pre, p, rfl, hattr, ?_⟩
                  rcases hx with hx | hv
                  · exact .inl hx
                  · rcases Classical.em (pre = []) with hp0 | hp0
                    · exact .inr (.inl hp0)
                    · rcases Classical.em (∃ b, pre.getLast? = some b ∧ AttrStep b) with hb | hb
                      · exact .inr (.inr (.inl hb))
                      · refine .inr (.inr (.inr fun q hq => ?_))
                        obtain ⟨segs', h7, hne', he'⟩ := delete_busy (o := env.ord) (opts := opts) hv hq hp0
                        have hsame : segs' = spre := all2_seg_fun h7 h5
                        subst hsame
                        rw [he']
                        have hfl : findLoc env.ord (effOpts opts).caseSensitive ((fuseFields segs').map (lowIf (effOpts opts).caseSensitive)) xml 0 = none := by
                          rw [← h3]; congr 1; simp
                        unfold deleteElement
                        rw [List.getLast?_eq_some_getLast hne']
                        simp only
                        rw [if_neg (by simp [maxDocumentSize]; omega)]
                        split
                        · rename_i a' hk'
                          exfalso
                          refine hb ?_
                          rcases List.eq_nil_or_concat pre with rfl | ⟨pre', b, rfl⟩
                          · exact absurd rfl hp0
                          · rw [List.concat_eq_append] at *
                            obtain ⟨sb, sl, rfl, _, h9⟩ := all2_snoc_inv h5
                            refine ⟨b, by simp, (isSeg_kind h9).1.mpr ?_⟩
                            rcases fuse_snoc sb sl with hf' | ⟨l', c, x, _, hj, hf'⟩
                            · have : lowIf (effOpts opts).caseSensitive sl = ((fuseFields (sb ++ [sl])).map (lowIf (effOpts opts).caseSensitive)).getLast hne' := by
                                simp [hf']
                              exact (lowIf_kind (effOpts opts).caseSensitive sl).1.mp ⟨a', by rw [this]; exact hk'⟩
                            · exfalso
                              have : lowIf (effOpts opts).caseSensitive x = ((fuseFields (sb ++ [sl])).map (lowIf (effOpts opts).caseSensitive)).getLast hne' := by
                                simp [hf']
                              obtain ⟨y, hy⟩ := (lowIf_kind (effOpts opts).caseSensitive x).1.mp ⟨a', by rw [this]; exact hk'⟩
                              obtain ⟨_, ⟨f, _, hxf⟩, _⟩ := joined_facts hj
                              rw [hxf] at hy; cases hy
                        · rw [hfl]
                          simp only [finish, getResult]
                          split <;> rfl
                · exfalso
                  rw [hf] at hl1
                  have e2 : lowIf (effOpts opts).caseSensitive x = s := by simpa using hl1
                  obtain ⟨_, ⟨f, _, hxf⟩, _⟩ := joined_facts hj
                  obtain ⟨y, hy⟩ := (lowIf_kind (effOpts opts).caseSensitive x).1.mp ⟨a, by rw [e2]; exact hk⟩
                  rw [hxf] at hy; cases hy
            rcases h4 with h4 | h4
            · exact .inr (.inr ⟨h4, hu, .inl hat⟩)
            · exact .inr (.inl ⟨h4, hu, .inr (.inr hat)⟩)
          · exact .inr (.inr ⟨h3, hu, .inr ⟨h4, star_null hl h5, fuse_head h2 h6⟩⟩)
    · exact .inr (.inl ⟨hnone (.inl hno), .inl hno⟩)
    · rw [C62_set_panics env.ord xml path v opts hx hn hb] at h; cases h
  · have hx' : xml ≠ [] ∧ valid xml = false := ⟨fun h => hx (.inl h), by cases hv : valid xml with | false => rfl | true => exact absurd (.inr hv) hx⟩
    rw [C26_set env.ord xml path v opts hx'.1 hx'.2] at h
    simp at h
    exact .inl ⟨h.2.symm, hx'⟩

theorem star_some {env : Env} {xml : Bytes} (hl : xml.length ≤ 10485760) (h : get env xml b!"*" = .ret .null) : topElems env.ord xml = [] := by
  have hp : parsePath b!"*" = .ok [⟨.wild false, []⟩] := by decide +kernel
  unfold get at h
  rw [if_neg (by simp [maxDocumentSize]; omega), hp] at h
  cases ht : topElems env.ord xml with
  | nil => rfl
  | cons e es =>
    exfalso
    simp only [executeQuery, execQ, execBody, ht] at h
    have hne : ((e :: es).take maxWildcardResults).isEmpty = false := by simp [maxWildcardResults]
    rw [hne] at h
    have hm : ∀ r, applyModifiers env.mods r [] = r := fun _ => rfl
    simp only [List.isEmpty_nil, if_true, Bool.false_eq_true, if_false, hm, handleWildcard, maxWildcardResults, List.take_succ_cons, List.map_cons, Outcome.ret.injEq] at h
    have ht := congrArg Result.typ h
    unfold packResults at ht
    split at ht
    · rename_i he
      simp only [List.cons.injEq] at he
      rw [← he.1] at ht
      simp [Result.ofContent, Result.typ, Result.null] at ht
    · simp [Result.ofArray, Result.typ, Result.null] at ht

theorem findLoc_nothing {o : Ord} {cs : Bool} {P : List Seg} {d : Bytes} {b : Int} (h : topElems o d = []) : findLoc o cs P d b = none := by
  match P with
  | [] => rfl
  | [s] =>
    unfold findLoc
    split
    · rfl
    · simp [h]
  | s :: t :: r =>
    unfold findLoc
    split
    · rfl
    · simp only [h, List.filter_nil, List.head?_nil, List.getElem?_nil]
      split
      · split <;> rfl
      · rfl

theorem deepest_nothing {o : Ord} {cs : Bool} {P : List Seg} {d : Bytes} (h : topElems o d = []) (n : Nat) : deepestParent o cs d P n = none := by
  induction n with
  | zero => rfl
  | succ n ih => unfold deepestParent; rw [findLoc_nothing h]; exact ih

theorem create_nothing {o : Ord} {cs : Bool} {ind d t : Bytes} {P : List Seg} (h : topElems o d = []) (h0 : d ≠ []) (hh : ∀ s n, P.head? = some s → s.kind ≠ .elem n) :
    createElement o cs ind d P t = .err .malformed := by
  unfold createElement
  rw [if_neg (by simpa using h0), deepest_nothing h]
  simp only
  unfold createInRoot
  rw [if_neg, h]
  match P with
  | [] => simp
  | s :: P =>
    simp only
    split
    · rename_i n hk; exact absurd hk (hh s n rfl)
    · simp

theorem fuse_head' {ss : List Bytes} {segs : List Seg} (h : All2 IsSeg ss segs) {cs : Bool} (hh : ∀ p, ss.head? = some p → ¬ NameStep p) :
    ∀ s n, ((fuseFields segs).map (lowIf cs)).head? = some s → s.kind ≠ .elem n := by
  intro s n hs hk
  cases h with
  | nil => simp [fuseFields] at hs
  | @cons p t ss segs ht ha =>
    refine hh p rfl ((isSeg_kind ht).2.2.1.mpr ?_)
    have hf : ((fuseFields (t :: segs)).map (lowIf cs)).head? = some (lowIf cs t) ∨ ∃ f m, ((fuseFields (t :: segs)).map (lowIf cs)).head? = some (lowIf cs ⟨.field f, m⟩) := by
      cases segs with
      | nil => exact .inl rfl
      | cons u r =>
        rw [fuse_cons2]
        cases hj : joined t u with
        | none => exact .inl rfl
        | some x =>
          obtain ⟨_, ⟨f, _, hx⟩, _⟩ := joined_facts hj
          exact .inr ⟨f, u.mods, by rw [hx]; rfl⟩
    rcases hf with hf | ⟨f, m, hf⟩
    · rw [hf] at hs
      injection hs with hs
      exact (lowIf_kind cs t).2.1.mp ⟨n, by rw [hs]; exact hk⟩
    · rw [hf] at hs
      injection hs with hs
      obtain ⟨y, hy⟩ := (lowIf_kind cs ⟨.field f, m⟩).2.1.mp ⟨n, by rw [hs]; exact hk⟩
      cases hy

/-- C62: on a valid document without an element that queries see, a path that does not begin with a name gives a malformed document, unless its positions are at fault. -/
theorem C62_set_nothing (env : Env) (xml path : Bytes) (v : GoVal) (opts : Option Options) (hv : valid xml = true) (hn : v ≠ .nil) (ss : List Bytes) (hs : PathSteps path ss) (h0 : ss ≠ [])
    (hu : ¬ Unstorable v) (hb : ¬ BadPosition ss) (ha : ∀ pre, Appends ss pre → EndsInName pre) (h : NothingThere env xml ss) :
    setWithOptions env.ord xml path v opts = .ret (xml, some .malformed) := by
  have hl := valid_small hv
  obtain ⟨hx0, hstar, hhead⟩ := h
  have htop := star_some hl hstar
  obtain ⟨segs, h2, hne, he⟩ := set_busy (o := env.ord) (opts := opts) (.inr hv) hn hs h0
  rw [he, finish_err]
  refine ⟨rfl, ?_⟩
  rw [unstorable_iff, not_or] at hu
  obtain ⟨t, ht⟩ := Option.ne_none_iff_exists'.mp hu.1
  have hts : ¬ 5242880 < t.length := fun h => hu.2 ⟨t, ht, h⟩
  have hh := fuse_head' h2 (cs := (effOpts opts).caseSensitive) hhead
  have hdrop : ∀ l : List Seg, (∀ s n, l.head? = some s → s.kind ≠ .elem n) → ∀ s n, l.dropLast.head? = some s → s.kind ≠ .elem n := by
    intro l hl s n hs
    match l with
    | [] => simp at hs
    | [a] => simp at hs
    | a :: b :: r => exact hl s n (by simpa using hs)
  unfold setElement
  rw [List.getLast?_eq_some_getLast hne]
  simp only [ht]
  rw [if_neg (by simpa [maxValueSize] using hts), if_neg (by simp [maxDocumentSize]; omega)]
  have hi := intent_iff h2
  have hie : indexIntent ((fuseFields segs).map (lowIf (effOpts opts).caseSensitive)) = indexIntent segs := by rw [intent_low, intent_fuse]
  rw [hie]
  rcases Option.eq_none_or_eq_some (indexIntent segs) with hnn | ⟨b, hbb⟩
  · rw [hnn]
    simp only
    split
    · rw [findLoc_nothing htop]
      simp only
      unfold createElementForAttribute
      rw [create_nothing htop hx0 (hdrop _ hh)]
    · rw [findLoc_nothing htop]
      exact create_nothing htop hx0 hh
  · rw [hbb]
    cases b with
    | false => exact absurd (hi.1.mp hbb) hb
    | true =>
      simp only
      obtain ⟨_, pre, hap⟩ := hi.2.mp hbb
      obtain ⟨spre, h3, h4⟩ := appends_segs h2 hap (effOpts opts).caseSensitive
      have hend := ha pre hap
      obtain ⟨s, n, h5, h6⟩ := getLast_low.mpr ((endsInName_iff h3).mp hend)
      rw [← h4] at h5
      unfold appendElement
      rw [h5]
      simp only [h6]
      rw [if_neg, findLoc_nothing htop]
      · exact create_nothing htop hx0 (hdrop _ hh)
      · intro hemp
        rw [List.isEmpty_iff] at hemp
        have hd := hdrop _ hh
        generalize (List.map (lowIf (effOpts opts).caseSensitive) (fuseFields segs)).dropLast = l at h5 hemp hd
        match l with
        | [] => simp at h5
        | [a] =>
          simp at h5
          exact hd a n rfl (by rw [h5]; exact h6)
        | a :: b :: r => simp at hemp

/-- C62: for a value that can be stored and a path that has steps and does not end in an attribute, the causes above are the only ones. -/
theorem C62_set_path_iff (env : Env) (xml path : Bytes) (v : GoVal) (opts : Option Options) (hx : xml = [] ∨ valid xml = true) (hn : v ≠ .nil) (ss : List Bytes) (hs : PathSteps path ss)
    (hu : ¬ Unstorable v) (hlast : ∀ a, ss.getLast? = some a → ¬ AttrStep a) :
    setWithOptions env.ord xml path v opts = .ret (xml, some .invalidPath) ↔ ss = [] ∨ BadPosition ss ∨ ∃ pre, Appends ss pre ∧ ¬ EndsInName pre := by
  constructor
  · intro h
    rcases C62_set_error env xml path v opts hn xml _ h with ⟨h1, _⟩ | ⟨_, h1⟩ | ⟨ss', h1, h2, h3⟩
    · cases h1
    · rcases h1 with h1 | h1
      · rcases parsePath_reads hs with ⟨_, h2⟩ | ⟨segs, h2, _⟩
        · exact .inl h2
        · have := (parsePath_none h1).symm.trans h2; cases this
      · exact .inl (pathSteps_fun hs h1)
    · have := pathSteps_fun hs h1
      subst this
      rcases h3 with ⟨h3, _⟩ | ⟨_, _, h3⟩ | ⟨h3, _⟩
      · cases h3
      · rcases h3 with h3 | h3 | ⟨pre, a, rfl, ha, _⟩
        · exact .inr (.inl h3)
        · exact .inr (.inr h3)
        · exact absurd ha (hlast a (by simp))
      · cases h3
  · rintro (rfl | h)
    · exact C62_set_path env.ord xml path v opts hx hn (.inr (.inl hs))
    · exact C62_set_path env.ord xml path v opts hx hn (.inr (.inr ⟨ss, hs, hu, h⟩))

/-- C62: likewise for a malformed document. -/
theorem C62_set_malformed_iff (env : Env) (xml path : Bytes) (v : GoVal) (opts : Option Options) (hn : v ≠ .nil) (ss : List Bytes) (hs : PathSteps path ss) (h0 : ss ≠ [])
    (hu : ¬ Unstorable v) (hb : ¬ BadPosition ss) (ha : ∀ pre, Appends ss pre → EndsInName pre) (hlast : ∀ a, ss.getLast? = some a → ¬ AttrStep a) :
    (∃ d, setWithOptions env.ord xml path v opts = .ret (d, some .malformed)) ↔ (xml ≠ [] ∧ valid xml = false) ∨ NothingThere env xml ss := by
  constructor
  · rintro ⟨d, h⟩
    rcases C62_set_error env xml path v opts hn d _ h with ⟨_, h1⟩ | ⟨h1, _⟩ | ⟨ss', h1, h2, h3⟩
    · exact .inl h1
    · cases h1
    · have := pathSteps_fun hs h1
      subst this
      rcases h3 with ⟨h3, _⟩ | ⟨h3, _⟩ | ⟨_, _, h3⟩
      · cases h3
      · cases h3
      · rcases h3 with ⟨pre, a, rfl, ha, _⟩ | h3
        · exact absurd ha (hlast a (by simp))
        · exact .inr h3
  · rintro (⟨h1, h2⟩ | h)
    · exact ⟨xml, C26_set env.ord xml path v opts h1 h2⟩
    · cases hv : valid xml with
      | false => exact ⟨xml, C26_set env.ord xml path v opts h.1 hv⟩
      | true => exact ⟨xml, C62_set_nothing env xml path v opts hv hn ss hs h0 hu hb ha h⟩

/-- C62: setting nil is deleting, errors included. -/
theorem C62_set_nil (o : Ord) (xml path : Bytes) (opts : Option Options) : setWithOptions o xml path .nil opts = deleteWithOptions o xml path opts := by
  cases hv : valid xml with
  | true =>
    have hl := valid_small hv
    unfold setWithOptions
    rw [if_neg (by simp [maxDocumentSize]; omega), if_neg (by simp [hv]), if_pos rfl]
  | false =>
    rcases Classical.em (xml = []) with h0 | h0
    · subst h0; rfl
    · rw [C26_set o xml path .nil opts h0 hv, C26_delete o xml path opts hv]

/-! ## examples -/

theorem pathSteps_by {path : Bytes} {ss : List Bytes} (h0 : path ≠ []) (hl : (splitPath path).length ≤ 100)
    (h : ∀ p ∈ splitPath path, parsePart p ≠ .reject ∧ parsePart p ≠ .panic) (he : ss = (splitPath path).filter (fun p => decide (parsePart p ≠ .skip))) : PathSteps path ss := by
  refine ⟨_, (parts_split h0).mpr rfl, hl, fun p hp => ⟨fun h' => (h p hp).1 ((parsePart_class p).2.1.mpr h'), fun h' => (h p hp).2 ((parsePart_class p).1.mpr h')⟩, ?_⟩
  subst he
  clear hl h
  induction splitPath path with
  | nil => exact .nil
  | cons p ps ih =>
    by_cases hs : parsePart p = .skip
    · simp only [List.filter_cons, hs, ne_eq, not_true_eq_false, decide_false, Bool.false_eq_true, if_false]
      exact .idle ((parsePart_class p).2.2.mp hs) ih
    · simp only [List.filter_cons, hs, ne_eq, not_false_eq_true, decide_true, if_true]
      exact .busy (fun hi => hs ((parsePart_class p).2.2.mpr hi)) ih

/-- Escaped dots, doubled dots, a trailing backslash and a filter that is not closed. -/
example : PathSteps b!"a\\.b..c.#(x.d\\" [b!"a.b", b!"c", b!"d"] ∧ PathSteps b!"..\\" [] ∧ PathSteps [] [] :=
  ⟨pathSteps_by (by decide) (by decide) (by decide +kernel) (by decide +kernel), pathSteps_by (by decide) (by decide) (by decide +kernel) (by decide +kernel), pathSteps_nil⟩

/-- They make no difference. -/
example (env : Env) (xml : Bytes) : get env xml b!"r.#(x.a\\b.." = get env xml b!"r.ab" :=
  (C62_same env xml _ _ [b!"r", b!"ab"] (pathSteps_by (by decide) (by decide) (by decide +kernel) (by decide +kernel)) (pathSteps_by (by decide) (by decide) (by decide +kernel) (by decide +kernel)) .nil none).1

/-- Which of two faults counts: the first one. -/
example : NoPath b!"a.#(b=1).#(c==')" ∧ BadPath b!"a.#(c==').#(b=1)" :=
  ⟨⟨_, (parts_split (by decide)).mpr rfl, .inr ⟨[b!"a"], b!"#(b=1)", [b!"#(c==')"], by decide, fun q hq => by
      rw [List.mem_singleton.mp hq]
      exact ⟨fun h => by have := (parsePart_class b!"a").2.1.mpr h; revert this; decide +kernel, fun h => by have := (parsePart_class b!"a").1.mpr h; revert this; decide +kernel⟩,
      (parsePart_class _).2.1.mp (by decide +kernel)⟩⟩,
   ⟨_, (parts_split (by decide)).mpr rfl, by decide, [b!"a"], b!"#(c==')", [b!"#(b=1)"], by decide, fun q hq => by
      rw [List.mem_singleton.mp hq]
      exact ⟨fun h => by have := (parsePart_class b!"a").2.1.mpr h; revert this; decide +kernel, fun h => by have := (parsePart_class b!"a").1.mpr h; revert this; decide +kernel⟩,
      (parsePart_class _).1.mp (by decide +kernel)⟩⟩

theorem str_stored (t : Bytes) (h : t.length ≤ 10) : ¬ Unstorable (.str t) := by
  rintro (h' | h')
  · cases h'
  · have hs : ∀ l : Bytes, (l.map escapedSize).sum ≤ 6 * l.length := by
      intro l
      induction l with
      | nil => simp
      | cons c l ih =>
        have : escapedSize c ≤ 6 := by unfold escapedSize; split; · omega
                                       split; · omega
                                       split <;> omega
        simp only [List.map_cons, List.sum_cons, List.length_cons]; omega
    have := hs t
    simp only [storedSize] at h'
    omega

/-- What follows digits that exceed 64 bits is not looked at; after fewer digits a hyphen makes the position 0. -/
example : parsePart b!"99999999999999999999-" = .seg { kind := .index (2 ^ 63 - 1), mods := [] } ∧
    parsePart b!"-99999999999999999999-1" = .seg { kind := .index (-2 ^ 63), mods := [] } ∧
    parsePart b!"18446744073709551615-" = .seg { kind := .index 0, mods := [] } ∧
    parsePart b!"18446744073709551615" = .seg { kind := .index (2 ^ 63 - 1), mods := [] } := by decide +kernel

/-- `-1` in the middle, `-2` at the end, and `-1` behind collected names. -/
example (o : Ord) : setWithOptions o b!"<a/>" b!"a.-1.b" (.str b!"v") none = .ret (b!"<a/>", some .invalidPath) ∧
    setWithOptions o b!"<a/>" b!"a.b.-2|@raw" (.str b!"v") none = .ret (b!"<a/>", some .invalidPath) ∧
    setWithOptions o [] b!"#.b.-1" (.str b!"v") none = .ret ([], some .invalidPath) := by
  have hv : valid b!"<a/>" = true := by decide +kernel
  refine ⟨C62_set_path o _ _ _ none (.inr hv) (by simp) (.inr (.inr ⟨[b!"a", b!"-1", b!"b"], pathSteps_by (by decide) (by decide) (by decide +kernel) (by decide +kernel), str_stored _ (by decide),
      .inl ⟨[b!"a"], b!"-1", [b!"b"], 1, rfl, ⟨b!"1", [], by decide, .digit _ (by decide), by decide, .inl rfl⟩, by simp⟩⟩)),
    C62_set_path o _ _ _ none (.inr hv) (by simp) (.inr (.inr ⟨[b!"a", b!"b", b!"-2|@raw"], pathSteps_by (by decide) (by decide) (by decide +kernel) (by decide +kernel), str_stored _ (by decide),
      .inl ⟨[b!"a", b!"b"], b!"-2|@raw", [], 2, rfl, ⟨b!"2", [], by decide, .digit _ (by decide), by decide, .inl rfl⟩, by simp⟩⟩)),
    C62_set_path o _ _ _ none (.inl rfl) (by simp) (.inr (.inr ⟨[b!"#", b!"b", b!"-1"], pathSteps_by (by decide) (by decide) (by decide +kernel) (by decide +kernel), str_stored _ (by decide),
      .inr ⟨[b!"#", b!"b"], ⟨b!"-1", rfl, ⟨b!"1", [], by decide, .digit _ (by decide), by decide, .inl rfl⟩⟩, ?_⟩⟩))⟩
  rintro ⟨pre, p, e, _, hno⟩
  have e1 := List.append_inj_left' (s₁ := [b!"#"]) (t₁ := [b!"b"]) e rfl
  have e2 := List.append_inj_right' (s₁ := [b!"#"]) (t₁ := [b!"b"]) e rfl
  injection e2 with e2
  subst e1 e2
  exact hno ⟨⟨c!"b", [], by decide, by decide, by simp⟩, by decide, b!"#", rfl, by decide⟩

/-- Delete with an attribute alone. -/
example (o : Ord) : deleteWithOptions o b!"<a/>" b!"@id" none = .ret (b!"<a/>", some .invalidPath) :=
  (C62_delete_path o _ _ none (by decide +kernel)).mpr (.inr (.inr ⟨b!"@id", pathSteps_by (by decide) (by decide) (by decide +kernel) (by decide +kernel), ⟨b!"id", rfl⟩⟩))

/-- A valid document in which queries see no element. -/
example (env : Env) (henv : env.ord = fun _ a => a) : setWithOptions env.ord b!"<![CDATA[<!--]]><a/>" b!"*.b" (.str b!"v") none = .ret (b!"<![CDATA[<!--]]><a/>", some .malformed) := by
  refine C62_set_nothing env _ _ _ none (by decide +kernel) (by simp) [b!"*", b!"b"] (pathSteps_by (by decide) (by decide) (by decide +kernel) (by decide +kernel)) (by simp) (str_stored _ (by decide)) ?_ ?_
    ⟨by simp, star_null (by decide) (by rw [henv]; exact List.isEmpty_iff.mp (by decide +kernel)), ?_⟩
  · intro h
    have hseg : All2 IsSeg [b!"*", b!"b"] [⟨.wild false, []⟩, ⟨.elem b!"b", []⟩] := .cons (show parsePart _ = _ by decide +kernel) (.cons (show parsePart _ = _ by decide +kernel) .nil)
    have := (intent_iff hseg).1.mpr h
    revert this; decide
  · rintro pre ⟨p, e, h⟩
    exfalso
    have e2 := List.append_inj_right' (s₁ := [b!"*"]) (t₁ := [b!"b"]) e rfl
    injection e2 with e2
    subst e2
    obtain ⟨ds, h, _⟩ := h
    revert h; simp [beforeBar]
  · intro p hp h
    simp only [List.head?_cons, Option.some.injEq] at hp
    subst hp
    exact h.2.2.2.1 (by decide)

/-- An attribute of an element that is missing and whose name cannot be found again. -/
example : set (fun _ a => a) b!"<a/>" b!"a.%.@x" (.str b!"v") = .ret (b!"<a/>", some .invalidPath) := by decide +kernel

end Verif.Props
