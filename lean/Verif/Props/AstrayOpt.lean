import Verif.Lemmas.AstrayOpt
import Verif.Props.Astray
/- C77 for GetWithOptions: steps that stand where they mean nothing. -/
namespace Verif.Props
open Verif Verif.Spec

theorem low_step (cs : Bool) (s : Seg) : ((lowIf cs s).shut ↔ s.shut) ∧ ((lowIf cs s).step ↔ s.step) ∧ ((∃ n, (lowIf cs s).kind = .elem n) ↔ ∃ n, s.kind = .elem n) ∧
    ((∃ n, (lowIf cs s).kind = .attr n) ↔ ∃ n, s.kind = .attr n) ∧ (∀ i, (lowIf cs s).kind = .index i ↔ s.kind = .index i) ∧ (∀ b, (lowIf cs s).kind = .wild b ↔ s.kind = .wild b) ∧
    ((∃ f all, (lowIf cs s).kind = .filter f all) ↔ ∃ f all, s.kind = .filter f all) := by
  obtain ⟨k, m⟩ := s
  cases cs
  · unfold lowIf lowerSeg
    cases k <;> simp [Seg.shut, Seg.step]
  · simp [lowIf]

theorem low_steps {cs : Bool} {a : List Seg} (h : ∀ c ∈ a, c.step) : ∀ c ∈ a.map (lowIf cs), c.step := by
  intro c hc
  obtain ⟨x, hx, rfl⟩ := List.mem_map.mp hc
  exact (low_step cs x).2.1.mpr (h x hx)

theorem getOpt_steps_eq {env : Env} {xml path : Bytes} {opts : Option Options} {ss : List Bytes} (h : PathSteps path ss) (h0 : ss ≠ []) (hd : isDefaultOptions opts = false) :
    ∃ segs, All2 IsSeg ss segs ∧ getWithOptions env xml path opts = if xml.length > 10485760 then .ret .null else
      .ret (execQOpt env (evalFilter env) (opts.getD defaultOptions).caseSensitive ((fuseFields segs).map (lowIf (opts.getD defaultOptions).caseSensitive)) true xml) := by
  obtain ⟨segs, h1, h2⟩ := parseOpt_reads h h0 (opts.getD defaultOptions).caseSensitive
  refine ⟨segs, h2, ?_⟩
  have hne : (fuseFields segs).map (lowIf (opts.getD defaultOptions).caseSensitive) ≠ [] := by
    intro e
    have := fuse_isEmpty segs
    rw [List.map_eq_nil_iff.mp e] at this
    cases h2 with
    | nil => exact h0 rfl
    | cons _ _ => cases this
  unfold getWithOptions
  simp only [hd, h1]
  cases hq : (fuseFields segs).map (lowIf (opts.getD defaultOptions).caseSensitive) with
  | nil => exact absurd hq hne
  | cons x l => rfl

theorem getOpt_default {env : Env} {xml path : Bytes} {opts : Option Options} (hd : isDefaultOptions opts = true) : getWithOptions env xml path opts = get env xml path := by
  rw [← (C30_get_default env xml path).1]
  have hn : isDefaultOptions none = true := rfl
  unfold getWithOptions
  simp only [hd, hn, if_true]

theorem getOpt_dead {env : Env} {xml path : Bytes} {opts : Option Options} {ss : List Bytes} (h : PathSteps path ss) (h0 : ss ≠ []) (hg : get env xml path = .ret .null)
    (hd : ∀ cs segs, All2 IsSeg ss segs → DeadO env cs (evalFilter env) ((fuseFields segs).map (lowIf cs))) : getWithOptions env xml path opts = .ret .null := by
  cases hdef : isDefaultOptions opts with
  | true => rw [getOpt_default hdef, hg]
  | false =>
    obtain ⟨segs, h2, e⟩ := getOpt_steps_eq (env := env) (xml := xml) h h0 hdef
    rw [e, hd _ segs h2, ite_self]

/-- C77: whatever follows own text (`%`), a count (`#`) or the fields that `#` collects is ignored, in every document, with any steps before and any modifiers. -/
theorem C77_rest_ignored_options (env : Env) (opts : Option Options) (xml path path' : Bytes) (pre rest : List Bytes) (p : Bytes) (h : PathSteps path (pre ++ p :: rest)) (h' : PathSteps path' (pre ++ [p]))
    (hf : Final pre p rest) : getWithOptions env xml path opts = getWithOptions env xml path' opts := by
  cases hdef : isDefaultOptions opts with
  | true => rw [getOpt_default hdef, getOpt_default hdef, C77_rest_ignored env xml path path' pre rest p h h' hf]
  | false =>
    obtain ⟨segs, h2, e⟩ := getOpt_steps_eq (env := env) (xml := xml) h (by simp) hdef
    obtain ⟨segs', h2', e'⟩ := getOpt_steps_eq (env := env) (xml := xml) h' (by simp) hdef
    obtain ⟨l, x, r, h3, h4, h5⟩ := fuse_final h2 hf
    rw [e, e', h3, h5 _ h2', List.map_append, List.map_append, List.map_cons, List.map_cons, List.map_nil, execQ_shutO ((low_step _ x).1.mpr h4)]

/-- C77: whatever follows an attribute is ignored too, if the step before the attribute is a filter or a position (the attribute after a position without modifiers). -/
theorem C77_attribute_kept_options (env : Env) (opts : Option Options) (xml path path' : Bytes) (pre rest : List Bytes) (d p : Bytes) (h : PathSteps path (pre ++ d :: p :: rest))
    (h' : PathSteps path' (pre ++ [d, p])) (hm : ∀ q ∈ pre, MoveStep q) (hp : AttrStep p) (hd : FilterStep d ∨ (Position d ∧ c!"|" ∉ p)) : getWithOptions env xml path opts = getWithOptions env xml path' opts := by
  cases hdef : isDefaultOptions opts with
  | true => rw [getOpt_default hdef, getOpt_default hdef, C77_attribute_kept env xml path path' pre rest d p h h' hm hp hd]
  | false =>
    obtain ⟨segs, h2, e⟩ := getOpt_steps_eq (env := env) (xml := xml) h (by simp) hdef
    obtain ⟨segs', h2', e'⟩ := getOpt_steps_eq (env := env) (xml := xml) h' (by simp) hdef
    rw [e, e']
    generalize (opts.getD defaultOptions).caseSensitive = cs
    obtain ⟨a, b, rfl, ha, hb⟩ := all2_split h2
    cases hb with
    | @cons _ t _ _ h3 hb =>
      cases hb with
      | @cons _ s _ rs h4 h5 =>
        obtain rfl := all2_fun h2' (ha.append (.cons h3 (.cons h4 .nil)))
        have hsa := (isSeg_kind h4).1.mp hp
        obtain ⟨n, hs⟩ := (low_step cs s).2.2.2.1.mpr hsa
        have hst := all2_steps ha hm
        have ht : (∃ f all, t.kind = .filter f all) ∨ ∃ i, t.kind = .index i := by
          rcases hd with hd | ⟨hd, -⟩
          · exact .inl ((isSeg_filter_iff h3).mp hd)
          · exact .inr ((isSeg_position h3).mp hd)
        have ht' : (∃ f all, (lowIf cs t).kind = .filter f all) ∨ ∃ i, (lowIf cs t).kind = .index i := by
          rcases ht with h | ⟨i, h⟩
          · exact .inl ((low_step cs t).2.2.2.2.2.2.mpr h)
          · exact .inr ⟨i, ((low_step cs t).2.2.2.2.1 i).mpr h⟩
        have htc : t.kind ≠ .count := by rcases ht with ⟨_, _, h⟩ | ⟨_, h⟩ <;> rw [h] <;> simp
        have hsc : s.kind ≠ .count := by obtain ⟨_, hs⟩ := hsa; rw [hs]; simp
        rw [fuse_left _ _ hst.2, fuse_left _ _ hst.2, fuseFields_cons htc, fuseFields_cons htc, fuseFields_cons hsc, List.map_append, List.map_append]
        simp only [List.map_cons]
        rw [execQ_attr_keptO hs ht' ((fuseFields rs).map (lowIf cs)) (a.map (lowIf cs))]
        rfl

/-- C77: below a name or a wildcard, an attribute with anything after it finds nothing. -/
theorem C77_attribute_lost_options (env : Env) (opts : Option Options) (xml path : Bytes) (pre rest : List Bytes) (d p : Bytes) (h : PathSteps path (pre ++ d :: p :: rest))
    (hm : ∀ q ∈ pre, MoveStep q) (hp : AttrStep p) (hd : NameStep d ∨ WildStep d) (hr : rest ≠ []) : getWithOptions env xml path opts = .ret .null := by
  refine getOpt_dead h (by simp) (C77_attribute_lost env xml path pre rest d p h hm hp hd hr) fun cs segs h2 => ?_
  obtain ⟨a, b, rfl, ha, hb⟩ := all2_split h2
  cases hb with
  | @cons _ t _ _ h3 hb =>
    cases hb with
    | @cons _ s _ rs h4 h5 =>
      obtain ⟨n, hs⟩ := (isSeg_kind h4).1.mp hp
      have hst := all2_steps ha hm
      have ht : (∃ n, t.kind = .elem n) ∨ ∃ b, t.kind = .wild b := by
        rcases hd with hd | hd
        · exact .inl ((isSeg_kind h3).2.2.1.mp hd)
        · exact .inr ((isSeg_wild h3).mp hd)
      have htc : t.kind ≠ .count := by rcases ht with ⟨_, h⟩ | ⟨_, h⟩ <;> rw [h] <;> simp
      have hsc : s.kind ≠ .count := by rw [hs]; simp
      rw [fuse_left _ _ hst.2, fuseFields_cons htc, fuseFields_cons hsc, List.map_append, List.map_cons, List.map_cons]
      obtain ⟨n', hs'⟩ := (low_step cs s).2.2.2.1.mpr ⟨n, hs⟩
      have ht' : (∃ n, (lowIf cs t).kind = .elem n) ∨ ∃ b, (lowIf cs t).kind = .wild b := by
        rcases ht with h | ⟨b, h⟩
        · exact .inl ((low_step cs t).2.2.1.mpr h)
        · exact .inr ⟨b, ((low_step cs t).2.2.2.2.2.1 b).mpr h⟩
      refine dead_attrO hs' ht' ?_ _ (low_steps hst.1)
      have hrs : rs ≠ [] := by rintro rfl; cases h5; exact hr rfl
      intro e
      have := fuse_isEmpty rs
      rw [List.map_eq_nil_iff.mp e] at this
      exact hrs (List.isEmpty_iff.mp this.symm)

/-- C77: a position finds nothing if it is not right after a name: at the beginning, after another position, a filter or a wildcard. -/
theorem C77_position_options (env : Env) (opts : Option Options) (xml path : Bytes) (pre rest : List Bytes) (p : Bytes) (h : PathSteps path (pre ++ p :: rest)) (hm : ∀ q ∈ pre, MoveStep q) (hp : Position p)
    (hl : ∀ q, pre.getLast? = some q → ¬ NameStep q) : getWithOptions env xml path opts = .ret .null := by
  refine getOpt_dead h (by simp) (C77_position env xml path pre rest p h hm hp hl) fun cs segs h2 => ?_
  obtain ⟨a, b, rfl, ha, hb⟩ := all2_split h2
  cases hb with
  | @cons _ s _ rs h3 hb =>
    have hs := (isSeg_position h3).mp hp
    have hst := all2_steps ha hm
    have hsc : s.kind ≠ .count := by obtain ⟨i, hs⟩ := hs; rw [hs]; simp
    rw [fuse_left _ _ hst.2, fuseFields_cons hsc, List.map_append, List.map_cons]
    have hs' : ∃ i, (lowIf cs s).kind = .index i := by obtain ⟨i, h⟩ := hs; exact ⟨i, ((low_step cs s).2.2.2.2.1 i).mpr h⟩
    rcases a.eq_nil_or_concat with rfl | ⟨a', d, rfl⟩
    · exact dead_indexO hs' _
    · rw [List.concat_eq_append] at *
      rw [List.map_append, List.append_assoc]
      obtain ⟨q, hq, hqs⟩ := (all2_last ha).1 d (by simp)
      exact dead_index_afterO hs' ((low_step cs d).2.1.mpr (hst.1 d (by simp))) (fun n hn => hl q hq ((isSeg_kind hqs).2.2.1.mpr ((low_step cs d).2.2.1.mp ⟨n, hn⟩))) _ _
        (low_steps fun x hx => hst.1 x (by simp [hx]))

/-- C77: nor after the name that `**` looks for. -/
theorem C77_position_deep_options (env : Env) (opts : Option Options) (xml path : Bytes) (pre rest : List Bytes) (w d p : Bytes) (h : PathSteps path (pre ++ w :: d :: p :: rest)) (hm : ∀ q ∈ pre, MoveStep q)
    (hw : beforeBar w = b!"**") (hd : NameStep d) (hp : Position p) (hl : ∀ q, pre.getLast? = some q → beforeBar q ≠ b!"**") : getWithOptions env xml path opts = .ret .null := by
  refine getOpt_dead h (by simp) (C77_position_deep env xml path pre rest w d p h hm hw hd hp hl) fun cs segs h2 => ?_
  obtain ⟨a, b, rfl, ha, hb⟩ := all2_split h2
  cases hb with
  | @cons _ v _ _ h3 hb =>
    cases hb with
    | @cons _ t _ _ h4 hb =>
      cases hb with
      | @cons _ s _ rs h5 hb =>
        have hs := (isSeg_position h5).mp hp
        have hv := (isSeg_deep h3).mp hw
        obtain ⟨n, ht⟩ := (isSeg_kind h4).2.2.1.mp hd
        have hst := all2_steps ha hm
        rw [fuse_left _ _ hst.2, fuseFields_cons (by rw [hv]; simp), fuseFields_cons (by rw [ht]; simp), fuseFields_cons (by obtain ⟨i, hs⟩ := hs; rw [hs]; simp), List.map_append,
          List.map_cons, List.map_cons, List.map_cons]
        obtain ⟨i, hi⟩ := hs
        refine dead_index_deepO ⟨i, ((low_step cs s).2.2.2.2.1 i).mpr hi⟩ (((low_step cs v).2.2.2.2.2.1 _).mpr hv) _ _ (low_steps hst.1) fun c hc e => ?_
        rw [List.getLast?_map, Option.map_eq_some_iff] at hc
        obtain ⟨c, hc, rfl⟩ := hc
        obtain ⟨q, hq, hqs⟩ := (all2_last ha).1 c hc
        exact hl q hq ((isSeg_deep hqs).mpr (((low_step cs c).2.2.2.2.2.1 _).mp e))

/-- C77: a negative position finds nothing, wherever it is. -/
theorem C77_negative_options (env : Env) (opts : Option Options) (xml path : Bytes) (pre rest : List Bytes) (p : Bytes) (n : Nat) (h : PathSteps path (pre ++ p :: rest)) (hm : ∀ q ∈ pre, MoveStep q) (hp : Negative p n) :
    getWithOptions env xml path opts = .ret .null := by
  refine getOpt_dead h (by simp) (C77_negative env xml path pre rest p n h hm hp) fun cs segs h2 => ?_
  obtain ⟨a, b, rfl, ha, hb⟩ := all2_split h2
  cases hb with
  | @cons _ s _ rs h3 hb =>
    obtain ⟨i, hs, hi⟩ := (isSeg_kind h3).2.2.2.2.1.mp ⟨n, hp⟩
    have hst := all2_steps ha hm
    rw [fuse_left _ _ hst.2, fuseFields_cons (by rw [hs]; simp), List.map_append, List.map_cons]
    exact dead_negativeO (((low_step cs s).2.2.2.2.1 i).mpr hs) hi _ _ (low_steps hst.1)

/-- C77: `**` finds nothing if what follows is not a name or a wildcard, or nothing follows. -/
theorem C77_deep_options (env : Env) (opts : Option Options) (xml path : Bytes) (pre rest : List Bytes) (w : Bytes) (h : PathSteps path (pre ++ w :: rest)) (hm : ∀ q ∈ pre, MoveStep q) (hw : beforeBar w = b!"**")
    (hr : ∀ q, rest.head? = some q → ¬ NameStep q ∧ ¬ WildStep q) (hl : ∀ q, pre.getLast? = some q → beforeBar q ≠ b!"**") : getWithOptions env xml path opts = .ret .null := by
  refine getOpt_dead h (by simp) (C77_deep env xml path pre rest w h hm hw hr hl) fun cs segs h2 => ?_
  obtain ⟨a, b, rfl, ha, hb⟩ := all2_split h2
  cases hb with
  | @cons _ v _ rs h3 hb =>
    have hv := (isSeg_deep h3).mp hw
    have hst := all2_steps ha hm
    rw [fuse_left _ _ hst.2, fuseFields_cons (by rw [hv]; simp), List.map_append, List.map_cons]
    refine dead_deepO (((low_step cs v).2.2.2.2.2.1 _).mpr hv) (fun d' hd => ?_) _ (low_steps hst.1) fun c hc e => ?_
    · rw [List.head?_map, Option.map_eq_some_iff] at hd
      obtain ⟨d, hd, rfl⟩ := hd
      suffices hk : (∀ n, d.kind ≠ .elem n) ∧ ∀ b, d.kind ≠ .wild b by
        refine ⟨fun n e => ?_, fun b e => hk.2 b (((low_step cs d).2.2.2.2.2.1 b).mp e)⟩
        obtain ⟨m, hm⟩ := (low_step cs d).2.2.1.mp ⟨n, e⟩
        exact hk.1 m hm
      cases hb with
      | nil => simp [fuseFields] at hd
      | @cons q t _ rs' h4 h5 =>
        have hq := hr q rfl
        have ht : (∀ n, t.kind ≠ .elem n) ∧ ∀ b, t.kind ≠ .wild b :=
          ⟨fun n e => hq.1 ((isSeg_kind h4).2.2.1.mpr ⟨n, e⟩), fun b e => hq.2 ((isSeg_wild h4).mpr ⟨b, e⟩)⟩
        cases rs' with
        | nil => simp [fuseFields] at hd; subst hd; exact ht
        | cons u rs' =>
          rw [fuse_cons2] at hd
          cases hj : joined t u with
          | none => rw [hj] at hd; simp at hd; subst hd; exact ht
          | some x =>
            rw [hj] at hd; simp at hd; subst hd
            obtain ⟨-, ⟨f, -, rfl⟩, -⟩ := joined_facts hj
            exact ⟨by simp, by simp⟩
    · rw [List.getLast?_map, Option.map_eq_some_iff] at hc
      obtain ⟨c, hc, rfl⟩ := hc
      obtain ⟨q, hq, hqs⟩ := (all2_last ha).1 c hc
      exact hl q hq ((isSeg_deep hqs).mpr (((low_step cs c).2.2.2.2.2.1 _).mp e))

/-! ### examples -/

example (env : Env) (xml : Bytes) (opts : Option Options) : getWithOptions env xml b!"R.a.%.b.0.@k" opts = getWithOptions env xml b!"R.a.%" opts :=
  C77_rest_ignored_options env opts xml _ _ [b!"R", b!"a"] [b!"b", b!"0", b!"@k"] b!"%" (pathSteps_by (by decide) (by decide) (by decide +kernel) (by decide +kernel))
    (pathSteps_by (by decide) (by decide) (by decide +kernel) (by decide +kernel)) (.inl rfl)

/-- C77: the same in one document, letters in any case. -/
theorem C77_options_witness :
    getWithOptions exEnv b!"<r><a k=\"1\">x</a><a k=\"2\">y</a></r>" b!"R.A.%.b" (some { defaultOptions with caseSensitive := false }) = .ret (.ofText b!"x") ∧
    getWithOptions exEnv b!"<r><a k=\"1\">x</a><a k=\"2\">y</a></r>" b!"R.A.#.7" (some { defaultOptions with caseSensitive := false }) = .ret (.ofCount 2) ∧
    getWithOptions exEnv b!"<r><a k=\"1\">x</a><a k=\"2\">y</a></r>" b!"R.A.1.@K.b" (some { defaultOptions with caseSensitive := false }) = .ret (.ofAttr b!"2") ∧
    getWithOptions exEnv b!"<r><a k=\"1\">x</a><a k=\"2\">y</a></r>" b!"R.A.@K.b" (some { defaultOptions with caseSensitive := false }) = .ret .null ∧
    getWithOptions exEnv b!"<r><a k=\"1\">x</a><a k=\"2\">y</a></r>" b!"R.A.@K" (some { defaultOptions with caseSensitive := false }) = .ret (.ofAttr b!"1") ∧
    getWithOptions exEnv b!"<r><a k=\"1\">x</a><a k=\"2\">y</a></r>" b!"**.A.1" (some { defaultOptions with caseSensitive := false }) = .ret .null ∧
    getWithOptions exEnv b!"<r><a k=\"1\">x</a><a k=\"2\">y</a></r>" b!"R.*.1" (some { defaultOptions with caseSensitive := false }) = .ret .null ∧
    getWithOptions exEnv b!"<r><a k=\"1\">x</a><a k=\"2\">y</a></r>" b!"R.**" (some { defaultOptions with caseSensitive := false }) = .ret .null := by decide +kernel

end Verif.Props
