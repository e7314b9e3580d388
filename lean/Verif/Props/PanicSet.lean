import Verif.Props.Panic
import Verif.Props.SlotsAttr
/- C27: when Set of an attribute can panic. -/
namespace Verif.Props
open Verif Verif.Spec

theorem setElement_blind {o : Ord} {cs : Bool} {indent data : Bytes} {path : List Seg} {v : GoVal} (hf : ∀ k, Fits o k data)
    (ha : AttrMissing o cs data path → ∀ d, findLoc o cs path.dropLast d 0 = none) : setElement o cs indent data path v ≠ .panic := by
  by_cases hm : AttrMissing o cs data path
  · have ha := ha hm
    obtain ⟨⟨a, h1⟩, h2⟩ := hm
    unfold setElement
    cases hl : path.getLast? with
    | none => simp
    | some last =>
      rw [hl] at h1
      have hk : last.kind = .attr a := by simpa using h1
      simp only
      cases valueToXML v with
      | none => simp
      | some w =>
        simp only
        split
        · simp
        · split
          · simp
          · split
            · simp
            · exact appendElement_safe hf
            · simp only [hk, h2]
              unfold createElementForAttribute
              have := createElement_safe (o := o) (cs := cs) (indent := indent) (path := path.dropLast) (v := []) hf
              cases hc : createElement o cs indent data path.dropLast [] with
              | panic => exact absurd hc this
              | err e => simp
              | ok r => simp only [ha]; split <;> simp
  · exact setElement_safe hf hm

theorem set_blind {o : Ord} {xml path : Bytes} {v : GoVal} {opts : Option Options} (hf : ∀ k, Fits o k xml) (hp : parsePath path ≠ .panic)
    (ha : ∀ ss, parsePathWithOptions path (effOpts opts).caseSensitive = .ok ss → AttrMissing o (effOpts opts).caseSensitive xml ss → ∀ d, findLoc o (effOpts opts).caseSensitive ss.dropLast d 0 = none) :
    setWithOptions o xml path v opts ≠ .panic := by
  unfold setWithOptions
  split
  · simp
  · split
    · simp
    · split
      · exact delete_safe hf hp
      · split
        · rename_i h; exact absurd (parseOpt_panic.mp h) hp
        · simp
        · simp
        · rename_i h; exact finish_safe (setElement_blind hf (ha _ h))

theorem steps_no_panic {path : Bytes} {ss : List Bytes} (hp : PathSteps path ss) (h0 : ss ≠ []) : parsePath path ≠ .panic := by
  obtain ⟨segs, a, _⟩ := parseOpt_reads hp h0 true
  intro hc
  rw [parseOpt_panic.mpr hc] at a
  cases a

/-- C27: On a roomy document Set does not panic if the path can be read and does not end in an attribute. -/
theorem C27_set_last (env : Env) (ho : env.ord.IsPerm) (f : Forest) (hf : Roomy f) {path q : Bytes} {ps : List Bytes} (v : GoVal) (opts : Options) (hp : PathSteps path (ps ++ [q])) (hq : ¬ AttrStep q) :
    setWithOptions env.ord f.render path v (some opts) ≠ .panic := by
  refine set_safe (fun k => fits_forest ho k hf.1 hf.2.1 hf.2.2) (steps_no_panic hp (by simp)) (fun ss hss hm => ?_)
  obtain ⟨segs, h1, h2⟩ := parseOpt_reads hp (by simp) opts.caseSensitive
  have hss : parsePathWithOptions path opts.caseSensitive = .ok ss := hss
  rw [h1] at hss
  injection hss with hss
  obtain ⟨sa, t, rfl, h3, h4⟩ := all2_snoc_inv h2
  obtain ⟨⟨a, ha⟩, _⟩ := hm
  rw [← hss] at ha
  rcases fuse_snoc sa t with e | ⟨l', c, x, _, hj, e⟩
  · rw [e, List.map_append, List.map_cons, List.map_nil, List.getLast?_concat] at ha
    refine hq ((isSeg_kind h4).1.mpr ?_)
    obtain ⟨k, m⟩ := t
    cases hc : opts.caseSensitive <;> rw [hc] at ha <;> cases k <;> simp [lowIf, lowerSeg] at ha ⊢
  · obtain ⟨_, ⟨g, _, rfl⟩, _⟩ := joined_facts hj
    rw [e, List.map_append, List.map_cons, List.map_nil, List.getLast?_concat] at ha
    cases hc : opts.caseSensitive <;> rw [hc] at ha <;> simp [lowIf, lowerSeg] at ha

/-- C27: On a roomy document Set does not panic if everything but the last step leads to an element. -/
theorem C27_set_there (env : Env) (ho : env.ord.IsPerm) (f : Forest) (hf : Roomy f) {path q : Bytes} {ps : List Bytes} {hs : List Hop} (v : GoVal) (opts : Options)
    (hp : PathSteps path (ps ++ [q])) (h1 : HopParts hs ps) (hs1 : f.info.spot opts.caseSensitive hs ≠ none) : setWithOptions env.ord f.render path v (some opts) ≠ .panic := by
  by_cases hz : f.render.length ≤ 10485760
  · obtain ⟨c, e, rfl, r1⟩ := (C68_somewhere opts.caseSensitive hs f).mpr hs1
    have hsnd : Sound (c.plug (e.cons .nil)) := ⟨hz, hf.1, hf.2.1, plug_hasElem_of (cons_hasElem e .nil)⟩
    refine set_safe (fun k => fits_forest ho k hf.1 hf.2.1 hf.2.2) (steps_no_panic hp (by simp)) (fun ss hss hm => ?_)
    obtain ⟨ss', rs, a1, _, a2, a3⟩ := parse_hops hp h1 (reach_ne r1) opts.caseSensitive
    have hss : parsePathWithOptions path opts.caseSensitive = .ok ss := hss
    rw [a3] at hss
    injection hss with hss
    cases a2 with
    | @cons _ s _ rs g1 g2 =>
    cases g2
    obtain ⟨l, hl, _⟩ := sound_goto ho hsnd opts.caseSensitive
    have hfl := findLoc_goto a1 r1 (sound_along ho hsnd) fresh_nil 0
    rw [List.append_nil, hl] at hfl
    have hdl : ss.dropLast = ss' := by rw [← hss]; simp [fuseFields]
    have := hm.2
    rw [hdl] at this
    have h2 : findLoc env.ord opts.caseSensitive ss' (c.plug (e.cons .nil)).render 0 = none := this
    rw [hfl] at h2
    cases h2
  · unfold setWithOptions
    have hd : maxDocumentSize = 10485760 := rfl
    rw [if_pos (by omega)]
    simp

/-- C27: Nor does it if no element can satisfy some step before the last. -/
theorem C27_set_blind (env : Env) (ho : env.ord.IsPerm) (f : Forest) (hf : Roomy f) {path x q : Bytes} {pre mid : List Bytes} (v : GoVal) (opts : Options)
    (hp : PathSteps path (pre ++ x :: mid ++ [q])) (hb : Blind x) : setWithOptions env.ord f.render path v (some opts) ≠ .panic := by
  refine set_blind (fun k => fits_forest ho k hf.1 hf.2.1 hf.2.2) (steps_no_panic hp (by simp)) (fun ss hss hm data => ?_)
  obtain ⟨segs, h1, h2⟩ := parseOpt_reads hp (by simp) opts.caseSensitive
  have hss : parsePathWithOptions path opts.caseSensitive = .ok ss := hss
  rw [h1] at hss
  injection hss with hss
  obtain ⟨sa, t, rfl, h3, h4⟩ := all2_snoc_inv h2
  obtain ⟨⟨a, ha⟩, _⟩ := hm
  show findLoc env.ord opts.caseSensitive ss.dropLast data 0 = none
  rw [← hss] at ha ⊢
  rcases fuse_snoc sa t with e | ⟨l', c, x, _, hj, e⟩
  · rw [e, List.map_append, List.map_cons, List.map_nil, List.dropLast_concat]
    obtain ⟨sb, sc, rfl, g1, g2⟩ := all2_split h3
    cases g2 with
    | @cons _ s _ sc g2 g3 =>
    obtain ⟨a', s', b', k1, k2, _, _⟩ := fuse_never (a := sb) (b := sc) (isSeg_blind (cs := opts.caseSensitive) g2 hb).2
    rw [k1, List.map_append, List.map_cons]
    refine findLoc_never (s := lowIf opts.caseSensitive s') ?_ _ _ data 0
    obtain ⟨k, m⟩ := s'
    have := never_kind.mp k2
    apply never_kind.mpr
    cases k <;> cases hcs : opts.caseSensitive <;> simp_all [lowIf, lowerSeg]
  · obtain ⟨_, ⟨g, _, rfl⟩, _⟩ := joined_facts hj
    rw [e, List.map_append, List.map_cons, List.map_nil, List.getLast?_concat] at ha
    cases hc : opts.caseSensitive <;> rw [hc] at ha <;> simp [lowIf, lowerSeg] at ha

/-- `r.*.1.@k` on `<?xml?><r><a k="1">x<b>y</b><!--c--></a><n:a k='2' j="3"/></r>`, a document that is not editable. -/
example (v : GoVal) : setWithOptions exEnv.ord exDoc.render b!"r.*.1.@k" v (some defaultOptions) ≠ .panic :=
  C27_set_there exEnv exEnv_perm exDoc exDoc_roomy v defaultOptions (ps := [b!"r", b!"*", b!"1"]) (q := b!"@k") (hs := [(.name b!"r", 0), (.any, 1)])
    (pathSteps_by (by decide) (by decide) (by decide +kernel) (by decide +kernel)) (.first (.name (name_step (by decide))) (.nth (.any (.inl (by decide))) (.digit 49 (by decide)) (by decide) .nil)) (by decide +kernel)

/-- `r.#.@k.q` and `r.%.b.@k`. -/
example (v : GoVal) : setWithOptions exEnv.ord exDoc.render b!"r.#.@k.q" v (some defaultOptions) ≠ .panic ∧ setWithOptions exEnv.ord exDoc.render b!"r.%.b.@k" v (some defaultOptions) ≠ .panic :=
  ⟨C27_set_last exEnv exEnv_perm exDoc exDoc_roomy v defaultOptions (ps := [b!"r", b!"#", b!"@k"]) (q := b!"q") (pathSteps_by (by decide) (by decide) (by decide +kernel) (by decide +kernel)) (by unfold AttrStep; decide),
   C27_set_blind exEnv exEnv_perm exDoc exDoc_roomy v defaultOptions (pre := [b!"r"]) (x := b!"%") (mid := [b!"b"]) (q := b!"@k") (pathSteps_by (by decide) (by decide) (by decide +kernel) (by decide +kernel))
     (.inr (.inr (.inl (by decide))))⟩

/-- An attribute of elements that have to be created first: markup in the indentation makes Set panic, though the document is roomy. -/
theorem C27_set_indent : setWithOptions exEnv.ord b!"<a/>" b!"a.b.c.@k" (.str b!"v") (some { defaultOptions with indent := b!"<z x=\"'''''''''''''''''''''''''''''''''\"/>" }) = .panic := by decide +kernel

end Verif.Props
