import Verif.Lemmas.FreshEdit
import Verif.Props.Fresh
import Verif.Props.TripOptions
import Verif.Props.Place
/- C75: Set and Delete when maps are iterated in a new order at every loop, as Go does. -/
namespace Verif.Props
open Spec

/-- C75: with the same order at every visit, these are the functions the other theorems are about. -/
theorem C75_same_delete (o : Ord) (xml path : Bytes) (opts : Option Options) : deleteWithOptionsF (fun _ => o) xml path opts = deleteWithOptions o xml path opts := by
  have h := fun cs ss => deleteElement_fresh o cs xml ss
  unfold deleteWithOptionsF deleteWithOptions
  simp only [show (fun _ => o) = Visits.const o from rfl, h]
  rcases parsePathWithOptions path (effOpts opts).caseSensitive with _ | _ | (_ | ⟨s, ss⟩) <;> rfl

/-- C75: the same for Set. -/
theorem C75_same_set (o : Ord) (xml path : Bytes) (value : GoVal) (opts : Option Options) :
    setWithOptionsF (fun _ => o) xml path value opts = setWithOptions o xml path value opts := by
  have h := fun cs ind ss => setElement_fresh o cs ind xml ss value
  unfold setWithOptionsF setWithOptions
  rw [C75_same_delete]
  simp only [show (fun _ => o) = Visits.const o from rfl, h]
  rcases parsePathWithOptions path (effOpts opts).caseSensitive with _ | _ | (_ | ⟨s, ss⟩) <;> rfl

/-- C75: Delete returns the same bytes and the same error in any two runs, at every path and with all options, however the orders of map iterations change
from loop to loop within a run. -/
theorem C75_delete (os1 os2 : Visits) (p1 : os1.IsPerm) (p2 : os2.IsPerm) (f : Forest) (h : Sound f) (path : Bytes) (opts : Option Options) :
    deleteWithOptionsF os1 f.render path opts = deleteWithOptionsF os2 f.render path opts := by
  have hd := fun cs ss => deleteElementF_same (⟨p1, p2⟩ : Wides os1 os2) h cs ss
  unfold deleteWithOptionsF
  simp only [hd]

/-- C75: so what the theorems about Delete say holds for every run. -/
theorem C75_delete_one (os : Visits) (p : os.IsPerm) (o : Ord) (po : o.IsPerm) (f : Forest) (h : Sound f) (path : Bytes) (opts : Option Options) :
    deleteWithOptionsF os f.render path opts = deleteWithOptions o f.render path opts := by
  rw [← C75_same_delete]
  exact C75_delete os _ p (fun _ => po) f h path opts

theorem no_attr {path : Bytes} (h : c!"@" ∉ path) {cs : Bool} {ss : List Seg} (hp : parsePathWithOptions path cs = .ok ss) : ∀ s ∈ ss, ∀ a, s.kind ≠ .attr a := by
  intro s hs a hk
  obtain ⟨p, hpm, hh⟩ := parseOpt_attr hp hs hk
  exact h (splitPath_mem hpm (List.mem_of_head? hh))

/-- C75: two runs of Set at a path without `@` end alike: the same error, or documents that are the same or differ in the order of the attributes of one start tag. -/
theorem C75_set (os1 os2 : Visits) (p1 : os1.IsPerm) (p2 : os2.IsPerm) (f : Forest) (h : Sound f) (path : Bytes) (hp : c!"@" ∉ path) (value : GoVal) (opts : Option Options) :
    SameEdit (setWithOptionsF os1 f.render path value opts) (setWithOptionsF os2 f.render path value opts) := by
  unfold setWithOptionsF
  rw [C75_delete os1 os2 p1 p2 f h]
  have hr : ∀ x : SetRes, SameEdit x x := fun x => by cases x with | panic => exact .panic | ret q => exact .ret _ (.same _)
  split
  · exact hr _
  · split
    · exact hr _
    · split
      · exact hr _
      · cases hpp : parsePathWithOptions path (effOpts opts).caseSensitive with
        | panic => exact hr _
        | err => exact hr _
        | ok ss =>
          cases ss with
          | nil => exact hr _
          | cons s ss => exact (setElementF_spot h _ _ _ value (no_attr hp hpp)).edit f.render ⟨p1, p2⟩

/-- C75: every run of Set at a path without `@` is a run with one order, so what the theorems about Set say holds for every run. -/
theorem C75_set_one (os : Visits) (p : os.IsPerm) (f : Forest) (h : Sound f) (path : Bytes) (hp : c!"@" ∉ path) (value : GoVal) (opts : Option Options) :
    ∃ o : Ord, o.IsPerm ∧ setWithOptionsF os f.render path value opts = setWithOptions o f.render path value opts := by
  have hid : Ord.IsPerm fun _ as => as := fun _ _ => .refl _
  by_cases hpp : ∃ s ss, parsePathWithOptions path (effOpts opts).caseSensitive = .ok (s :: ss)
  · obtain ⟨s, ss, hpp⟩ := hpp
    obtain ⟨o, ho, he⟩ := (setElementF_spot h (effOpts opts).caseSensitive (effOpts opts).indent (s :: ss) value (no_attr hp hpp)).one p
    refine ⟨o, ho, ?_⟩
    rw [← C75_same_set]
    unfold setWithOptionsF
    rw [C75_delete os _ p (fun _ => ho) f h, hpp]
    simp only [he]
    rfl
  · refine ⟨fun _ as => as, hid, ?_⟩
    rw [← C75_same_set]
    unfold setWithOptionsF
    rw [C75_delete os _ p (fun _ => hid) f h]
    cases hq : parsePathWithOptions path (effOpts opts).caseSensitive with
    | panic => rfl
    | err => rfl
    | ok ss =>
      cases ss with
      | nil => rfl
      | cons s ss => exact absurd ⟨s, ss, hq⟩ hpp

/-- C75: the same at an attribute of an element named by its path, be the element there or not. -/
theorem C75_set_attr (os : Visits) (p : os.IsPerm) (f : Forest) (h : Editable f) (ns : List Bytes) (n : Bytes) (hn : ∀ m ∈ ns ++ [n], IsName m) (hl : ns.length < 99)
    (k : Bytes) (hk : c!"|" ∉ k) (value : GoVal) (opts : Options) (hi : c!"<" ∉ opts.indent) :
    ∃ o : Ord, o.IsPerm ∧ setWithOptionsF os f.render (pathOf (ns ++ [n] ++ [c!"@" :: k])) value (some opts) =
      setWithOptions o f.render (pathOf (ns ++ [n] ++ [c!"@" :: k])) value (some opts) := by
  have hS : Sound f := ⟨h.1, h.2.1, h.2.2.1, h.2.2.2.1⟩
  have hne : firsts (ns ++ [n]) ≠ [] := by simp [firsts]
  have hpr := parseOpt_low opts.caseSensitive (parsePath_names (ns ++ [n]) [c!"@" :: k] (fun m hm => name_plain (hn m hm)) (by simp) (by simp; omega) _ (parseParts_attr hk))
  have hp0 := parseOpt_low opts.caseSensitive (parsePath_names (ns ++ [n]) [] (fun m hm => name_plain (hn m hm)) (by simp) (by simp; omega) [] rfl)
  have hss := stepSegs_low (cs := opts.caseSensitive) (stepSegs_names (ns ++ [n]))
  rw [lowSegs_append] at hpr hp0
  revert hpr hp0 hss
  generalize lowSegs opts.caseSensitive ((ns ++ [n]).map nameSeg) = ss
  intro hpr hp0 hss
  simp only [fuseFields, List.append_nil, lowSegs_nil, lowSegs_attr] at hpr hp0
  have hind : ∀ k, indexIntent (ss ++ [⟨.attr k, []⟩]) = none := fun k => by rw [indexIntent_steps hss]; rfl
  have key : ∀ k, ∃ o : Ord, o.IsPerm ∧ setElementF os opts.caseSensitive opts.indent f.render (ss ++ [⟨.attr k, []⟩]) value =
      setElementF (Visits.const o) opts.caseSensitive opts.indent f.render (ss ++ [⟨.attr k, []⟩]) value := by
    intro k
    refine setElementF_attr hS opts.caseSensitive opts.indent _ value (last := ⟨.attr k, []⟩) (a := k) (by simp) rfl (hind k) ?_ p
    intro o ho hloc r hr hlen
    rw [List.dropLast_concat] at hloc hr
    have hd := docMax
    have hmiss : ∀ c e, f = c.plug (El.cons e .nil) → LeadsBy opts.caseSensitive (firsts (ns ++ [n])) c e.name → e.body ≠ none := by
      rintro c e rfl hL
      obtain ⟨l, hl2, -⟩ := editable_findLocB ho hss (leadsBy_low hL) h
      rw [hl2] at hloc
      simp at hloc
    obtain ⟨c, x, e, hL, he, hset⟩ := set_namesB opts hi o ho f h ns n hn (by omega) hmiss
    obtain ⟨h1, h2⟩ := hset (.str []) [] (by simp) rfl (by decide)
    rw [set_entryB h hp0 (stepSegs_ne hss (lowSteps_ne hne)) _ (by simp), setElement_stepsB hss (lowSteps_ne hne) (v := .str []) (w := []) rfl (by decide) h.1, hloc] at h1
    simp only at h1
    rw [hr] at h1
    simp only [finish, Outcome.ret.injEq, Prod.mk.injEq, and_true] at h1
    rw [h1] at hlen ⊢
    have hed := h2 (by simp) (by omega)
    exact ⟨_, ⟨hed.1, hed.2.1, hed.2.2.1, hed.2.2.2.1⟩, rfl⟩
  have fin : ∀ o : Ord, o.IsPerm → ∀ q, parsePathWithOptions (pathOf (ns ++ [n] ++ [c!"@" :: k])) opts.caseSensitive = .ok q →
      setElementF os opts.caseSensitive opts.indent f.render q value = setElementF (Visits.const o) opts.caseSensitive opts.indent f.render q value →
      setWithOptionsF os f.render (pathOf (ns ++ [n] ++ [c!"@" :: k])) value (some opts) = setWithOptions o f.render (pathOf (ns ++ [n] ++ [c!"@" :: k])) value (some opts) := by
    intro o ho q hq he
    rw [← C75_same_set]
    unfold setWithOptionsF
    rw [C75_delete os _ p (fun _ => ho) f hS]
    simp only [effOpts, Option.getD_some]
    rw [hq]
    cases q with
    | nil => rfl
    | cons s q => simp only [he]; rfl
  obtain ⟨o, ho, he⟩ := key (spelling opts.caseSensitive k)
  exact ⟨o, ho, fin o ho _ hpr he⟩

/-- C75: Set on the empty document, which has no map to iterate. -/
theorem C75_set_empty (os1 os2 : Visits) (path : Bytes) (hp : c!"@" ∉ path) (value : GoVal) (opts : Option Options) :
    setWithOptionsF os1 [] path value opts = setWithOptionsF os2 [] path value opts := by
  have hfind : ∀ cs ss (os : Visits) base, findLocF cs ss os [] base = none := by
    intro cs ss os base
    cases ss with
    | nil => rw [findLocF]
    | cons cur rest =>
      rw [findLocF, topElems_nil]
      simp only [List.filter_nil, List.head?_nil, List.getElem?_nil]
      split
      · rfl
      · cases rest with
        | nil => rfl
        | cons nxt r => simp only; cases nxt.kind <;> simp
  have hcr : ∀ cs ind ss v (os : Visits), createElementF os cs ind [] ss v = .ok (buildElementPath ind ss v) := fun _ _ _ _ _ => rfl
  have hap : ∀ cs ind ss v (os : Visits), appendElementF os cs ind [] ss v = appendElementF os2 cs ind [] ss v := by
    intro cs ind ss v os
    unfold appendElementF
    simp only [hfind, hcr]
    cases ss.getLast? with
    | none => rfl
    | some s => simp only; cases s.kind <;> rfl
  have hdel : deleteWithOptionsF os1 [] path opts = deleteWithOptionsF os2 [] path opts := by
    unfold deleteWithOptionsF deleteElementF
    simp only [hfind]
  unfold setWithOptionsF
  rw [hdel]
  cases hpp : parsePathWithOptions path (effOpts opts).caseSensitive with
  | panic => rfl
  | err => rfl
  | ok ss =>
    cases ss with
    | nil => rfl
    | cons s ss =>
      have hna := no_attr hp hpp
      have : ∀ cs ind, setElementF os1 cs ind [] (s :: ss) value = setElementF os2 cs ind [] (s :: ss) value := by
        intro cs ind
        unfold setElementF
        simp only [hfind, hcr, hap _ _ _ _ (os1.at 0), hap _ _ _ _ (os2.at 0)]
        cases hl : (s :: ss).getLast? with
        | none => rfl
        | some last =>
          cases hk : last.kind with
          | attr a => exact absurd hk (hna last (List.mem_of_getLast? hl) a)
          | _ => simp only [hk]
      simp only [this]

/-- A run that iterates the attributes of the element it opens in another order than those it reads. -/
def exOpen : Visits := fun l => if l = [2, 2] then revOrd else fun _ a => a

theorem exOpen_perm : exOpen.IsPerm := fun l => by
  unfold exOpen
  split
  · exact revOrd_perm
  · exact exEnv_perm

/-- C75: two runs of Set do differ in the order of the attributes of the element that is opened. -/
theorem C75_opened : setWithOptionsF exOpen b!"<r><c x=\"1\" y='2'/></r>" b!"r.c.d" (.str b!"v") none = .ret (b!"<r><c y=\"2\" x=\"1\"><d>v</d></c></r>", none) ∧
    setWithOptionsF (fun _ _ a => a) b!"<r><c x=\"1\" y='2'/></r>" b!"r.c.d" (.str b!"v") none = .ret (b!"<r><c x=\"1\" y=\"2\"><d>v</d></c></r>", none) := by decide +kernel

example (path : Bytes) (hp : c!"@" ∉ path) (v : GoVal) (opts : Option Options) :
    SameEdit (setWithOptionsF exOpen (exCtx.plug (exEl.cons .nil)).render path v opts) (setWithOptionsF exFresh (exCtx.plug (exEl.cons .nil)).render path v opts) :=
  C75_set _ _ exOpen_perm exFresh_perm _ ⟨exEdit.1, exEdit.2.1, exEdit.2.2.1, exEdit.2.2.2.1⟩ path hp v opts

/-- C75: a run with new orders at an attribute of an element that is made below an element that is opened. -/
example : ∃ o : Ord, o.IsPerm ∧ setWithOptionsF exOpen (exCtx.plug (exEl.cons .nil)).render (pathOf ([b!"r", b!"c"] ++ [b!"d"] ++ [c!"@" :: b!"k"])) (.str b!"v") (some defaultOptions) =
    setWithOptions o (exCtx.plug (exEl.cons .nil)).render (pathOf ([b!"r", b!"c"] ++ [b!"d"] ++ [c!"@" :: b!"k"])) (.str b!"v") (some defaultOptions) :=
  C75_set_attr _ exOpen_perm _ exEdit _ _ (by decide) (by decide) _ (by decide) _ _ (by decide)

example : setWithOptionsF exOpen b!"<r><c x=\"1\" y='2'/></r>" b!"r.c.d.@k" (.str b!"v") none = .ret (b!"<r><c x=\"1\" y=\"2\"><d k=\"v\"></d></c></r>", none) := by decide +kernel

end Verif.Props
