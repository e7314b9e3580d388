import Verif.Lemmas.Spare
import Verif.Props.Panic
/- C27: the capacity of the slices. `setWithOptionsS sp sp2` is SetWithOptions with `sp` behind the end of the document in memory, and `sp2` behind the end of the
intermediate document of builder.go:676; Go does not say how much there is (a conversion of a string to a slice rounds the size up). -/
namespace Verif.Props
open Verif Verif.Spec

/-- C27: Delete does the same whatever is behind the end of the document. -/
theorem C27_capacity_delete (o : Ord) (sp xml path : Bytes) (opts : Option Options) : deleteWithOptionsS sp o xml path opts = deleteWithOptions o xml path opts := by
  unfold deleteWithOptionsS deleteWithOptions
  split
  · rfl
  split
  · rfl
  cases parsePathWithOptions path (effOpts opts).caseSensitive with
  | panic => rfl
  | err => rfl
  | ok ss =>
    cases ss with
    | nil => rfl
    | cons s ss => simp only [deleteElement_spare]

/-- C27: if Set does not panic on a slice without spare capacity, it does the same on every other. -/
theorem C27_capacity (o : Ord) (sp sp2 xml path : Bytes) (v : GoVal) (opts : Option Options) (h : setWithOptions o xml path v opts ≠ .panic) :
    setWithOptionsS sp sp2 o xml path v opts = setWithOptions o xml path v opts := by
  unfold setWithOptionsS setWithOptions at *
  split
  · rfl
  rename_i h1
  rw [if_neg h1] at h
  split
  · rfl
  rename_i h2
  rw [if_neg h2] at h
  split
  · exact C27_capacity_delete o sp xml path opts
  rename_i h3
  rw [if_neg h3] at h
  cases hp : parsePathWithOptions path (effOpts opts).caseSensitive with
  | panic => rfl
  | err => rfl
  | ok ss =>
    cases ss with
    | nil => rfl
    | cons s ss =>
      rw [hp] at h
      simp only at h ⊢
      rw [setElement_spare sp sp2]
      intro e
      rw [e] at h
      exact h rfl

/-- C27: the same for a whole list of writes, with other slices in each of them. -/
theorem C27_capacity_many (o : Ord) (sps : Nat → Bytes × Bytes) (xml : Bytes) (paths : List Bytes) (values : List GoVal) (h : setMany o xml paths values ≠ .panic) :
    setManyS sps o xml paths values = setMany o xml paths values := by
  have key : ∀ (l : List (Bytes × GoVal)) (i : Nat) (cur : Bytes), setManyLoop o xml cur l ≠ .panic → setManyLoopS sps o xml i cur l = setManyLoop o xml cur l := by
    intro l
    induction l with
    | nil => intro i cur _; rfl
    | cons pv r ih =>
      intro i cur h
      obtain ⟨p, v⟩ := pv
      unfold setManyLoop at h
      unfold setManyLoopS setManyLoop
      rw [C27_capacity _ _ _ _ _ _ _ (by intro e; unfold set at h; rw [e] at h; exact h rfl)]
      rw [show setWithOptions o cur p v (some defaultOptions) = set o cur p v from rfl]
      cases hs : set o cur p v with
      | panic => rfl
      | ret q =>
        obtain ⟨next, e⟩ := q
        cases e with
        | some e => rfl
        | none => rw [hs] at h; exact ih (i + 1) next h
  unfold setManyS setMany at *
  split
  · rfl
  rename_i h1
  rw [if_neg h1] at h
  split
  · rfl
  rename_i h2
  rw [if_neg h2] at h
  exact key _ _ _ h

/-- C27: and for DeleteMany, always. -/
theorem C27_capacity_deleteMany (o : Ord) (sps : Nat → Bytes) (xml : Bytes) (paths : List Bytes) : deleteManyS sps o xml paths = deleteMany o xml paths := by
  have key : ∀ (l : List Bytes) (i : Nat) (cur : Bytes), deleteManyLoopS sps o xml i cur l = deleteManyLoop o xml cur l := by
    intro l
    induction l with
    | nil => intro i cur; rfl
    | cons p r ih =>
      intro i cur
      unfold deleteManyLoopS deleteManyLoop
      rw [C27_capacity_delete, show deleteWithOptions o cur p (some defaultOptions) = delete o cur p from rfl]
      cases delete o cur p with
      | panic => rfl
      | ret q =>
        obtain ⟨next, e⟩ := q
        cases e with
        | some e => rfl
        | none => exact ih (i + 1) next
  unfold deleteManyS deleteMany
  rw [key]

/-- C27: and for SetRaw. -/
theorem C27_capacity_raw (o : Ord) (sp sp2 xml path raw : Bytes) (h : setRaw o xml path raw ≠ .panic) : setRawS sp sp2 o xml path raw = setRaw o xml path raw := by
  unfold setRawS setRaw at *
  split
  · rename_i hv
    rw [if_pos hv] at h
    exact C27_capacity _ _ _ _ _ _ _ h
  · rfl

/-- With no spare capacity it is Set itself, also where that panics. -/
theorem C27_capacity_none (o : Ord) (xml path : Bytes) (v : GoVal) (opts : Option Options) : setWithOptionsS [] [] o xml path v opts = setWithOptions o xml path v opts := by
  have hs : ∀ d i j m, spliceS [] d i j m = splice d i j m := by
    intro d i j m
    have : sliceToS [] d i = sliceTo d i := by simp [sliceToS, sliceTo]
    unfold spliceS splice
    rw [this]
    rfl
  have hm : ∀ cs data l seg, findLastMatchS [] o cs data l seg = findLastMatch o cs data l seg := by
    intro cs data l seg
    have : sliceS [] data l.contentStart l.contentEnd = slice data l.contentStart l.contentEnd := by simp [sliceS, slice]
    unfold findLastMatchS findLastMatch
    rw [this]
    rfl
  have ha : ∀ cs indent data path v, appendElementS [] o cs indent data path v = appendElement o cs indent data path v := by
    intro cs indent data path v
    unfold appendElementS appendElement appendRootElementS appendRootElement
    simp only [hs, hm, createElement_spare]
    rfl
  have he : ∀ cs indent data path v, setElementS [] [] o cs indent data path v = setElement o cs indent data path v := by
    intro cs indent data path v
    unfold setElementS setElement replaceElementS replaceElement replaceAttributeS replaceAttribute
    simp only [hs, ha, createElement_spare, createElementForAttribute_spare]
    rfl
  unfold setWithOptionsS setWithOptions
  simp only [he, C27_capacity_delete]
  rfl

/-- C27: the panics of `C27_set_grows` and `C27_delete_grows` happen with every capacity. -/
theorem C27_capacity_grows (sp sp2 : Bytes) : setWithOptionsS sp sp2 exEnv.ord b!"<a><b x=\"''''''\"/><c/></a>" b!"a.c" (.str b!"v") (some defaultOptions) = .panic ∧
    deleteWithOptionsS sp exEnv.ord b!"<a><b x=\"''''''''''\"/><c/></a>" b!"a.c" (some defaultOptions) = .panic := by
  refine ⟨?_, ?_⟩
  · have h1 : setElementS sp sp2 exEnv.ord true [] b!"<a><b x=\"''''''\"/><c/></a>" [⟨.elem b!"a", []⟩, ⟨.elem b!"c", []⟩] (.str b!"v") = .panic := by
      have hf : (findLoc exEnv.ord true [⟨.elem b!"a", []⟩, ⟨.elem b!"c", []⟩] b!"<a><b x=\"''''''\"/><c/></a>" 0).map (fun l => (l.contentStart, l.contentEnd)) = some (52, 52) := by
        decide +kernel
      obtain ⟨l, hf, hl⟩ := Option.map_eq_some_iff.mp hf
      obtain ⟨e1, e2⟩ := Prod.mk.inj hl
      have hi : indexIntent [⟨.elem b!"a", []⟩, ⟨.elem b!"c", []⟩] = none := by decide
      unfold setElementS
      rw [hi]
      simp only [List.getLast?_cons_cons, List.getLast?_singleton]
      rw [hf]
      simp only [replaceElementS, e1, e2]
      simp only [splice_spare sp (Int.le_refl _)]
      decide +kernel
    unfold setWithOptionsS
    rw [if_neg (by decide), if_neg (by decide +kernel), if_neg (by decide)]
    rw [show parsePathWithOptions b!"a.c" (effOpts (some defaultOptions)).caseSensitive = .ok [⟨.elem b!"a", []⟩, ⟨.elem b!"c", []⟩] by decide +kernel]
    simp only
    rw [show setElementS sp sp2 exEnv.ord (effOpts (some defaultOptions)).caseSensitive (effOpts (some defaultOptions)).indent b!"<a><b x=\"''''''\"/><c/></a>" [⟨.elem b!"a", []⟩, ⟨.elem b!"c", []⟩] (.str b!"v") = .panic from h1]
    rfl
  · rw [C27_capacity_delete]
    exact C27_delete_grows.1

/-- C27: in others it depends on the capacity: here two more bytes behind the document, whatever they are, make the difference. -/
theorem C27_capacity_matters : set exEnv.ord b!"<a><b x=\"''\"/><c>0123456789<d/></c></a>" b!"a.c.d.-1" (.str b!"v") = .panic ∧
    setWithOptionsS [0] [] exEnv.ord b!"<a><b x=\"''\"/><c>0123456789<d/></c></a>" b!"a.c.d.-1" (.str b!"v") none = .panic ∧
    setWithOptionsS [0, 0] [] exEnv.ord b!"<a><b x=\"''\"/><c>0123456789<d/></c></a>" b!"a.c.d.-1" (.str b!"v") none =
      .ret (b!"<a><b x=\"''\"/><c>0123456789<d/><d>v</d></c></a>", none) := by decide +kernel

end Verif.Props
