import Verif.Lemmas.FreshSame
import Verif.Props.Order
/- C32 and C47 when maps are iterated in a new order at every loop, as Go does: the orders of two runs may differ from each other and from visit to visit. -/
namespace Verif.Props
open Spec

/-- C47: two documents that say the same get the same answer to every path, up to `Raw`, in any two runs, however the orders of map iterations change
from loop to loop within a run. -/
theorem C47_get_fresh (os1 os2 : Visits) (p1 : os1.IsPerm) (p2 : os2.IsPerm) (mods : Bytes → Option (Result → Result)) (hm : ∀ n m, mods n = some m → RawBlind m)
    (pf : Bytes → Option FVal) (xml1 xml2 : Bytes) (i : Info) (h1 : Says xml1 i) (h2 : Says xml2 i) (path : Bytes) :
    SameOutcome (getF os1 mods pf xml1 path) (getF os2 mods pf xml2 path) := by
  have hw : Wides os1 os2 := ⟨p1, p2⟩
  have hr : RA os1.here os2.here xml1 xml2 := ⟨i, says_reads hw.p1 h1, says_reads hw.p2 h2⟩
  unfold getF
  rw [if_neg (by simpa [maxDocumentSize] using h1.1), if_neg (by simpa [maxDocumentSize] using h2.1)]
  split
  · exact .panic
  · exact .ret alike_null
  · exact .ret alike_null
  · exact .ret (executeQueryF_alike hm pf hw _ hr)

/-- C47, C32: the same for GetWithOptions. -/
theorem C47_getWithOptions_fresh (os1 os2 : Visits) (p1 : os1.IsPerm) (p2 : os2.IsPerm) (mods : Bytes → Option (Result → Result)) (hm : ∀ n m, mods n = some m → RawBlind m)
    (pf : Bytes → Option FVal) (xml1 xml2 : Bytes) (i : Info) (h1 : Says xml1 i) (h2 : Says xml2 i) (path : Bytes) (opts : Option Options)
    (hu : (opts.getD defaultOptions).caseSensitive = false → i.CaseUnique) :
    SameOutcome (getWithOptionsF os1 mods pf xml1 path opts) (getWithOptionsF os2 mods pf xml2 path opts) := by
  have hw : Wides os1 os2 := ⟨p1, p2⟩
  have hr : RU (opts.getD defaultOptions).caseSensitive os1.here os2.here xml1 xml2 := ⟨i, says_reads hw.p1 h1, says_reads hw.p2 h2, hu⟩
  have hl1 : ¬ xml1.length > maxDocumentSize := by simpa [maxDocumentSize] using h1.1
  have hl2 : ¬ xml2.length > maxDocumentSize := by simpa [maxDocumentSize] using h2.1
  simp only [getWithOptionsF, if_neg hl1, if_neg hl2]
  split
  · split
    · exact .panic
    · exact .ret alike_null
    · exact .ret alike_null
    · exact .ret (executeQueryF_alike hm pf hw _ ⟨i, says_reads hw.p1 h1, says_reads hw.p2 h2⟩)
  · split
    · exact .panic
    · exact .ret alike_null
    · exact .ret alike_null
    · exact .ret (execQOptF_alike (ev1 := evalFilterF mods pf) (ev2 := evalFilterF mods pf) hm
        (fun _ _ hw f a b hab => evalFilterNF_alike hm pf (f.path.length + 1) _ _ hw f a b hab) _ true _ _ hw _ _ hr)

/-- C32: with the same order at every visit, these are the functions the other theorems are about. -/
theorem C32_fresh_same (o : Ord) (mods : Bytes → Option (Result → Result)) (pf : Bytes → Option FVal) (xml path : Bytes) :
    getF (fun _ => o) mods pf xml path = get ⟨o, mods, pf⟩ xml path := by
  have h := fun ss => executeQuery_same o mods pf ss xml
  unfold getF get
  split
  · rfl
  · simp only [show (fun _ => o) = Visits.const o from rfl, h]
    rcases parsePath path with _ | _ | (_ | ⟨s, ss⟩) <;> rfl

/-- C32: the same for GetWithOptions. -/
theorem C32_fresh_same_options (o : Ord) (mods : Bytes → Option (Result → Result)) (pf : Bytes → Option FVal) (xml path : Bytes) (opts : Option Options) :
    getWithOptionsF (fun _ => o) mods pf xml path opts = getWithOptions ⟨o, mods, pf⟩ xml path opts := by
  have h := fun ss => executeQuery_same o mods pf ss xml
  have h' := fun cs ss => execQOpt_same o mods pf (evalFilterF mods pf) cs ss true xml
  simp only [evalFilter_same] at h'
  unfold getWithOptionsF getWithOptions
  split
  · rfl
  · split
    · simp only [show (fun _ => o) = Visits.const o from rfl, h]
      rcases parsePath path with _ | _ | (_ | ⟨s, ss⟩) <;> rfl
    · simp only [show (fun _ => o) = Visits.const o from rfl, h']
      rcases parsePathWithOptions path _ with _ | _ | (_ | ⟨s, ss⟩) <;> rfl

/-- C32: on a document of the class, what the theorems about `get` say holds for every run, up to `Raw`: a run with new orders at every loop answers like a run
with any one order. -/
theorem C32_fresh (os : Visits) (p : os.IsPerm) (o : Ord) (po : o.IsPerm) (mods : Bytes → Option (Result → Result)) (hm : ∀ n m, mods n = some m → RawBlind m)
    (pf : Bytes → Option FVal) (xml : Bytes) (i : Info) (h : Says xml i) (path : Bytes) :
    SameOutcome (getF os mods pf xml path) (get ⟨o, mods, pf⟩ xml path) := by
  rw [← C32_fresh_same]
  exact C47_get_fresh os _ p (fun _ => po) mods hm pf xml xml i h h path

/-- C32: the same for GetWithOptions. -/
theorem C32_fresh_options (os : Visits) (p : os.IsPerm) (o : Ord) (po : o.IsPerm) (mods : Bytes → Option (Result → Result)) (hm : ∀ n m, mods n = some m → RawBlind m)
    (pf : Bytes → Option FVal) (xml : Bytes) (i : Info) (h : Says xml i) (path : Bytes) (opts : Option Options)
    (hu : (opts.getD defaultOptions).caseSensitive = false → i.CaseUnique) :
    SameOutcome (getWithOptionsF os mods pf xml path opts) (getWithOptions ⟨o, mods, pf⟩ xml path opts) := by
  rw [← C32_fresh_same_options]
  exact C47_getWithOptions_fresh os _ p (fun _ => po) mods hm pf xml xml i h h path opts hu

/-- A run: the orders as parsed, but reversed in a visit two calls deep whose element, with what follows it, is longer than 40 bytes. -/
def exFresh : Visits := fun l => if l.length = 4 && l.getLastD 0 > 40 then revOrd else fun _ a => a

theorem exFresh_perm : exFresh.IsPerm := fun l => by
  unfold exFresh
  split
  · exact revOrd_perm
  · exact exEnv_perm

def freshDoc : Bytes := b!"<r><a><b><c x='1' y='2'/></b></a><a><b><c x='1' y='2'/></b></a></r>"

/-- The contents of the two elements `a` are the same bytes, and their elements `b` are written back in different orders within one call. -/
theorem C32_fresh_raw : (match getF exFresh (fun _ => none) (fun _ => none) freshDoc b!"r.a.#.b" with | .ret r => r.results.map (·.raw) | .panic => []) =
    [b!"<c y=\"2\" x=\"1\"/>", b!"<c x=\"1\" y=\"2\"/>"] := by decide +kernel

example (path : Bytes) : SameOutcome (getF exFresh exMods (fun _ => none) twoWays1.render path) (get ⟨revOrd, exMods, fun _ => none⟩ twoWays1.render path) :=
  C32_fresh _ exFresh_perm _ revOrd_perm exMods exMods_blind _ _ _ (says_of _ (by decide +kernel)) path

end Verif.Props
