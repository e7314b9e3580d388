import Verif.Props.Unlimited
import Verif.Props.Query
/- C85: the calls counted one by one for a small document and each kind of step, so that the count is not only bounded but the number that the code makes. -/
namespace Verif.Props
open Verif.Spec

def exTree : Bytes := b!"<r><a><b>1</b></a><a><b>2</b><b><c>3</c></b></a><e/></r>"
def exRoots : Bytes := b!"<a><b>1</b></a><a><b>2</b></a><a><b>3</b></a>"

/-- Names: a call for each step and each element tried; `r.a.b.c` tries both `a` and three `b`. -/
theorem C85_counts_names : [b!"r", b!"r.a", b!"r.a.b", b!"r.a.b.c", b!"r.a.@k", b!"r.a.%", b!"R.A.B", b!"r.a.#", b!"r.a.#.b", b!""].map (getW exEnv exTree) =
    [1, 2, 3, 7, 2, 2, 1, 2, 2, 0] := by decide +kernel

/-- `*`: a call for each of the three children, none for attributes and texts. -/
theorem C85_counts_wildcard : [b!"r.*", b!"r.*.b", b!"r.*.b.c", b!"r.*.@k", b!"r.*.%"].map (getW exEnv exTree) = [2, 5, 8, 2, 2] := by decide +kernel

/-- `**`: a call for each element with content, and one for each match that a further step follows. -/
theorem C85_counts_search : [b!"r.**", b!"r.**.b", b!"r.**.b.c", b!"r.**.b.%", b!"r.**.b.@k", b!"r.**.a.#.b", b!"r.**.**.c"].map (getW exEnv exTree) =
    [2, 9, 12, 9, 9, 9, 16] := by decide +kernel

/-- Positions: one call for what follows, none where there is no such element. -/
theorem C85_counts_position : [b!"r.a.1", b!"r.a.1.b", b!"r.a.1.b.1.c", b!"r.a.1.%", b!"r.a.1.@k", b!"r.a.7.b", b!"r.a.-1.b"].map (getW exEnv exTree) = [2, 3, 4, 3, 2, 2, 2] ∧
    [b!"a.1", b!"a.1.b", b!"a.1.%", b!"a.1.@k", b!"a.5.b", b!"A.1.B"].map (getW exEnv exRoots) = [1, 2, 1, 1, 1, 1] := by decide +kernel

/-- Conditions: one call and more for each element tested, whether one element or all are asked for, none for a condition on an attribute. -/
theorem C85_counts_filter : [b!"r.a.#(b==2)", b!"r.a.#(b==2).b", b!"r.a.#(b)#.b", b!"r.a.#(b)#.b.c", b!"r.a.#(b)#.%", b!"r.a.#(b)#.@k", b!"r.a.#(b)#.#.b", b!"r.a.#(@k==1)#.b",
      b!"r.*.#(c).c", b!"r.*.#(@k).c", b!"r.a.#(#(c))#.b"].map (getW exEnv exTree) = [4, 5, 6, 9, 4, 4, 4, 2, 9, 5, 8] ∧
    [b!"#(b==2).b", b!"#(b)#.b", b!"#(b).b", b!"a.#(b).b"].map (getW exEnv exRoots) = [5, 7, 5, 5] := by decide +kernel

def exCi : Option Options := some ⟨false, [], false, none⟩

/-- The same with options that do not distinguish upper and lower case. -/
theorem C85_counts_options : [b!"R.A", b!"R.A.B", b!"R.A.B.C", b!"R.A.@K", b!"R.*.B", b!"R.*.B.C", b!"R.**.B", b!"R.**.B.C", b!"R.**.B.%", b!"R.**.A.#.B", b!"R.**.**.C", b!"R.A.1.B", b!"R.A.1.%",
      b!"R.A.#", b!"R.A.#(b==2).B", b!"R.A.#(b)#.B", b!"R.A.#(b)#.#.B", b!"R.*.#(c).C", b!""].map (fun p => getWithOptionsW exEnv exTree p exCi) =
      [2, 3, 7, 2, 5, 8, 9, 12, 9, 11, 16, 3, 3, 2, 5, 6, 4, 9, 0] ∧
    [b!"A.1.B", b!"A.1.%", b!"a.1.%", b!"#(b)#.B"].map (fun p => getWithOptionsW exEnv exRoots p exCi) = [2, 2, 2, 7] ∧
    [b!"a.1.%", b!"a.1.b", b!"A.1.B", b!"*.b"].map (fun p => getWithOptionsW exEnv exRoots p (some ⟨true, b!" ", false, none⟩)) = [1, 2, 1, 4] ∧
    [b!"a.1.%", b!"a.1.b", b!"A.1.B", b!"**.b"].map (fun p => getWithOptionsW exEnv exRoots p none) = [1, 2, 1, 8] := by decide +kernel

end Verif.Props
