import Verif.Model.Result
/- Projections of constructed results. -/
namespace Verif.Result

@[simp] theorem typ_mk (t : RType) (r s : Bytes) (n : FVal) (l : List Result) : (mk t r s n l).typ = t := rfl
@[simp] theorem raw_mk (t : RType) (r s : Bytes) (n : FVal) (l : List Result) : (mk t r s n l).raw = r := rfl
@[simp] theorem str_mk (t : RType) (r s : Bytes) (n : FVal) (l : List Result) : (mk t r s n l).str = s := rfl
@[simp] theorem num_mk (t : RType) (r s : Bytes) (n : FVal) (l : List Result) : (mk t r s n l).num = n := rfl
@[simp] theorem results_mk (t : RType) (r s : Bytes) (n : FVal) (l : List Result) : (mk t r s n l).results = l := rfl
@[simp] theorem typ_null : null.typ = .null := rfl
@[simp] theorem typ_ofArray (l : List Result) : (ofArray l).typ = .array := rfl
@[simp] theorem results_ofArray (l : List Result) : (ofArray l).results = l := rfl
@[simp] theorem typ_ofContent (b : Bytes) : (ofContent b).typ = .element := rfl
@[simp] theorem raw_ofContent (b : Bytes) : (ofContent b).raw = b := rfl
@[simp] theorem typ_ofAttr (b : Bytes) : (ofAttr b).typ = .attribute := rfl
@[simp] theorem typ_ofText (b : Bytes) : (ofText b).typ = .string := rfl
@[simp] theorem typ_ofCount (n : Nat) : (ofCount n).typ = .number := rfl
@[simp] theorem array_ofArray (l : List Result) : (ofArray l).array = l := by simp [array]
@[simp] theorem array_null : null.array = [] := by simp [array]
@[simp] theorem exists_null : null.exists? = false := by simp [exists?]
@[simp] theorem exists_ofArray (l : List Result) : (ofArray l).exists? = true := by simp [exists?]
@[simp] theorem isArray_ofArray (l : List Result) : (ofArray l).isArray = true := by simp [isArray]
@[simp] theorem str_ofAttr (b : Bytes) : (ofAttr b).str = b := rfl
@[simp] theorem isArray_iff (r : Result) : r.isArray = true ↔ r.typ = .array := by simp [isArray]
@[simp] theorem exists_iff (r : Result) : r.exists? = true ↔ r.typ ≠ .null := by simp [exists?]
theorem toStr_ne (r : Result) (h1 : r.typ ≠ .null) (h2 : r.typ ≠ .array) : r.toStr = r.str := by
  obtain ⟨t, raw, s, n, l⟩ := r
  simp only [typ_mk] at h1 h2
  simp [toStr, h1, h2]

end Verif.Result
