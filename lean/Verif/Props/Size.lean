import Verif.Lemmas.SizeQuery
import Verif.Props.Query
/- C56: how large the answers of a query can be. -/
namespace Verif.Props
open Spec

/-- The bound on every single result of a query. -/
def room (xml : Bytes) (parts : List Bytes) : Nat := 6 * xml.length + pathLevels parts * (13 * xml.count c!"=" + 4)

theorem sized_of_arr {r : Result} {n : Nat} {xml : Bytes} {parts : List Bytes} (h : Arr (bnd n xml) r) (hm : n ≤ pathLevels parts) :
    ∀ x ∈ r.array, x.raw.length ≤ room xml parts ∧ x.toStr.length ≤ room xml parts := by
  intro x hx
  obtain ⟨h1, h2, h3⟩ := h x hx
  have h4 := bnd_mono hm xml
  have h5 := wt_le xml
  have h6 : bnd (pathLevels parts) xml = wt xml + pathLevels parts * (13 * xml.count c!"=" + 4) := rfl
  have h7 : x.toStr = x.str := by
    obtain ⟨t, w, s, f, l⟩ := x
    obtain ⟨ha, hn⟩ := h1
    simp only [Result.typ] at ha hn
    rw [Result.toStr, if_neg hn, if_neg ha]; rfl
  rw [h7]
  unfold room
  omega

/-- C56: on any byte string, well-formed or not, `Raw` and `String()` of every result have at most six times the length of the document,
plus for every level the path can go down 13 bytes per `=` in the document and 4. -/
theorem C56_get (env : Env) (ho : env.ord.IsPerm) (xml : Bytes) (parts : List Bytes) (hb : ∀ p ∈ parts, c!"|" ∉ p) (r : Result)
    (h : get env xml (pathOf parts) = .ret r) : ∀ x ∈ r.array, x.raw.length ≤ room xml parts ∧ x.toStr.length ≤ room xml parts := by
  unfold get at h
  split at h
  · simp only [Outcome.ret.injEq] at h; subst h; exact sized_of_arr (arr_null (B := bnd 0 xml)) (by omega)
  · cases hp : parsePath (pathOf parts) with
    | panic => rw [hp] at h; simp at h
    | err => rw [hp] at h; simp only [Outcome.ret.injEq] at h; subst h; exact sized_of_arr (arr_null (B := bnd 0 xml)) (by omega)
    | ok ss =>
      have h1 := (parsePath_forms hb hp).1
      rw [hp] at h
      cases ss with
      | nil => simp only [Outcome.ret.injEq] at h; subst h; exact sized_of_arr (arr_null (B := bnd 0 xml)) (by omega)
      | cons s ss =>
        simp only [Outcome.ret.injEq, executeQuery] at h
        subst h
        exact sized_of_arr (execQ_arr ho (s :: ss) h1 true xml) (parsePath_levels hb hp)

/-- C56: the same under any options. -/
theorem C56_options (env : Env) (ho : env.ord.IsPerm) (xml : Bytes) (parts : List Bytes) (hb : ∀ p ∈ parts, c!"|" ∉ p) (opts : Option Options) (r : Result)
    (h : getWithOptions env xml (pathOf parts) opts = .ret r) : ∀ x ∈ r.array, x.raw.length ≤ room xml parts ∧ x.toStr.length ≤ room xml parts := by
  have hnull : ∀ x ∈ Result.null.array, x.raw.length ≤ room xml parts ∧ x.toStr.length ≤ room xml parts := sized_of_arr (arr_null (B := bnd 0 xml)) (by omega)
  unfold getWithOptions at h
  split at h
  · simp only [Outcome.ret.injEq] at h; subst h; exact hnull
  · split at h
    · cases hp : parsePath (pathOf parts) with
      | panic => rw [hp] at h; simp at h
      | err => rw [hp] at h; simp only [Outcome.ret.injEq] at h; subst h; exact hnull
      | ok ss =>
        have h1 := (parsePath_forms hb hp).1
        rw [hp] at h
        cases ss with
        | nil => simp only [Outcome.ret.injEq] at h; subst h; exact hnull
        | cons s ss =>
          simp only [Outcome.ret.injEq, executeQuery] at h
          subst h
          exact sized_of_arr (execQ_arr ho (s :: ss) h1 true xml) (parsePath_levels hb hp)
    · simp only at h
      cases hp : parsePathWithOptions (pathOf parts) (opts.getD defaultOptions).caseSensitive with
      | panic => rw [hp] at h; simp at h
      | err => rw [hp] at h; simp only [Outcome.ret.injEq] at h; subst h; exact hnull
      | ok ss =>
        have h2 := parsePathWithOptions_levels hb hp
        have h1 : ∀ s ∈ ss, s.mods = [] := by
          unfold parsePathWithOptions at hp
          split at hp
          · rename_i hq
            have hf := (parsePath_forms hb hq).1
            split at hp
            · simp only [Parse.ok.injEq] at hp; subst hp; exact hf
            · simp only [Parse.ok.injEq] at hp; subst hp
              intro s hs
              obtain ⟨t, ht, rfl⟩ := List.mem_map.mp hs
              rw [lowerSeg_mods]; exact hf t ht
          · simp at hp
          · simp at hp
        rw [hp] at h
        cases ss with
        | nil => simp only [Outcome.ret.injEq] at h; subst h; exact hnull
        | cons s ss =>
          simp only [Outcome.ret.injEq] at h
          subst h
          exact sized_of_arr (execQOpt_arr ho (s :: ss) h1 true xml) h2

/-- C56: no path goes down more than 10100 levels, so no result is ever larger than this multiple of the document. -/
theorem C56_any (env : Env) (ho : env.ord.IsPerm) (xml : Bytes) (parts : List Bytes) (hb : ∀ p ∈ parts, c!"|" ∉ p) (r : Result)
    (h : get env xml (pathOf parts) = .ret r) : ∀ x ∈ r.array, x.raw.length ≤ 6 * xml.length + 10100 * (13 * xml.count c!"=" + 4) ∧
      x.toStr.length ≤ 6 * xml.length + 10100 * (13 * xml.count c!"=" + 4) := by
  by_cases hl : parts.length > 100
  · have hp : parts ≠ [[]] := by rintro rfl; simp at hl
    have : parsePath (pathOf parts) = .err := by
      unfold parsePath
      split
      · rfl
      · unfold parsePathInternal
        rw [splitPath_pathOf parts hp]; exact if_pos hl
    unfold get at h
    rw [this] at h
    simp only [ite_self, Outcome.ret.injEq] at h
    subst h
    intro x hx; simp [Result.array, Result.null, Result.typ] at hx
  have hp : pathLevels parts ≤ 10100 := by
    have : ∀ ps : List Bytes, pathLevels ps ≤ 101 * ps.length := by
      intro ps
      induction ps with
      | nil => simp [pathLevels]
      | cons p ps ih =>
        have e : pathLevels (p :: ps) = partLevels p + pathLevels ps := by simp [pathLevels]
        have : partLevels p ≤ 101 := by unfold partLevels; split <;> omega
        rw [e, List.length_cons]; omega
    have := this parts; omega
  intro x hx
  have h1 := C56_get env ho xml parts hb r h x hx
  have h2 := Nat.mul_le_mul_right (13 * xml.count c!"=" + 4) hp
  unfold room at h1
  omega

/-- The first result of a query. -/
def firstOf : Outcome Result → Option (Bytes × Bytes)
  | .ret r => r.array.head?.map fun x => (x.raw, x.toStr)
  | .panic => none

/-- C56: entities declared by a document are not expanded, however often they refer to each other. -/
theorem C56_entity : firstOf (get exEnv (b!"<!DOCTYPE r [<!ENTITY a \"&b;&b;&b;\"><!ENTITY b SYSTEM \"file:///etc/passwd\">]>" ++ b!"<r>&a;&amp;a;</r>") b!"r") =
    some (b!"&a;&amp;a;", b!"&a;&a;") := by decide +kernel

/-- C56: `Raw` can be longer than the document, because attribute values are written anew. -/
theorem C56_longer : firstOf (get exEnv b!"<a><b x=\"''''''''\"/></a>" b!"a") = some (b!"<b x=\"&apos;&apos;&apos;&apos;&apos;&apos;&apos;&apos;\"/>", []) ∧
    (b!"<a><b x=\"''''''''\"/></a>").length < (b!"<b x=\"&apos;&apos;&apos;&apos;&apos;&apos;&apos;&apos;\"/>").length := by decide +kernel

/-- The bound for that document of 24 bytes, which has one `=`, and a path of one part. -/
example (r : Result) (h : get exEnv b!"<a><b x=\"''''''''\"/></a>" b!"a" = .ret r) : ∀ x ∈ r.array, x.raw.length ≤ 161 := fun x hx =>
  Nat.le_trans (C56_get exEnv exEnv_perm _ [b!"a"] (by decide) r h x hx).1 (by decide +kernel)

end Verif.Props
