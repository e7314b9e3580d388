import Verif.Lemmas.Prolog
import Verif.Props.Query
/- C40: what stands in front of a document does not matter to queries. -/
namespace Verif.Props
open Spec

/-- C40: a prolog changes the answer of no query, on any document whatever. -/
theorem C40_get (env : Env) (p xml path : Bytes) (hp : Prolog p) (hl : (p ++ xml).length ≤ 10485760) : get env (p ++ xml) path = get env xml path := by
  have h := topElems_skip (o := env.ord) (skipToNext_prolog hp xml)
  have h1 : ¬ (p ++ xml).length > maxDocumentSize := by simp only [maxDocumentSize]; omega
  have h2 : ¬ xml.length > maxDocumentSize := by simp only [maxDocumentSize, List.length_append] at *; omega
  simp only [get, executeQuery, execQ_congr h, h1, h2]

/-- C40: nor does it with options. -/
theorem C40_get_options (env : Env) (p xml path : Bytes) (opts : Option Options) (hp : Prolog p) (hl : (p ++ xml).length ≤ 10485760) :
    getWithOptions env (p ++ xml) path opts = getWithOptions env xml path opts := by
  have h := topElems_skip (o := env.ord) (skipToNext_prolog hp xml)
  have h1 : ¬ (p ++ xml).length > maxDocumentSize := by simp only [maxDocumentSize]; omega
  have h2 : ¬ xml.length > maxDocumentSize := by simp only [maxDocumentSize, List.length_append] at *; omega
  simp only [getWithOptions, executeQuery, execQ_congr h, execQOpt_congr h, h1, h2]

/-- C40: nor for several queries at once. -/
theorem C40_get_many (env : Env) (p xml : Bytes) (paths : List Bytes) (hp : Prolog p) (hl : (p ++ xml).length ≤ 10485760) :
    getMany env (p ++ xml) paths = getMany env xml paths := by
  rw [getMany, show get env (p ++ xml) = get env xml from funext fun q => C40_get env p xml q hp hl]; rfl

/-- A prolog of a byte order mark, an XML declaration, a comment with markup inside, and a document type in mixed case with an internal subset. -/
theorem C40_example_prolog : Prolog (b!"﻿<?xml version=\"1.0\"?>\n<!-- <a>-- --><!DocType r [<!ENTITY x \"<b/>\">]>") := by
  have := Prolog.cons (.text b!"﻿" (by decide)) (.cons (.pi b!"xml version=\"1.0\"?" (by decide) (by decide)) (.cons (.text b!"\n" (by decide))
    (.cons (.comment b!" <a>-- " (by decide)) (.cons (.doctype b!"DocType r [<!ENTITY x \"<b/>\">]" (by decide) (by decide) ?_) .nil))))
  · exact this
  · intro p ⟨t, ht⟩
    have hm := congrArg List.length ht
    simp only [List.length_append, List.length_cons, List.length_nil] at hm
    have e : p = (b!"DocType r [<!ENTITY x \"<b/>\">]" : Bytes).take p.length := by
      rw [← ht, List.append_assoc, List.take_left']; rfl
    have e2 : (b!"DocType r [<!ENTITY x \"<b/>\">]" : Bytes)[p.length]? = some c!">" := by
      rw [← ht]; simp
    have hn : p.length < 31 := by omega
    rw [e]
    clear e hm ht
    generalize p.length = n at e2 hn
    revert e2
    revert hn
    revert n
    decide

example : get exEnv (b!"﻿<?xml version=\"1.0\"?>\n<!-- <a>-- --><!DocType r [<!ENTITY x \"<b/>\">]>" ++ b!"<r><a>1</a></r>") b!"r.a" =
    get exEnv b!"<r><a>1</a></r>" b!"r.a" := C40_get exEnv _ _ _ C40_example_prolog (by decide)
example : ∃ r, get exEnv b!"<r><a>1</a></r>" b!"r.a" = .ret r ∧ r.toStr = b!"1" := ⟨_, rfl, by decide +kernel⟩

/-- C40: a CDATA section in front is not skipped as a whole: tags inside it are found. -/
theorem C40_cdata : ∃ r, get exEnv b!"<![CDATA[<a>1</a>]]><a>2</a>" b!"a" = .ret r ∧ r.toStr = b!"1" := ⟨_, rfl, by decide +kernel⟩

/-- C40: nor is a processing instruction with a `>` inside. -/
theorem C40_pi_gt : ∃ r, get exEnv b!"<?x y=\"><a>1</a>\"?><a>2</a>" b!"a" = .ret r ∧ r.toStr = b!"1" := ⟨_, rfl, by decide +kernel⟩

end Verif.Props
