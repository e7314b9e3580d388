import Verif.Lemmas.Grammar
import Verif.Lemmas.Fault
/- C02 and C03: the validator. -/
namespace Verif.Props
open Spec

/-- C02: `Valid` accepts exactly the documents of the grammar. -/
theorem C02_valid_iff_document (xml : Bytes) : valid xml = true ↔ Document xml :=
  valid_iff_document xml

/-- The forest of `<?p?><a x='1' y = "2"><!--c-->t<b/><c >u</c ></a>` is a document of the grammar. -/
example : Document b!"<?p?><a x='1' y = \"2\"><!--c-->t<b/><c >u</c ></a> " := by
  rw [← C02_valid_iff_document]; decide +kernel

/-- Not in the grammar: text outside the root, mismatched tags, unquoted attribute, no element at all. -/
example : ¬ Document b!"<a/>x" ∧ ¬ Document b!"<a><b></a></b>" ∧ ¬ Document b!"<a x=1/>" ∧ ¬ Document b!"<!--c-->" := by
  simp only [← C02_valid_iff_document]; decide +kernel

/-- The grammar is about trees: balanced elements, at whatever depth up to 100 and with whatever names. -/
theorem C02_nested (n : Bytes) (h : IsName n) (k : Nat) (hk : k < 100) (t : Bytes) (ht : c!"<" ∉ t)
    (hs : ((List.replicate (k + 1) (b!"<" ++ n ++ b!">")).flatten ++ t ++
      (List.replicate (k + 1) (b!"</" ++ n ++ b!">")).flatten).length ≤ 10485760) :
    valid ((List.replicate (k + 1) (b!"<" ++ n ++ b!">")).flatten ++ t ++
      (List.replicate (k + 1) (b!"</" ++ n ++ b!">")).flatten) = true := by
  rw [C02_valid_iff_document]
  refine ⟨hs, ?_⟩
  have key : ∀ j d : Nat, d + j < 100 → ∃ f : Forest, f.Legal d ∧ f.HasElem ∧
      f.render = (List.replicate (j + 1) (b!"<" ++ n ++ b!">")).flatten ++ t ++
        (List.replicate (j + 1) (b!"</" ++ n ++ b!">")).flatten := by
    intro j
    induction j with
    | zero =>
      intro d hd
      refine ⟨.node n [] [] (.text t .nil) [] .nil, ⟨h, ⟨by simp, by simp, by simp⟩, by simp, by omega, ⟨ht, by omega, trivial⟩, by simp, trivial⟩, trivial, ?_⟩
      simp [Forest.render, openTag, closeTag]
    | succ j ih =>
      intro d hd
      obtain ⟨f, h1, -, h3⟩ := ih (d + 1) (by omega)
      refine ⟨.node n [] [] f [] .nil, ⟨h, ⟨by simp, by simp, by simp⟩, by simp, by omega, h1, by simp, trivial⟩, trivial, ?_⟩
      rw [List.replicate_succ, List.replicate_succ' (n := j + 1)]
      simp only [Forest.render, openTag, closeTag, h3]
      simp
  exact key k 0 (by omega)

example : valid b!"<a><a><a>t</a></a></a>" = true :=
  C02_nested b!"a" ⟨⟨_, _, rfl, .inl (.inr (by decide))⟩, by intro c hc; simp at hc; subst hc; exact .inl (.inl (.inr (by decide))), by decide⟩
    2 (by decide) b!"t" (by decide) (by decide)

/-- C03: no error is reported exactly when `Valid` says yes. (The Go functions `Valid`, `ValidBytes`,
`ValidateWithError` and `ValidateBytesWithError` all run the same `validate`, validate.go:605-624.) -/
theorem C03_agree (xml : Bytes) : validate xml = none ↔ Document xml := by
  rw [← C02_valid_iff_document, valid, Option.isNone_iff_eq_none]

/-- C03: a reported position is a position of the document. -/
theorem C03_position (xml : Bytes) (e : VErr) (h : validate xml = some e) : IsPosition xml e.line e.col :=
  validate_isPosition xml e h

/-- C03: a text with a correct beginning `p` and a fault after it is reported at the place of the fault, with its
message. -/
theorem C03_report {s : List (Bytes × Bytes)} {b : Bool} {p r q m : Bytes} (hb : Begun s b p) (hf : Fault s b p r q m)
    (hl : (p ++ r).length ≤ 10485760) (hne : p ++ r ≠ []) : validate (p ++ r) = some ⟨lineAt q, colAt q, m⟩ :=
  fault_validate hb hf hl hne

/-- C03: there is no other report. Each one is about the size, or about an empty text, or there is a correct beginning
followed by a fault, and the report has the place and the message of the fault. -/
theorem C03_reported (xml : Bytes) (e : VErr) (h : validate xml = some e) :
    (xml.length > 10485760 ∧ e = ⟨1, 0, b!"document exceeds maximum size of 10485760 bytes"⟩) ∨
    (xml = [] ∧ e = ⟨1, 0, b!"empty document"⟩) ∨
    ∃ s b p r q, xml = p ++ r ∧ Begun s b p ∧ Fault s b p r q e.msg ∧ e.line = lineAt q ∧ e.col = colAt q := by
  by_cases hl : xml.length > 10485760
  · left
    refine ⟨hl, ?_⟩
    have hd : natDec maxDocumentSize = b!"10485760" := by decide +kernel
    unfold validate at h
    rw [if_pos (by simpa only [maxDocumentSize] using hl), hd] at h
    simpa using h.symm
  · by_cases hne : xml = []
    · right; left
      subst hne
      exact ⟨rfl, by simpa [validate] using h.symm⟩
    · right; right
      obtain ⟨s, b, p, r, q, m, h1, h2, h3, rfl⟩ := validate_fault h (by omega) hne
      exact ⟨s, b, p, r, q, h1, h2, h3, rfl, rfl⟩

/-- The closing tags of the open elements. -/
def closers (s : List (Bytes × Bytes)) : Bytes := s.flatMap fun x => closeTag x.1 []

theorem begun_close {s : List (Bytes × Bytes)} {b : Bool} {p : Bytes} (h : Begun s b p) :
    ∃ b', Begun [] b' (p ++ closers s) ∧ (b = true → b' = true) := by
  induction s generalizing b p with
  | nil => exact ⟨b, by simpa [closers] using h, id⟩
  | cons x s ih =>
    obtain ⟨b', h1, h2⟩ := ih (Begun.close (n := x.1) (q := x.2) (ws := []) h (by simp))
    refine ⟨b', ?_, fun _ => h2 rfl⟩
    simpa [closers] using h1

/-- C03: a correct beginning deserves its name. With the open elements closed, and an element after that, it is accepted. -/
theorem C03_viable {s : List (Bytes × Bytes)} {b : Bool} {p : Bytes} (h : Begun s b p)
    (hl : (p ++ closers s ++ b!"<a/>").length ≤ 10485760) : validate (p ++ closers s ++ b!"<a/>") = none := by
  obtain ⟨b', h1, -⟩ := begun_close h
  have hn : IsName b!"a" := ⟨⟨_, _, rfl, .inl (.inr (by decide))⟩, by
    intro c hc; simp at hc; subst hc; exact .inl (.inl (.inr (by decide))), by decide⟩
  have h2 := Begun.leaf (n := b!"a") (as := []) (ws := []) h1 hn ⟨by simp, by simp, by simp⟩ (by simp) (by simp)
  exact complete_validate h2 hl (by simp)

/-- C03: the text of the error as a Go `error`. -/
theorem C03_text (e : VErr) : e.text = b!"XML validation error at line " ++ decimal e.line ++ b!", column " ++ decimal e.col ++
    b!": " ++ e.msg := by
  rw [VErr.text, natDec_decimal, natDec_decimal]

/-- An error on the third line: the mismatched closing tag. -/
example : validate b!"<a>\n<b>\n </a>" = some ⟨3, 1, b!"mismatched closing tag 'a' (expected 'b' opened at line 2, column 0)"⟩ := by
  have ha : IsName b!"a" := ⟨⟨_, _, rfl, .inl (.inr (by decide))⟩, by
    intro c hc; simp at hc; subst hc; exact .inl (.inl (.inr (by decide))), by decide⟩
  have hb : IsName b!"b" := ⟨⟨_, _, rfl, .inl (.inr (by decide))⟩, by
    intro c hc; simp at hc; subst hc; exact .inl (.inl (.inr (by decide))), by decide⟩
  have h0 : AttrsLegal [] := ⟨by simp, by simp, by simp⟩
  have b1 := Begun.node (as := []) (ws := []) .start ha h0 (by simp) (by simp)
  have b2 := Begun.text (c := 10) b1 (by decide) (by simp)
  have b3 := Begun.node (as := []) (ws := []) b2 hb h0 (by simp) (by simp)
  have b4 := Begun.text (c := c!" ") (Begun.text (c := 10) b3 (by decide) (by simp)) (by decide) (by simp)
  have := C03_report b4 (.tag (.closeOther (n := b!"a") (w := []) (t := []) rfl (by decide) ha.2.1 (by decide) (by decide) (by simp)))
    (by decide) (by decide)
  exact this.trans (by decide +kernel)

/-- One report of each kind, computed. -/
example : validate b!"<a><b>" = some ⟨1, 3, b!"unclosed tag 'b'"⟩ ∧
    validate b!"<!--c-->\n" = some ⟨1, 0, b!"no root element found"⟩ ∧
    validate b!"<a/>\n x" = some ⟨2, 1, b!"content not allowed outside root element"⟩ ∧
    validate b!"<a>\n<" = some ⟨2, 0, b!"unexpected end of document in tag"⟩ ∧
    validate b!"<a>\n<1b/></a>" = some ⟨2, 1, b!"invalid element name '1b': name cannot start with a digit"⟩ ∧
    validate b!"<a>< b/></a>" = some ⟨1, 4, b!"empty element name"⟩ ∧
    validate b!"<a></></a>" = some ⟨1, 5, b!"empty closing tag name"⟩ ∧
    validate b!"<a></a x>" = some ⟨1, 7, b!"expected '>' to close tag"⟩ ∧
    validate b!"<a/></b>" = some ⟨1, 4, b!"closing tag 'b' without matching opening tag"⟩ ∧
    validate b!"<a x>" = some ⟨1, 4, b!"expected '=' after attribute name"⟩ ∧
    validate b!"<a x=1>" = some ⟨1, 5, b!"attribute value must be quoted"⟩ ∧
    validate b!"<a x='1>" = some ⟨1, 8, b!"unexpected end of document (expected ''')"⟩ ∧
    validate b!"<a -x='1'/>" = some ⟨1, 3, b!"invalid attribute name '-x': invalid first character '-'"⟩ ∧
    validate b!"<a $/>" = some ⟨1, 3, b!"invalid attribute name"⟩ ∧
    validate b!"<a /b>" = some ⟨1, 4, b!"expected '>' to close tag"⟩ ∧
    validate b!"<a><!-- -- --></a>" = some ⟨1, 10, b!"'--' not allowed in comment"⟩ ∧
    validate b!"<a><!-- \n-></a>" = some ⟨2, 4, b!"unclosed comment"⟩ ∧
    validate b!"<a><![CDATA[x]]</a>" = some ⟨1, 17, b!"unclosed CDATA section"⟩ ∧
    validate b!"<!DOCTYPE a [ <a/>" = some ⟨1, 18, b!"unclosed DOCTYPE declaration"⟩ := by decide +kernel

end Verif.Props
