import Verif.Model.Validate
/-
Expectations about the lines, columns and messages of ValidateWithError written down in the test files of /repo,
checked against the model (see Check/Get).
-/
namespace Verif.Check
open Verif

/-- The message of the report contains the text. -/
def saysMsg (xml sub : Bytes) : Bool :=
  match validate xml with
  | none => false
  | some e => (List.range (e.msg.length + 1)).any fun i => sub.isPrefixOf (e.msg.drop i)

def lineIs (xml : Bytes) (n : Nat) : Bool :=
  match validate xml with
  | none => false
  | some e => e.line == n

-- errors_test.go:TestValidationErrors_MalformedXML (the test lowers the case of both texts)
example : saysMsg b!"<root><item>" b!"unclosed" ∧ saysMsg b!"<root><item></root>" b!"mismatched" ∧
    saysMsg b!"<root><item@>value</item@></root>" b!"invalid" ∧ saysMsg b!"<1root>value</1root>" b!"digit" ∧
    saysMsg b!"<>value</>" b!"empty" ∧ saysMsg b!"<root attr=\"value>text</root>" b!"expected" ∧
    saysMsg b!"<root attr\"value\"></root>" b!"expected" ∧ saysMsg b!"<root attr=value></root>" b!"quoted" ∧
    saysMsg b!"<root></root>text outside" b!"outside root" ∧ saysMsg [] b!"empty document" ∧
    saysMsg b!"   \n\t  " b!"no root" := by decide +kernel

-- errors_test.go:TestValidationErrors_ErrorDetails
example : lineIs b!"<root><item></root>" 1 ∧ lineIs b!"<root>\n<item>\n</root>" 3 ∧
    lineIs b!"<root>\n<a>\n<b>\n<c>\n</b>" 5 := by decide +kernel

-- errors_test.go:TestValidationErrors_SecurityLimits, validate_test.go:TestValidateRespectsSecurityLimits
example : saysMsg (b!"<root>" ++ (List.replicate 110 b!"<level>").flatten ++ b!"value" ++ (List.replicate 110 b!"</level>").flatten ++
    b!"</root>") b!"nesting depth" := by decide +kernel
example : saysMsg (b!"<root " ++ ((List.range 110).map fun i => b!"attr" ++ natDec i ++ b!"='val' ").flatten ++ b!"></root>")
    b!"too many attributes" := by decide +kernel

-- validate_test.go:TestValidEmptyDocument, TestValidWhitespaceOnly
example : saysMsg [] b!"empty document" ∧ saysMsg b!"   \n\t  " b!"no root element" := by decide +kernel

-- validate_test.go:TestInvalidUnclosedRootTag, TestInvalidMissingClosingTag, TestInvalidMismatchedTag
example : saysMsg b!"<root><child></root>" b!"mismatched" ∧ saysMsg b!"<root><child>" b!"unclosed" ∧
    saysMsg b!"<a></b>" b!"mismatched" := by decide +kernel

-- validate_test.go:TestInvalidElementNameSpecialChar, TestInvalidElementNameStartsDigit, TestInvalidEmptyElementName
example : saysMsg b!"<element@name>value</element@name>" b!"invalid" ∧ saysMsg b!"<1element>value</1element>" b!"digit" ∧
    saysMsg b!"<>value</>" b!"empty" := by decide +kernel

-- validate_test.go:TestValidateErrorLineNumber, TestValidateErrorColumnNumber, TestValidateErrorMessage
example : lineIs b!"<root>\n<child>\n</root>" 3 ∧ ((validate b!"<root><child></root>").map fun e => (e.line, decide (13 ≤ e.col))) = some (1, true) ∧
    saysMsg b!"<root><child></root>" b!"mismatched" ∧ saysMsg b!"<root><child></root>" b!"root" ∧
    saysMsg b!"<root><child></root>" b!"child" := by decide +kernel

-- validate_test.go:TestValidateErrorMultiline, TestValidateErrorDeepNesting
example : lineIs (b!"<root>\n" ++ (List.replicate 8 b!"  <valid>content</valid>\n").flatten ++ b!"  <broken>\n</root>") 11 := by decide +kernel
example : saysMsg (b!"<root>" ++ (List.replicate 10 b!"<level>").flatten ++ b!"<broken>" ++ (List.replicate 10 b!"</level>").flatten ++
    b!"</root>") b!"mismatched" := by decide +kernel

-- validate_test.go:TestValidateMultipleErrors, TestInvalidFragmentWithTextBetweenRoots, TestInvalidContentOutsideRoot
example : saysMsg b!"<root><a><b></root>" b!"mismatched" ∧ saysMsg b!"<root1>A</root1>invalid text<root2>B</root2>" b!"outside root element" ∧
    saysMsg b!"<root></root>text outside" b!"outside root" := by decide +kernel

-- validate_test.go:ExampleValidateWithError
example : (validate b!"<root><person><name>John</name></root>").map VErr.msg =
    some b!"mismatched closing tag 'root' (expected 'person' opened at line 1, column 6)" := by decide +kernel

-- validate_test.go:TestValidateErrorError
example : (VErr.text ⟨5, 12, b!"unclosed tag 'root'"⟩) = b!"XML validation error at line 5, column 12: unclosed tag 'root'" := by decide +kernel

end Verif.Check
