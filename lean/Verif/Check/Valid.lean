import Verif.Model.Validate
/-
Expectations about Valid and ValidateWithError written down in the test files of /repo, checked against the model (see Check/Get).
-/
namespace Verif.Check
open Verif

-- errors_test.go:TestValidationErrors_MalformedXML:unclosed tag
example : valid b!"<root><item>" = false := by decide +kernel
-- errors_test.go:TestValidationErrors_MalformedXML:mismatched tags
example : valid b!"<root><item></root>" = false := by decide +kernel
-- errors_test.go:TestValidationErrors_MalformedXML:invalid character in tag name
example : valid b!"<root><item@>value</item@></root>" = false := by decide +kernel
-- errors_test.go:TestValidationErrors_MalformedXML:tag name starts with digit
example : valid b!"<1root>value</1root>" = false := by decide +kernel
-- errors_test.go:TestValidationErrors_MalformedXML:empty tag name
example : valid b!"<>value</>" = false := by decide +kernel
-- errors_test.go:TestValidationErrors_MalformedXML:unclosed attribute quote
example : valid b!"<root attr=\"value>text</root>" = false := by decide +kernel
-- errors_test.go:TestValidationErrors_MalformedXML:attribute without equals
example : valid b!"<root attr\"value\"></root>" = false := by decide +kernel
-- errors_test.go:TestValidationErrors_MalformedXML:attribute without quotes
example : valid b!"<root attr=value></root>" = false := by decide +kernel
-- errors_test.go:TestValidationErrors_MalformedXML:content outside root
example : valid b!"<root></root>text outside" = false := by decide +kernel
-- errors_test.go:TestValidationErrors_MalformedXML:empty document
example : valid [] = false := by decide +kernel
-- errors_test.go:TestValidationErrors_MalformedXML:whitespace only document
example : valid b!"   \n\t  " = false := by decide +kernel
-- errors_test.go:TestValidationErrors_ErrorDetails:error on line 3
example : valid b!"<root>\n<item>\n</root>" = false := by decide +kernel
-- errors_test.go:TestValidationErrors_ErrorDetails:error on line 5
example : valid b!"<root>\n<a>\n<b>\n<c>\n</b>" = false := by decide +kernel
-- errors_test.go:TestValidationErrors_ValidXML:simple valid XML
example : valid b!"<root>value</root>" = true := by decide +kernel
-- errors_test.go:TestValidationErrors_ValidXML:nested elements
example : valid b!"<root><a><b><c>value</c></b></a></root>" = true := by decide +kernel
-- errors_test.go:TestValidationErrors_ValidXML:with attributes
example : valid b!"<root attr=\"value\"><item id=\"123\">text</item></root>" = true := by decide +kernel
-- errors_test.go:TestValidationErrors_ValidXML:self-closing tags
example : valid b!"<root><item/><item/></root>" = true := by decide +kernel
-- errors_test.go:TestValidationErrors_ValidXML:with CDATA
example : valid b!"<root><![CDATA[<tag>not parsed</tag>]]></root>" = true := by decide +kernel
-- errors_test.go:TestValidationErrors_ValidXML:with comments
example : valid b!"<root><!-- comment --><item>value</item></root>" = true := by decide +kernel
-- errors_test.go:TestValidationErrors_ValidXML:with processing instruction
example : valid b!"<?xml version=\"1.0\"?><root>value</root>" = true := by decide +kernel
-- errors_test.go:TestValidationErrors_ValidXML:with namespaces
example : valid b!"<root xmlns=\"http://example.com\"><child>value</child></root>" = true := by decide +kernel
-- errors_test.go:TestValidationErrors_ValidXML:with whitespace
example : valid b!"<root>  \n  <item>value</item>  \n  </root>" = true := by decide +kernel
-- errors_test.go:TestValidBytes_Errors:malformed bytes
example : valid b!"<root>" = false := by decide +kernel
-- errors_test.go:TestValidation_DOCTYPESecurity:unclosed DOCTYPE
example : valid b!"<!DOCTYPE root SYSTEM \"root.dtd\"<root></root>" = false := by decide +kernel
-- fragment_test.go:TestFragmentWithProlog
example : valid b!"<?xml version=\"1.0\" encoding=\"UTF-8\"?>\n<item id=\"1\">First</item>\n<item id=\"2\">Second</item>" = true := by decide +kernel
-- fragment_test.go:TestFragmentWithComments
example : valid b!"<!-- First item -->\n<item>first</item>\n<!-- Second item -->\n<item>second</item>\n<!-- End -->" = true := by decide +kernel
-- fragment_test.go:TestFragmentEdgeCases
example : valid b!"<a></a><b></b><c></c>" = true := by decide +kernel
example : valid b!"<a/><b/><c/><d/>" = true := by decide +kernel
example : valid b!"<a/><b>text</b><c/>" = true := by decide +kernel
example : valid b!"<a>1</a>\n\n<b>2</b>\t\t<c>3</c>" = true := by decide +kernel
-- integration_test.go:TestIntegrationErrorRecovery
example : valid b!"<root><unclosed>" = false := by decide +kernel
-- validate_test.go:TestValidComplexXML
example : valid b!"<root>\n\t\t<child1>value1</child1>\n\t\t<child2>\n\t\t\t<nested>value2</nested>\n\t\t</child2>\n\t</root>" = true := by decide +kernel
-- validate_test.go:TestValidWithAttributes
example : valid b!"<root attr=\"value\"><child id=\"123\">text</child></root>" = true := by decide +kernel
-- validate_test.go:TestValidRootOnly
example : valid b!"<root/>" = true := by decide +kernel
example : valid b!"<root></root>" = true := by decide +kernel
-- validate_test.go:TestInvalidUnclosedRootTag
example : valid b!"<root><child></root>" = false := by decide +kernel
-- validate_test.go:TestInvalidMissingClosingTag
example : valid b!"<root><child>" = false := by decide +kernel
-- validate_test.go:TestInvalidUnclosedSelfClosing
example : valid b!"<root><child/></root>" = true := by decide +kernel
-- validate_test.go:TestInvalidNestedUnclosed
example : valid b!"<root><level1><level2><level3></level2></level1></root>" = false := by decide +kernel
-- validate_test.go:TestInvalidMismatchedTag
example : valid b!"<a></b>" = false := by decide +kernel
-- validate_test.go:TestInvalidCaseMismatch
example : valid b!"<Root></root>" = false := by decide +kernel
-- validate_test.go:TestInvalidNestedMismatch
example : valid b!"<a><b></a></b>" = false := by decide +kernel
-- validate_test.go:TestInvalidOrderMismatch
example : valid b!"<a><b></b></c>" = false := by decide +kernel
-- validate_test.go:TestInvalidElementNameSpace
example : valid b!"<element name>value</element name>" = false := by decide +kernel
-- validate_test.go:TestInvalidElementNameSpecialChar
example : valid b!"<element@name>value</element@name>" = false := by decide +kernel
-- validate_test.go:TestInvalidElementNameStartsDigit
example : valid b!"<1element>value</1element>" = false := by decide +kernel
-- validate_test.go:TestInvalidAttributeNameSpecialChar
example : valid b!"<element attr@name=\"value\">text</element>" = false := by decide +kernel
-- validate_test.go:TestValidateErrorLineNumber
example : valid b!"<root>\n<child>\n</root>" = false := by decide +kernel
-- validate_test.go:TestValidXMLWithComments
example : valid b!"<root><!-- comment --><child>value</child></root>" = true := by decide +kernel
-- validate_test.go:TestValidateMultipleErrors
example : valid b!"<root><a><b></root>" = false := by decide +kernel
-- validate_test.go:TestValidFragments:two root elements
example : valid b!"<root1></root1><root2></root2>" = true := by decide +kernel
-- validate_test.go:TestValidFragments:three root elements with whitespace
example : valid b!"<root1>A</root1>  <root2>B</root2>  <root3>C</root3>" = true := by decide +kernel
-- validate_test.go:TestValidFragments:fragment with prolog
example : valid b!"<?xml version=\"1.0\"?><root1>A</root1><root2>B</root2>" = true := by decide +kernel
-- validate_test.go:TestValidFragments:fragment with comments
example : valid b!"<root1>A</root1><!-- comment --><root2>B</root2>" = true := by decide +kernel
-- validate_test.go:TestValidFragments:nested elements in fragment
example : valid b!"<root1><child>A</child></root1><root2><child>B</child></root2>" = true := by decide +kernel
-- validate_test.go:TestValidFragments:self-closing roots
example : valid b!"<root1/><root2/><root3/>" = true := by decide +kernel
-- validate_test.go:TestValidFragments:mixed self-closing and paired
example : valid b!"<root1/><root2>X</root2><root3/>" = true := by decide +kernel
-- validate_test.go:TestValidFragments:fragment with attributes
example : valid b!"<user id=\"1\">Alice</user><user id=\"2\">Bob</user>" = true := by decide +kernel
-- validate_test.go:TestInvalidFragmentWithTextBetweenRoots
example : valid b!"<root1>A</root1>invalid text<root2>B</root2>" = false := by decide +kernel
-- validate_test.go:TestValidAttributeWithSingleQuotes
example : valid b!"<root attr='value'></root>" = true := by decide +kernel
-- validate_test.go:TestValidXMLWithPrefixedNamespaces
example : valid b!"<ns:root xmlns:ns=\"http://example.com\"><ns:child>value</ns:child></ns:root>" = true := by decide +kernel

end Verif.Check
