import Verif.Check.Get
/-
Expectations about Set, SetWithOptions, SetRaw and Delete written down in the test files of /repo, checked against the model (see Check/Get).
-/
namespace Verif.Check
open Verif

def docOf : SetRes → Option Bytes
  | .ret (r, _) => some r
  | .panic => none
def succeeds : SetRes → Option Bool
  | .ret (_, e) => some e.isNone
  | .panic => none

-- append_test.go:TestSet_AppendOperation:append to empty parent (creates first element)
example : succeeds (set chkEnv.ord b!"<root></root>" b!"root.item.-1" (.str b!"first")) = some true := by decide +kernel
-- append_test.go:TestSet_AppendOperation:append to single element (treat as 1-element array)
example : succeeds (set chkEnv.ord b!"<root><item>A</item></root>" b!"root.item.-1" (.str b!"B")) = some true := by decide +kernel
-- append_test.go:TestSet_AppendOperation:append to multi-element array
example : succeeds (set chkEnv.ord b!"<root><item>A</item><item>B</item><item>C</item></root>" b!"root.item.-1" (.str b!"D")) = some true := by decide +kernel
-- append_test.go:TestSet_AppendOperation:append with nested parent path
example : succeeds (set chkEnv.ord b!"<root><items></items></root>" b!"root.items.item.-1" (.str b!"first")) = some true := by decide +kernel
-- append_test.go:TestSet_AppendOperation:append with missing parent (auto-create)
example : succeeds (set chkEnv.ord b!"<root></root>" b!"root.items.item.-1" (.str b!"first")) = some true := by decide +kernel
-- append_test.go:TestSet_AppendOperation:append with int value
example : succeeds (set chkEnv.ord b!"<root><count>10</count></root>" b!"root.count.-1" (.int 20)) = some true := by decide +kernel
-- append_test.go:TestSet_AppendOperation:append with bool value
example : succeeds (set chkEnv.ord b!"<root><flag>true</flag></root>" b!"root.flag.-1" (.bool false)) = some true := by decide +kernel
-- append_test.go:TestSetRaw_AppendOperation:append raw XML element
example : succeeds (setRaw chkEnv.ord b!"<root><item>A</item></root>" b!"root.item.-1" b!"<nested>B</nested>") = some true := by decide +kernel
-- append_test.go:TestSetRaw_AppendOperation:append complex raw XML
example : succeeds (setRaw chkEnv.ord b!"<root></root>" b!"root.product.-1" b!"<id>123</id><name>Widget</name><price>9.99</price>") = some true := by decide +kernel
-- append_test.go:TestSet_AppendSelfClosingParent:append to self-closing parent (no attributes)
example : succeeds (set chkEnv.ord b!"<root><items/></root>" b!"root.items.item.-1" (.str b!"first")) = some true := by decide +kernel
-- append_test.go:TestSet_AppendSelfClosingParent:append to self-closing parent (with attributes)
example : succeeds (set chkEnv.ord b!"<root><items id=\"list1\" class=\"active\"/></root>" b!"root.items.item.-1" (.str b!"first")) = some true := by decide +kernel
-- append_test.go:TestSet_AppendWithOptions
example : succeeds (setWithOptions chkEnv.ord b!"<root>\n  <item>first</item>\n</root>" b!"root.item.-1" (.str b!"second") (some ⟨false, b!"  ", false, none⟩)) = some true := by decide +kernel
-- append_test.go:TestSet_AppendMixedSiblings
example : succeeds (set chkEnv.ord b!"<root><item>A</item><other>X</other><item>B</item><foo>Y</foo></root>" b!"root.item.-1" (.str b!"C")) = some true := by decide +kernel
-- append_test.go:TestSet_AppendPreservesAttributes
example : succeeds (set chkEnv.ord b!"<root><items id=\"list1\" class=\"active\"><item>A</item></items></root>" b!"root.items.item.-1" (.str b!"B")) = some true := by decide +kernel
-- append_test.go:TestSet_AppendDocumentSizeLimit
example : succeeds (set chkEnv.ord b!"<root></root>" b!"root.item.-1" (.str b!"small")) = some true := by decide +kernel
-- append_test.go:TestSet_AppendRootLevel:append different root name creates sibling
example : succeeds (set chkEnv.ord b!"<user>Alice</user>" b!"item.-1" (.str b!"first")) = some true := by decide +kernel
example : docOf (set chkEnv.ord b!"<user>Alice</user>" b!"item.-1" (.str b!"first")) = some b!"<user>Alice</user><item>first</item>" := by decide +kernel
-- append_test.go:TestSet_AppendRootLevel:append matching root name creates sibling array
example : succeeds (set chkEnv.ord b!"<item>A</item>" b!"item.-1" (.str b!"B")) = some true := by decide +kernel
example : docOf (set chkEnv.ord b!"<item>A</item>" b!"item.-1" (.str b!"B")) = some b!"<item>A</item><item>B</item>" := by decide +kernel
-- append_test.go:TestSet_AppendRootLevel:append to empty XML creates first root
example : succeeds (set chkEnv.ord [] b!"item.-1" (.str b!"first")) = some true := by decide +kernel
example : docOf (set chkEnv.ord [] b!"item.-1" (.str b!"first")) = some b!"<item>first</item>" := by decide +kernel
-- append_test.go:TestSet_AppendRootLevel:append to multi-root different name
example : succeeds (set chkEnv.ord b!"<user>Alice</user><name>test</name>" b!"item.-1" (.str b!"first")) = some true := by decide +kernel
example : docOf (set chkEnv.ord b!"<user>Alice</user><name>test</name>" b!"item.-1" (.str b!"first")) = some b!"<user>Alice</user><name>test</name><item>first</item>" := by decide +kernel
-- append_test.go:TestSet_AppendRootLevel:append to multi-root matching name
example : succeeds (set chkEnv.ord b!"<item>A</item><item>B</item>" b!"item.-1" (.str b!"C")) = some true := by decide +kernel
example : docOf (set chkEnv.ord b!"<item>A</item><item>B</item>" b!"item.-1" (.str b!"C")) = some b!"<item>A</item><item>B</item><item>C</item>" := by decide +kernel
-- append_test.go:TestSet_AppendToEmptyArrayEdgeCases
example : succeeds (set chkEnv.ord b!"<root><other>existing</other></root>" b!"root.item.-1" (.str b!"new")) = some true := by decide +kernel
example : docOf (set chkEnv.ord b!"<root></root>" b!"root.item.-1" (.str b!"first")) = some b!"<root><item>first</item></root>" := by decide +kernel
example : succeeds (set chkEnv.ord b!"<root>\n  </root>" b!"root.item.-1" (.str b!"value")) = some true := by decide +kernel
example : succeeds (set chkEnv.ord b!"<root><a>1</a><b>2</b></root>" b!"root.item.-1" (.str b!"new")) = some true := by decide +kernel
example : succeeds (set chkEnv.ord b!"<root><item>A</item><item>B</item></root>" b!"root.item.-1" (.str b!"C")) = some true := by decide +kernel
example : succeeds (setRaw chkEnv.ord b!"<root></root>" b!"root.item.-1" b!"<name>Test</name>") = some true := by decide +kernel
example : succeeds (set chkEnv.ord b!"<root><level1><level2></level2></level1></root>" b!"root.level1.level2.item.-1" (.str b!"deep")) = some true := by decide +kernel
-- builder_test.go:TestGetResultUnchanged
example : succeeds (delete chkEnv.ord b!"<root><child>value</child></root>" b!"root.nonexistent") = some true := by decide +kernel
example : docOf (delete chkEnv.ord b!"<root><child>value</child></root>" b!"root.nonexistent") = some b!"<root><child>value</child></root>" := by decide +kernel
-- delete_test.go:TestDelete_Element:delete single element
example : succeeds (delete chkEnv.ord b!"<root><user><name>John</name><age>30</age></user></root>" b!"root.user.age") = some true := by decide +kernel
example : docOf (delete chkEnv.ord b!"<root><user><name>John</name><age>30</age></user></root>" b!"root.user.age") = some b!"<root><user><name>John</name></user></root>" := by decide +kernel
-- delete_test.go:TestDelete_Element:delete nested element
example : succeeds (delete chkEnv.ord b!"<root><level1><level2><value>test</value></level2></level1></root>" b!"root.level1.level2") = some true := by decide +kernel
example : docOf (delete chkEnv.ord b!"<root><level1><level2><value>test</value></level2></level1></root>" b!"root.level1.level2") = some b!"<root><level1></level1></root>" := by decide +kernel
-- delete_test.go:TestDelete_Element:delete element with children
example : succeeds (delete chkEnv.ord b!"<root><user><name>John</name><age>30</age></user><other>data</other></root>" b!"root.user") = some true := by decide +kernel
example : docOf (delete chkEnv.ord b!"<root><user><name>John</name><age>30</age></user><other>data</other></root>" b!"root.user") = some b!"<root><other>data</other></root>" := by decide +kernel
-- delete_test.go:TestDelete_Element:delete from simple structure
example : succeeds (delete chkEnv.ord b!"<root><a>1</a><b>2</b><c>3</c></root>" b!"root.b") = some true := by decide +kernel
example : docOf (delete chkEnv.ord b!"<root><a>1</a><b>2</b><c>3</c></root>" b!"root.b") = some b!"<root><a>1</a><c>3</c></root>" := by decide +kernel
-- delete_test.go:TestDelete_Element:delete self-closing element
example : succeeds (delete chkEnv.ord b!"<root><item/><other>data</other></root>" b!"root.item") = some true := by decide +kernel
example : docOf (delete chkEnv.ord b!"<root><item/><other>data</other></root>" b!"root.item") = some b!"<root><other>data</other></root>" := by decide +kernel
-- delete_test.go:TestDelete_Attribute:delete single attribute
example : succeeds (delete chkEnv.ord b!"<user id=\"123\" active=\"true\"><name>John</name></user>" b!"user.@active") = some true := by decide +kernel
-- delete_test.go:TestDelete_Attribute:delete only attribute
example : succeeds (delete chkEnv.ord b!"<user id=\"123\"><name>John</name></user>" b!"user.@id") = some true := by decide +kernel
-- delete_test.go:TestDelete_Attribute:delete attribute from nested element
example : succeeds (delete chkEnv.ord b!"<root><user id=\"123\" active=\"true\"><name>John</name></user></root>" b!"root.user.@id") = some true := by decide +kernel
-- delete_test.go:TestDelete_Attribute:delete attribute from self-closing tag
example : succeeds (delete chkEnv.ord b!"<item id=\"1\" value=\"test\"/>" b!"item.@value") = some true := by decide +kernel
-- delete_test.go:TestDelete_NonExistent:delete non-existent element
example : succeeds (delete chkEnv.ord b!"<root><user><name>John</name></user></root>" b!"root.user.age") = some true := by decide +kernel
example : docOf (delete chkEnv.ord b!"<root><user><name>John</name></user></root>" b!"root.user.age") = some b!"<root><user><name>John</name></user></root>" := by decide +kernel
-- delete_test.go:TestDelete_NonExistent:delete non-existent attribute
example : succeeds (delete chkEnv.ord b!"<user id=\"123\"><name>John</name></user>" b!"user.@active") = some true := by decide +kernel
example : docOf (delete chkEnv.ord b!"<user id=\"123\"><name>John</name></user>" b!"user.@active") = some b!"<user id=\"123\"><name>John</name></user>" := by decide +kernel
-- delete_test.go:TestDelete_NonExistent:delete with invalid path
example : succeeds (delete chkEnv.ord b!"<root><user><name>John</name></user></root>" b!"root.nonexistent.element") = some true := by decide +kernel
example : docOf (delete chkEnv.ord b!"<root><user><name>John</name></user></root>" b!"root.nonexistent.element") = some b!"<root><user><name>John</name></user></root>" := by decide +kernel
-- delete_test.go:TestDelete_ArrayElement:delete first array element
example : succeeds (delete chkEnv.ord b!"<root>\n\t\t\t\t<item>first</item>\n\t\t\t\t<item>second</item>\n\t\t\t\t<item>third</item>\n\t\t\t</root>" b!"root.item.0") = some true := by decide +kernel
-- delete_test.go:TestDelete_ArrayElement:delete middle array element
example : succeeds (delete chkEnv.ord b!"<root>\n\t\t\t\t<item>first</item>\n\t\t\t\t<item>second</item>\n\t\t\t\t<item>third</item>\n\t\t\t</root>" b!"root.item.1") = some true := by decide +kernel
-- delete_test.go:TestDelete_ArrayElement:delete last array element
example : succeeds (delete chkEnv.ord b!"<root>\n\t\t\t\t<item>first</item>\n\t\t\t\t<item>second</item>\n\t\t\t\t<item>third</item>\n\t\t\t</root>" b!"root.item.2") = some true := by decide +kernel
-- delete_test.go:TestDelete_Errors:empty path
example : succeeds (delete chkEnv.ord b!"<root></root>" []) = some false := by decide +kernel
-- delete_test.go:TestDelete_Integration
example : succeeds (delete chkEnv.ord b!"<root><user><name>John</name><age>30</age><email>john@example.com</email></user></root>" b!"root.user.age") = some true := by decide +kernel
-- delete_test.go:TestSetDelete_Integration
example : succeeds (set chkEnv.ord b!"<root><user><name>John</name></user></root>" b!"root.user.age" (.int 30)) = some true := by decide +kernel
-- delete_test.go:TestDelete_LastElement
example : succeeds (delete chkEnv.ord b!"<root><user><name>John</name></user></root>" b!"root.user.name") = some true := by decide +kernel
example : docOf (delete chkEnv.ord b!"<root><user><name>John</name></user></root>" b!"root.user.name") = some b!"<root><user></user></root>" := by decide +kernel
-- edge_test.go:TestEdgeBoundaries_SpecialNumbers:Zero
example : succeeds (set chkEnv.ord b!"<root><item>old</item></root>" b!"root.item" (.int 0)) = some true := by decide +kernel
-- edge_test.go:TestEdgeBoundaries_SpecialNumbers:Negative number
example : succeeds (set chkEnv.ord b!"<root><item>old</item></root>" b!"root.item" (.int (-42))) = some true := by decide +kernel
-- edge_test.go:TestEdgeBoundaries_SpecialNumbers:Large integer
example : succeeds (set chkEnv.ord b!"<root><item>old</item></root>" b!"root.item" (.int 9223372036854775807)) = some true := by decide +kernel
-- edge_test.go:TestEdgeBoundaries_SpecialNumbers:Boolean true
example : succeeds (set chkEnv.ord b!"<root><item>old</item></root>" b!"root.item" (.bool true)) = some true := by decide +kernel
-- edge_test.go:TestEdgeBoundaries_SpecialNumbers:Boolean false
example : succeeds (set chkEnv.ord b!"<root><item>old</item></root>" b!"root.item" (.bool false)) = some true := by decide +kernel
-- edge_test.go:TestEdgeErrors_DeleteNonExistent:Delete non-existent element
example : succeeds (delete chkEnv.ord b!"<root><item>value</item></root>" b!"root.nonexistent") = some true := by decide +kernel
-- edge_test.go:TestEdgeErrors_DeleteNonExistent:Delete non-existent nested
example : succeeds (delete chkEnv.ord b!"<root><item>value</item></root>" b!"root.level1.level2.nonexistent") = some true := by decide +kernel
-- edge_test.go:TestEdgeErrors_DeleteNonExistent:Delete non-existent attribute
example : succeeds (delete chkEnv.ord b!"<root><item>value</item></root>" b!"root.item.@nonexistent") = some true := by decide +kernel
-- edge_test.go:TestEdgeErrors_RecoveryFromErrors
example : succeeds (set chkEnv.ord b!"<root><item>value</item></root>" b!"root.item" (.str b!"newvalue")) = some true := by decide +kernel
-- edge_test.go:TestEdgeNamespace_SetWithNamespaces:Set on prefixed element
example : succeeds (set chkEnv.ord b!"<root xmlns:ns=\"http://example.com\"><ns:item>old</ns:item></root>" b!"root.ns:item" (.str b!"new")) = some true := by decide +kernel
-- edge_test.go:TestEdgeNamespace_SetWithNamespaces:Set on element with default namespace
example : succeeds (set chkEnv.ord b!"<root xmlns=\"http://example.com\"><item>old</item></root>" b!"root.item" (.str b!"new")) = some true := by decide +kernel
-- edge_test.go:TestEdgeNamespace_SetWithNamespaces:Set creates element without namespace awareness
example : succeeds (set chkEnv.ord b!"<root xmlns:ns=\"http://example.com\"></root>" b!"root.newitem" (.str b!"value")) = some true := by decide +kernel
-- edge_test.go:TestEdgeNamespace_DeleteWithNamespaces:Delete prefixed element
example : succeeds (delete chkEnv.ord b!"<root xmlns:ns=\"http://example.com\"><ns:item>value</ns:item></root>" b!"root.ns:item") = some true := by decide +kernel
-- edge_test.go:TestEdgeNamespace_DeleteWithNamespaces:Delete element with default namespace
example : succeeds (delete chkEnv.ord b!"<root xmlns=\"http://example.com\"><item>value</item></root>" b!"root.item") = some true := by decide +kernel
-- edge_test.go:TestEdgeStructure_SetPreservesStructure:Set preserves comments
example : succeeds (set chkEnv.ord b!"<root><!-- comment --><item>old</item></root>" b!"root.item" (.str b!"new")) = some true := by decide +kernel
-- edge_test.go:TestEdgeStructure_SetPreservesStructure:Set preserves attributes
example : succeeds (set chkEnv.ord b!"<root><item attr='val'>old</item></root>" b!"root.item" (.str b!"new")) = some true := by decide +kernel
-- edge_test.go:TestEdgeStructure_SetPreservesStructure:Set preserves sibling elements
example : succeeds (set chkEnv.ord b!"<root><item1>val1</item1><item2>old</item2></root>" b!"root.item2" (.str b!"new")) = some true := by decide +kernel
-- edge_test.go:TestEdgeUnicode_XMLEscaping:Less than
example : succeeds (set chkEnv.ord b!"<root><item>test</item></root>" b!"root.item" (.str b!"a < b")) = some true := by decide +kernel
example : succeeds (set chkEnv.ord b!"<root><item>test</item></root>" b!"root.item.@attr" (.str b!"a < b")) = some true := by decide +kernel
-- edge_test.go:TestEdgeUnicode_XMLEscaping:Greater than
example : succeeds (set chkEnv.ord b!"<root><item>test</item></root>" b!"root.item" (.str b!"a > b")) = some true := by decide +kernel
example : succeeds (set chkEnv.ord b!"<root><item>test</item></root>" b!"root.item.@attr" (.str b!"a > b")) = some true := by decide +kernel
-- edge_test.go:TestEdgeUnicode_XMLEscaping:Ampersand
example : succeeds (set chkEnv.ord b!"<root><item>test</item></root>" b!"root.item" (.str b!"Tom & Jerry")) = some true := by decide +kernel
example : succeeds (set chkEnv.ord b!"<root><item>test</item></root>" b!"root.item.@attr" (.str b!"Tom & Jerry")) = some true := by decide +kernel
-- edge_test.go:TestEdgeUnicode_XMLEscaping:Double quote
example : succeeds (set chkEnv.ord b!"<root><item>test</item></root>" b!"root.item" (.str b!"He said \"hello\"")) = some true := by decide +kernel
example : succeeds (set chkEnv.ord b!"<root><item>test</item></root>" b!"root.item.@attr" (.str b!"He said \"hello\"")) = some true := by decide +kernel
-- edge_test.go:TestEdgeUnicode_XMLEscaping:Single quote
example : succeeds (set chkEnv.ord b!"<root><item>test</item></root>" b!"root.item" (.str b!"It's working")) = some true := by decide +kernel
example : succeeds (set chkEnv.ord b!"<root><item>test</item></root>" b!"root.item.@attr" (.str b!"It's working")) = some true := by decide +kernel
-- edge_test.go:TestEdgeUnicode_XMLEscaping:All special chars
example : succeeds (set chkEnv.ord b!"<root><item>test</item></root>" b!"root.item" (.str b!"<>&\"'")) = some true := by decide +kernel
example : succeeds (set chkEnv.ord b!"<root><item>test</item></root>" b!"root.item.@attr" (.str b!"<>&\"'")) = some true := by decide +kernel
-- edge_test.go:TestEdgeUnicode_XMLEscaping:Multiple escapes
example : succeeds (set chkEnv.ord b!"<root><item>test</item></root>" b!"root.item" (.str b!"a < b && c > d")) = some true := by decide +kernel
example : succeeds (set chkEnv.ord b!"<root><item>test</item></root>" b!"root.item.@attr" (.str b!"a < b && c > d")) = some true := by decide +kernel
-- edge_test.go:TestEdgeUnicode_AlreadyEscaped:Already escaped ampersand
example : succeeds (set chkEnv.ord b!"<root><item>&amp;test</item></root>" b!"root.item" (.str b!"&test")) = some true := by decide +kernel
-- edge_test.go:TestEdgeUnicode_AlreadyEscaped:Already escaped less than
example : succeeds (set chkEnv.ord b!"<root><item>&lt;tag&gt;</item></root>" b!"root.item" (.str b!"<tag>")) = some true := by decide +kernel
-- edge_test.go:TestEdgeUnicode_AlreadyEscaped:Already escaped quote
example : succeeds (set chkEnv.ord b!"<root><item attr=\"&quot;quoted&quot;\">test</item></root>" b!"root.item.@attr" (.str b!"\"quoted\"")) = some true := by decide +kernel
-- edge_test.go:TestEdgeUnicode_AlreadyEscaped:Mixed escaped and unescaped
example : succeeds (set chkEnv.ord b!"<root><item>&amp; and text</item></root>" b!"root.item" (.str b!"& and text")) = some true := by decide +kernel
-- errors_test.go:TestDeleteErrors_MalformedXML:unclosed tag
example : succeeds (delete chkEnv.ord b!"<root><item>" b!"root.item") = some false := by decide +kernel
example : docOf (delete chkEnv.ord b!"<root><item>" b!"root.item") = some b!"<root><item>" := by decide +kernel
-- errors_test.go:TestDeleteErrors_MalformedXML:mismatched tags
example : succeeds (delete chkEnv.ord b!"<root><item>value</wrong></root>" b!"root.item") = some false := by decide +kernel
example : docOf (delete chkEnv.ord b!"<root><item>value</wrong></root>" b!"root.item") = some b!"<root><item>value</wrong></root>" := by decide +kernel
-- errors_test.go:TestDeleteErrors_MalformedXML:incomplete opening tag
example : succeeds (delete chkEnv.ord b!"<root" b!"root.item") = some false := by decide +kernel
example : docOf (delete chkEnv.ord b!"<root" b!"root.item") = some b!"<root" := by decide +kernel
-- errors_test.go:TestDeleteErrors_MalformedXML:only closing tag
example : succeeds (delete chkEnv.ord b!"</root>" b!"root.item") = some false := by decide +kernel
example : docOf (delete chkEnv.ord b!"</root>" b!"root.item") = some b!"</root>" := by decide +kernel
-- errors_test.go:TestDeleteErrors_MalformedXML:empty document
example : succeeds (delete chkEnv.ord [] b!"root.item") = some false := by decide +kernel
example : docOf (delete chkEnv.ord [] b!"root.item") = some [] := by decide +kernel
-- errors_test.go:TestDeleteErrors_InvalidPath:empty path
example : succeeds (delete chkEnv.ord b!"<root><item>value</item></root>" []) = some false := by decide +kernel
example : docOf (delete chkEnv.ord b!"<root><item>value</item></root>" []) = some b!"<root><item>value</item></root>" := by decide +kernel
-- errors_test.go:TestDeleteErrors_NonExistentPath:non-existent array index
example : succeeds (delete chkEnv.ord b!"<root><item>value</item></root>" b!"root.item.5") = some true := by decide +kernel
-- errors_test.go:TestDeleteBytes_Errors:malformed bytes
example : succeeds (delete chkEnv.ord b!"<root>" b!"root.item") = some false := by decide +kernel
-- errors_test.go:TestDeleteBytes_Errors:valid bytes
example : succeeds (delete chkEnv.ord b!"<root><item>value</item></root>" b!"root.item") = some true := by decide +kernel
-- errors_test.go:TestDelete_NoErrorOnValidOperations:delete attribute
example : succeeds (delete chkEnv.ord b!"<root><item id='123'>value</item></root>" b!"root.item.@id") = some true := by decide +kernel
-- errors_test.go:TestDelete_NoErrorOnValidOperations:delete nested element
example : succeeds (delete chkEnv.ord b!"<root><a><b><c>value</c></b></a></root>" b!"root.a.b.c") = some true := by decide +kernel
-- errors_test.go:TestDelete_NoErrorOnValidOperations:delete array element by index
example : succeeds (delete chkEnv.ord b!"<root><item>1</item><item>2</item><item>3</item></root>" b!"root.item.1") = some true := by decide +kernel
-- errors_test.go:TestDelete_NoErrorOnValidOperations:delete from self-closing element parent
example : succeeds (delete chkEnv.ord b!"<root><parent/></root>" b!"root.parent") = some true := by decide +kernel
-- errors_test.go:TestDelete_RecoveryAfterError
example : succeeds (delete chkEnv.ord b!"<root><item>value</item><other>data</other></root>" []) = some false := by decide +kernel
example : succeeds (delete chkEnv.ord b!"<root><item>value</item><other>data</other></root>" b!"root.item") = some true := by decide +kernel
-- errors_test.go:TestSetWithOptions_OptionsErrors:malformed XML with nil options
example : succeeds (set chkEnv.ord b!"<root>" b!"root.item" (.str b!"value")) = some false := by decide +kernel
example : docOf (set chkEnv.ord b!"<root>" b!"root.item" (.str b!"value")) = some b!"<root>" := by decide +kernel
-- errors_test.go:TestSetWithOptions_OptionsErrors:malformed XML with case insensitive
example : succeeds (setWithOptions chkEnv.ord b!"<root>" b!"root.item" (.str b!"value") (some ⟨false, [], false, none⟩)) = some false := by decide +kernel
example : docOf (setWithOptions chkEnv.ord b!"<root>" b!"root.item" (.str b!"value") (some ⟨false, [], false, none⟩)) = some b!"<root>" := by decide +kernel
-- errors_test.go:TestSetWithOptions_OptionsErrors:empty XML with options
example : succeeds (setWithOptions chkEnv.ord [] b!"root.item" (.str b!"value") (some ⟨false, [], false, none⟩)) = some true := by decide +kernel
-- errors_test.go:TestSetWithOptions_OptionsErrors:invalid path with options
example : succeeds (setWithOptions chkEnv.ord b!"<root/>" [] (.str b!"value") (some ⟨true, [], false, none⟩)) = some false := by decide +kernel
example : docOf (setWithOptions chkEnv.ord b!"<root/>" [] (.str b!"value") (some ⟨true, [], false, none⟩)) = some b!"<root/>" := by decide +kernel
-- errors_test.go:TestSetWithOptions_OptionsErrors:valid XML with nil options
example : succeeds (set chkEnv.ord b!"<root/>" b!"root.item" (.str b!"value")) = some true := by decide +kernel
-- errors_test.go:TestSetWithOptions_OptionsErrors:valid XML with default options
example : succeeds (setWithOptions chkEnv.ord b!"<root/>" b!"root.item" (.str b!"value") (some ⟨true, [], false, none⟩)) = some true := by decide +kernel
-- errors_test.go:TestSetBytesWithOptions_Errors:valid bytes with options
example : succeeds (setWithOptions chkEnv.ord b!"<root/>" b!"root.item" (.str b!"value") (some ⟨false, [], false, none⟩)) = some true := by decide +kernel
-- errors_test.go:TestOptions_NoErrorOnValidOperations:case insensitive get
example : succeeds (setWithOptions chkEnv.ord b!"<ROOT><ITEM>value</ITEM></ROOT>" b!"root.item" (.str b!"new") (some ⟨false, [], false, none⟩)) = some true := by decide +kernel
-- errors_test.go:TestOptions_NoErrorOnValidOperations:case sensitive get
example : succeeds (setWithOptions chkEnv.ord b!"<root><item>value</item></root>" b!"root.item" (.str b!"new") (some ⟨true, [], false, none⟩)) = some true := by decide +kernel
-- errors_test.go:TestSetErrors_MalformedXML:unclosed tag
example : succeeds (set chkEnv.ord b!"<root><item>value" b!"root.item" (.str b!"new")) = some false := by decide +kernel
example : docOf (set chkEnv.ord b!"<root><item>value" b!"root.item" (.str b!"new")) = some b!"<root><item>value" := by decide +kernel
-- errors_test.go:TestSetErrors_MalformedXML:mismatched tags
example : succeeds (set chkEnv.ord b!"<root><item>value</wrong></root>" b!"root.item" (.str b!"new")) = some false := by decide +kernel
example : docOf (set chkEnv.ord b!"<root><item>value</wrong></root>" b!"root.item" (.str b!"new")) = some b!"<root><item>value</wrong></root>" := by decide +kernel
-- errors_test.go:TestSetErrors_MalformedXML:incomplete opening tag
example : succeeds (set chkEnv.ord b!"<root" b!"root.item" (.str b!"new")) = some false := by decide +kernel
example : docOf (set chkEnv.ord b!"<root" b!"root.item" (.str b!"new")) = some b!"<root" := by decide +kernel
-- errors_test.go:TestSetErrors_MalformedXML:only closing tag
example : succeeds (set chkEnv.ord b!"</root>" b!"root.item" (.str b!"new")) = some false := by decide +kernel
example : docOf (set chkEnv.ord b!"</root>" b!"root.item" (.str b!"new")) = some b!"</root>" := by decide +kernel
-- errors_test.go:TestSetErrors_MalformedXML:nested unclosed tags
example : succeeds (set chkEnv.ord b!"<root><a><b></a></root>" b!"root.a" (.str b!"new")) = some false := by decide +kernel
example : docOf (set chkEnv.ord b!"<root><a><b></a></root>" b!"root.a" (.str b!"new")) = some b!"<root><a><b></a></root>" := by decide +kernel
-- errors_test.go:TestSetErrors_MalformedXML:empty document
example : succeeds (set chkEnv.ord [] b!"root.item" (.str b!"new")) = some true := by decide +kernel
-- errors_test.go:TestSetErrors_InvalidPath:empty path
example : succeeds (set chkEnv.ord b!"<root/>" [] (.str b!"value")) = some false := by decide +kernel
example : docOf (set chkEnv.ord b!"<root/>" [] (.str b!"value")) = some b!"<root/>" := by decide +kernel
-- errors_test.go:TestSetErrors_RawXMLValidation:unclosed tag in raw XML
example : succeeds (setRaw chkEnv.ord b!"<root/>" b!"root.data" b!"<item>") = some false := by decide +kernel
example : docOf (setRaw chkEnv.ord b!"<root/>" b!"root.data" b!"<item>") = some b!"<root/>" := by decide +kernel
-- errors_test.go:TestSetErrors_RawXMLValidation:mismatched tags in raw XML
example : succeeds (setRaw chkEnv.ord b!"<root/>" b!"root.data" b!"<a></b>") = some false := by decide +kernel
example : docOf (setRaw chkEnv.ord b!"<root/>" b!"root.data" b!"<a></b>") = some b!"<root/>" := by decide +kernel
-- errors_test.go:TestSetErrors_RawXMLValidation:unclosed CDATA
example : succeeds (setRaw chkEnv.ord b!"<root/>" b!"root.data" b!"<![CDATA[test") = some false := by decide +kernel
example : docOf (setRaw chkEnv.ord b!"<root/>" b!"root.data" b!"<![CDATA[test") = some b!"<root/>" := by decide +kernel
-- errors_test.go:TestSetErrors_RawXMLValidation:nested CDATA
example : succeeds (setRaw chkEnv.ord b!"<root/>" b!"root.data" b!"<![CDATA[<![CDATA[test]]>]]>") = some false := by decide +kernel
example : docOf (setRaw chkEnv.ord b!"<root/>" b!"root.data" b!"<![CDATA[<![CDATA[test]]>]]>") = some b!"<root/>" := by decide +kernel
-- errors_test.go:TestSetErrors_RawXMLValidation:DOCTYPE in raw XML (security)
example : succeeds (setRaw chkEnv.ord b!"<root/>" b!"root.data" b!"<!DOCTYPE test><test/>") = some false := by decide +kernel
example : docOf (setRaw chkEnv.ord b!"<root/>" b!"root.data" b!"<!DOCTYPE test><test/>") = some b!"<root/>" := by decide +kernel
-- errors_test.go:TestSetErrors_RawXMLValidation:ENTITY in raw XML (security)
example : succeeds (setRaw chkEnv.ord b!"<root/>" b!"root.data" b!"<!ENTITY test 'value'><test/>") = some false := by decide +kernel
example : docOf (setRaw chkEnv.ord b!"<root/>" b!"root.data" b!"<!ENTITY test 'value'><test/>") = some b!"<root/>" := by decide +kernel
-- errors_test.go:TestSetErrors_RawXMLValidation:unclosed comment
example : succeeds (setRaw chkEnv.ord b!"<root/>" b!"root.data" b!"<!-- comment") = some false := by decide +kernel
example : docOf (setRaw chkEnv.ord b!"<root/>" b!"root.data" b!"<!-- comment") = some b!"<root/>" := by decide +kernel
-- errors_test.go:TestSetErrors_RawXMLValidation:valid raw XML
example : succeeds (setRaw chkEnv.ord b!"<root/>" b!"root.data" b!"<item>value</item>") = some true := by decide +kernel
-- errors_test.go:TestSetErrors_RawXMLValidation:valid self-closing
example : succeeds (setRaw chkEnv.ord b!"<root/>" b!"root.data" b!"<item/>") = some true := by decide +kernel
-- errors_test.go:TestSetErrors_RawXMLValidation:valid with CDATA
example : succeeds (setRaw chkEnv.ord b!"<root/>" b!"root.data" b!"<item><![CDATA[<tag>]]></item>") = some true := by decide +kernel
-- errors_test.go:TestSet_NoErrorOnValidOperations:update existing element
example : succeeds (set chkEnv.ord b!"<root><item>old</item></root>" b!"root.item" (.str b!"new")) = some true := by decide +kernel
-- errors_test.go:TestSet_NoErrorOnValidOperations:set attribute
example : succeeds (set chkEnv.ord b!"<root><item/></root>" b!"root.item.@id" (.str b!"123")) = some true := by decide +kernel
-- errors_test.go:TestSet_NoErrorOnValidOperations:set integer value
example : succeeds (set chkEnv.ord b!"<root/>" b!"root.count" (.int 42)) = some true := by decide +kernel
-- errors_test.go:TestSet_NoErrorOnValidOperations:set boolean value
example : succeeds (set chkEnv.ord b!"<root/>" b!"root.active" (.bool true)) = some true := by decide +kernel
-- errors_test.go:TestSet_NoErrorOnValidOperations:set nil (delete)
example : succeeds (set chkEnv.ord b!"<root><item>value</item></root>" b!"root.item" .nil) = some true := by decide +kernel
-- errors_test.go:TestSet_NoErrorOnValidOperations:set nested element
example : succeeds (set chkEnv.ord b!"<root/>" b!"root.a.b.c" (.str b!"deep")) = some true := by decide +kernel
-- errors_test.go:TestSet_RecoveryAfterError
example : succeeds (set chkEnv.ord b!"<root><item>value</item></root>" [] (.str b!"test")) = some false := by decide +kernel
-- fragment_test.go:TestFragmentSetOperations
example : succeeds (set chkEnv.ord b!"<user id=\"1\"><name>Alice</name></user><user id=\"2\"><name>Bob</name></user>" b!"user.name" (.str b!"Alicia")) = some true := by decide +kernel
example : succeeds (set chkEnv.ord b!"<user><name>Alice</name></user><user><name>Bob</name></user>" b!"user.age" (.str b!"30")) = some true := by decide +kernel
example : succeeds (set chkEnv.ord b!"<user><name>Alice</name></user><user><name>Bob</name></user>" b!"user.@id" (.str b!"100")) = some true := by decide +kernel
-- fragment_test.go:TestFragmentDeleteOperations
example : succeeds (delete chkEnv.ord b!"<user><name>Alice</name><age>30</age></user><user><name>Bob</name></user>" b!"user.age") = some true := by decide +kernel
example : succeeds (delete chkEnv.ord b!"<user id=\"1\"><name>Alice</name></user><user id=\"2\"><name>Bob</name></user>" b!"user.@id") = some true := by decide +kernel
-- fragment_test.go:TestFragmentWithProlog
example : succeeds (set chkEnv.ord b!"<?xml version=\"1.0\" encoding=\"UTF-8\"?>\n<item id=\"1\">First</item>\n<item id=\"2\">Second</item>" b!"item.@status" (.str b!"active")) = some true := by decide +kernel
-- fragment_test.go:TestFragmentWithComments
example : succeeds (set chkEnv.ord b!"<!-- First item -->\n<item>first</item>\n<!-- Second item -->\n<item>second</item>\n<!-- End -->" b!"item.@status" (.str b!"active")) = some true := by decide +kernel
-- fragment_test.go:TestSetFragmentSiblingRootsEdgeCases
example : succeeds (set chkEnv.ord b!"<a>1</a>\n  <b>2</b>" b!"c" (.str b!"3")) = some true := by decide +kernel
example : docOf (set chkEnv.ord b!"<a>1</a>\n  <b>2</b>" b!"c" (.str b!"3")) = some b!"<a>1</a>\n  <b>2</b><c>3</c>" := by decide +kernel
example : succeeds (set chkEnv.ord b!"<empty/>" b!"other" (.str b!"value")) = some true := by decide +kernel
example : docOf (set chkEnv.ord b!"<empty/>" b!"other" (.str b!"value")) = some b!"<empty/><other>value</other>" := by decide +kernel
example : succeeds (set chkEnv.ord b!"<config version=\"1.0\"><hostname>router1</hostname></config>" b!"status" (.str b!"active")) = some true := by decide +kernel
example : docOf (set chkEnv.ord b!"<config version=\"1.0\"><hostname>router1</hostname></config>" b!"status" (.str b!"active")) = some b!"<config version=\"1.0\"><hostname>router1</hostname></config><status>active</status>" := by decide +kernel
example : succeeds (set chkEnv.ord b!"<user>Alice</user><user>Bob</user>" b!"user.age" (.str b!"30")) = some true := by decide +kernel
example : docOf (set chkEnv.ord b!"<user>Alice</user><user>Bob</user>" b!"user.age" (.str b!"30")) = some b!"<user>Alice<age>30</age></user><user>Bob</user>" := by decide +kernel
example : succeeds (set chkEnv.ord b!"<config/><user>Alice</user>" b!"status.active" (.str b!"true")) = some true := by decide +kernel
example : docOf (set chkEnv.ord b!"<config/><user>Alice</user>" b!"status.active" (.str b!"true")) = some b!"<config/><user>Alice</user><status><active>true</active></status>" := by decide +kernel
example : succeeds (set chkEnv.ord b!"<standard><name>ACL1</name></standard>" b!"standard.description" (.str b!"Test ACL")) = some true := by decide +kernel
example : docOf (set chkEnv.ord b!"<standard><name>ACL1</name></standard>" b!"standard.description" (.str b!"Test ACL")) = some b!"<standard><name>ACL1</name><description>Test ACL</description></standard>" := by decide +kernel
-- fragment_test.go:TestSetFragmentSiblingRootsRawXML
example : succeeds (setRaw chkEnv.ord b!"<sequence>10</sequence>" b!"deny" b!"<child1>value1</child1><child2>value2</child2>") = some true := by decide +kernel
example : docOf (setRaw chkEnv.ord b!"<sequence>10</sequence>" b!"deny" b!"<child1>value1</child1><child2>value2</child2>") = some b!"<sequence>10</sequence><deny><child1>value1</child1><child2>value2</child2></deny>" := by decide +kernel
example : succeeds (setRaw chkEnv.ord b!"<config><hostname>router1</hostname></config>" b!"config.interfaces" b!"<interface>GigabitEthernet0/0</interface>") = some true := by decide +kernel
example : docOf (setRaw chkEnv.ord b!"<config><hostname>router1</hostname></config>" b!"config.interfaces" b!"<interface>GigabitEthernet0/0</interface>") = some b!"<config><hostname>router1</hostname><interfaces><interface>GigabitEthernet0/0</interface></interfaces></config>" := by decide +kernel
-- integration_test.go:TestIntegrationSVGDocument
example : succeeds (set chkEnv.ord b!"<?xml version=\"1.0\"?>\n<svg xmlns=\"http://www.w3.org/2000/svg\" width=\"100\" height=\"100\">\n  <circle cx=\"50\" cy=\"50\" r=\"40\" fill=\"red\"/>\n  <rect x=\"10\" y=\"10\" width=\"30\" height=\"30\" fill=\"blue\"/>\n  <text x=\"10\" y=\"90\" font-size=\"14\">Hello SVG</text>\n</svg>" b!"svg.circle.@fill" (.str b!"blue")) = some true := by decide +kernel
example : succeeds (set chkEnv.ord b!"<?xml version=\"1.0\"?>\n<svg xmlns=\"http://www.w3.org/2000/svg\" width=\"100\" height=\"100\">\n  <circle cx=\"50\" cy=\"50\" r=\"40\" fill=\"red\"/>\n  <rect x=\"10\" y=\"10\" width=\"30\" height=\"30\" fill=\"blue\"/>\n  <text x=\"10\" y=\"90\" font-size=\"14\">Hello SVG</text>\n</svg>" b!"svg.circle.@r" (.str b!"45")) = some true := by decide +kernel
example : succeeds (set chkEnv.ord b!"<?xml version=\"1.0\"?>\n<svg xmlns=\"http://www.w3.org/2000/svg\" width=\"100\" height=\"100\">\n  <circle cx=\"50\" cy=\"50\" r=\"40\" fill=\"red\"/>\n  <rect x=\"10\" y=\"10\" width=\"30\" height=\"30\" fill=\"blue\"/>\n  <text x=\"10\" y=\"90\" font-size=\"14\">Hello SVG</text>\n</svg>" b!"svg.text" (.str b!"Updated Text")) = some true := by decide +kernel
example : succeeds (delete chkEnv.ord b!"<?xml version=\"1.0\"?>\n<svg xmlns=\"http://www.w3.org/2000/svg\" width=\"100\" height=\"100\">\n  <circle cx=\"50\" cy=\"50\" r=\"40\" fill=\"red\"/>\n  <rect x=\"10\" y=\"10\" width=\"30\" height=\"30\" fill=\"blue\"/>\n  <text x=\"10\" y=\"90\" font-size=\"14\">Hello SVG</text>\n</svg>" b!"svg.rect") = some true := by decide +kernel
-- integration_test.go:TestIntegrationErrorRecovery
example : succeeds (delete chkEnv.ord b!"<data>\n  <items>\n    <item id=\"1\">Value 1</item>\n    <item id=\"2\">Value 2</item>\n  </items>\n</data>" b!"data.nonexistent.path") = some true := by decide +kernel
example : docOf (delete chkEnv.ord b!"<data>\n  <items>\n    <item id=\"1\">Value 1</item>\n    <item id=\"2\">Value 2</item>\n  </items>\n</data>" b!"data.nonexistent.path") = some b!"<data>\n  <items>\n    <item id=\"1\">Value 1</item>\n    <item id=\"2\">Value 2</item>\n  </items>\n</data>" := by decide +kernel
-- options_test.go:TestSetWithOptionsDefaultOptionsFastPath
example : succeeds (setWithOptions chkEnv.ord b!"<root><user><name>John</name></user></root>" b!"root.user.age" (.int 30) (some ⟨true, [], false, none⟩)) = some true := by decide +kernel
-- options_test.go:TestSetWithOptionsIndent
example : succeeds (setWithOptions chkEnv.ord b!"<root><user><name>John</name></user></root>" b!"root.user.age" (.int 30) (some ⟨true, b!"  ", false, none⟩)) = some true := by decide +kernel
-- options_test.go:TestSetWithOptionsCaseInsensitive
example : succeeds (setWithOptions chkEnv.ord b!"<ROOT><USER><NAME>John</NAME></USER></ROOT>" b!"root.user.age" (.int 30) (some ⟨false, [], false, none⟩)) = some true := by decide +kernel
-- options_test.go:TestSetWithOptionsCreateNew
example : succeeds (setWithOptions chkEnv.ord b!"<root></root>" b!"root.user.name" (.str b!"Alice") (some ⟨false, b!"  ", false, none⟩)) = some true := by decide +kernel
-- options_test.go:TestSetWithOptionsAttributes
example : succeeds (setWithOptions chkEnv.ord b!"<root><user id=\"123\"/></root>" b!"root.user.@name" (.str b!"Alice") (some ⟨false, [], false, none⟩)) = some true := by decide +kernel
-- options_test.go:TestSetWithOptionsPreserveStructure
example : succeeds (setWithOptions chkEnv.ord b!"<root><user><name>John</name><age>30</age></user></root>" b!"root.user.age" (.int 31) (some ⟨true, [], false, none⟩)) = some true := by decide +kernel
-- options_test.go:TestSetWithOptionsIndentDeepNesting
example : succeeds (setWithOptions chkEnv.ord b!"<root></root>" b!"root.level1.level2.level3.level4.value" (.str b!"deep") (some ⟨true, b!"  ", false, none⟩)) = some true := by decide +kernel
-- options_test.go:TestOptionsCustomIndentString
example : succeeds (setWithOptions chkEnv.ord b!"<root></root>" b!"root.child.value" (.str b!"test") (some ⟨true, b!"    ", false, none⟩)) = some true := by decide +kernel
example : succeeds (setWithOptions chkEnv.ord b!"<root></root>" b!"root.child.value" (.str b!"test") (some ⟨true, b!"\t", false, none⟩)) = some true := by decide +kernel
-- options_test.go:TestOptionsCombinedCaseInsensitiveAndIndent
example : succeeds (setWithOptions chkEnv.ord b!"<ROOT><USER><NAME>John</NAME></USER></ROOT>" b!"root.user.age" (.int 30) (some ⟨false, b!"  ", false, none⟩)) = some true := by decide +kernel
-- set_test.go:TestSet_ElementSetting:update existing element
example : succeeds (set chkEnv.ord b!"<root><user><name>John</name></user></root>" b!"root.user.name" (.str b!"Jane")) = some true := by decide +kernel
example : docOf (set chkEnv.ord b!"<root><user><name>John</name></user></root>" b!"root.user.name" (.str b!"Jane")) = some b!"<root><user><name>Jane</name></user></root>" := by decide +kernel
-- set_test.go:TestSet_ElementSetting:update nested element
example : succeeds (set chkEnv.ord b!"<root><level1><level2><value>old</value></level2></level1></root>" b!"root.level1.level2.value" (.str b!"new")) = some true := by decide +kernel
example : docOf (set chkEnv.ord b!"<root><level1><level2><value>old</value></level2></level1></root>" b!"root.level1.level2.value" (.str b!"new")) = some b!"<root><level1><level2><value>new</value></level2></level1></root>" := by decide +kernel
-- set_test.go:TestSet_ElementSetting:update with int value
example : succeeds (set chkEnv.ord b!"<root><age>30</age></root>" b!"root.age" (.int 35)) = some true := by decide +kernel
example : docOf (set chkEnv.ord b!"<root><age>30</age></root>" b!"root.age" (.int 35)) = some b!"<root><age>35</age></root>" := by decide +kernel
-- set_test.go:TestSet_ElementSetting:update with bool value
example : succeeds (set chkEnv.ord b!"<root><active>false</active></root>" b!"root.active" (.bool true)) = some true := by decide +kernel
example : docOf (set chkEnv.ord b!"<root><active>false</active></root>" b!"root.active" (.bool true)) = some b!"<root><active>true</active></root>" := by decide +kernel
-- set_test.go:TestSet_ElementSetting:update with special characters
example : succeeds (set chkEnv.ord b!"<root><data>old</data></root>" b!"root.data" (.str b!"<test>&\"'")) = some true := by decide +kernel
example : docOf (set chkEnv.ord b!"<root><data>old</data></root>" b!"root.data" (.str b!"<test>&\"'")) = some b!"<root><data>&lt;test&gt;&amp;&quot;&apos;</data></root>" := by decide +kernel
-- set_test.go:TestSet_AttributeSetting:update existing attribute
example : succeeds (set chkEnv.ord b!"<user id=\"123\"><name>John</name></user>" b!"user.@id" (.str b!"456")) = some true := by decide +kernel
-- set_test.go:TestSet_AttributeSetting:create new attribute
example : succeeds (set chkEnv.ord b!"<user id=\"123\"><name>John</name></user>" b!"user.@active" (.str b!"true")) = some true := by decide +kernel
-- set_test.go:TestSet_AttributeSetting:update attribute with escaping
example : succeeds (set chkEnv.ord b!"<item id=\"1\"></item>" b!"item.@value" (.str b!"\"test\"")) = some true := by decide +kernel
-- set_test.go:TestSet_AttributeSetting:update attribute on nested element
example : succeeds (set chkEnv.ord b!"<root><user id=\"1\"><name>John</name></user></root>" b!"root.user.@id" (.str b!"2")) = some true := by decide +kernel
-- set_test.go:TestSet_ElementCreation:create single missing element
example : docOf (set chkEnv.ord b!"<root><user><name>John</name></user></root>" b!"root.user.age" (.int 30)) = some b!"<root><user><name>John</name><age>30</age></user></root>" := by decide +kernel
-- set_test.go:TestSet_ElementCreation:create multiple missing levels
example : succeeds (set chkEnv.ord b!"<root></root>" b!"root.user.name" (.str b!"John")) = some true := by decide +kernel
example : docOf (set chkEnv.ord b!"<root></root>" b!"root.user.name" (.str b!"John")) = some b!"<root><user><name>John</name></user></root>" := by decide +kernel
-- set_test.go:TestSet_ElementCreation:create in empty root
example : succeeds (set chkEnv.ord b!"<root/>" b!"root.data" (.str b!"test")) = some true := by decide +kernel
example : docOf (set chkEnv.ord b!"<root/>" b!"root.data" (.str b!"test")) = some b!"<root><data>test</data></root>" := by decide +kernel
-- set_test.go:TestSet_ElementCreation:create deeply nested path
example : succeeds (set chkEnv.ord b!"<root></root>" b!"root.a.b.c.d" (.str b!"deep")) = some true := by decide +kernel
example : docOf (set chkEnv.ord b!"<root></root>" b!"root.a.b.c.d" (.str b!"deep")) = some b!"<root><a><b><c><d>deep</d></c></b></a></root>" := by decide +kernel
-- set_test.go:TestSet_AttributeCreation:create attribute on missing single element
example : succeeds (set chkEnv.ord b!"<root></root>" b!"root.user.@id" (.str b!"123")) = some true := by decide +kernel
example : docOf (set chkEnv.ord b!"<root></root>" b!"root.user.@id" (.str b!"123")) = some b!"<root><user id=\"123\"></user></root>" := by decide +kernel
-- set_test.go:TestSet_AttributeCreation:create attribute on missing nested path
example : succeeds (set chkEnv.ord b!"<root></root>" b!"root.a.b.c.@id" (.str b!"deep")) = some true := by decide +kernel
example : docOf (set chkEnv.ord b!"<root></root>" b!"root.a.b.c.@id" (.str b!"deep")) = some b!"<root><a><b><c id=\"deep\"></c></b></a></root>" := by decide +kernel
-- set_test.go:TestSet_AttributeCreation:create attribute in self-closing root
example : succeeds (set chkEnv.ord b!"<root/>" b!"root.user.@active" (.str b!"true")) = some true := by decide +kernel
example : docOf (set chkEnv.ord b!"<root/>" b!"root.user.@active" (.str b!"true")) = some b!"<root><user active=\"true\"></user></root>" := by decide +kernel
-- set_test.go:TestSet_AttributeCreation:create attribute with special characters
example : succeeds (set chkEnv.ord b!"<root></root>" b!"root.item.@value" (.str b!"\"test\"")) = some true := by decide +kernel
example : docOf (set chkEnv.ord b!"<root></root>" b!"root.item.@value" (.str b!"\"test\"")) = some b!"<root><item value=\"&quot;test&quot;\"></item></root>" := by decide +kernel
-- set_test.go:TestSet_AttributeCreation:create attribute with partial existing path
example : succeeds (set chkEnv.ord b!"<root><user></user></root>" b!"root.user.contact.@email" (.str b!"test@example.com")) = some true := by decide +kernel
example : docOf (set chkEnv.ord b!"<root><user></user></root>" b!"root.user.contact.@email" (.str b!"test@example.com")) = some b!"<root><user><contact email=\"test@example.com\"></contact></user></root>" := by decide +kernel
-- set_test.go:TestSet_AttributeCreation:create attribute with empty value
example : succeeds (set chkEnv.ord b!"<root></root>" b!"root.item.@flag" (.str [])) = some true := by decide +kernel
example : docOf (set chkEnv.ord b!"<root></root>" b!"root.item.@flag" (.str [])) = some b!"<root><item flag=\"\"></item></root>" := by decide +kernel
-- set_test.go:TestSet_AttributeCreation:create attribute with numeric value
example : succeeds (set chkEnv.ord b!"<root></root>" b!"root.item.@count" (.int 42)) = some true := by decide +kernel
example : docOf (set chkEnv.ord b!"<root></root>" b!"root.item.@count" (.int 42)) = some b!"<root><item count=\"42\"></item></root>" := by decide +kernel
-- set_test.go:TestSet_AttributeCreation:create attribute on root element
example : succeeds (set chkEnv.ord b!"<root></root>" b!"root.@version" (.str b!"1.0")) = some true := by decide +kernel
example : docOf (set chkEnv.ord b!"<root></root>" b!"root.@version" (.str b!"1.0")) = some b!"<root version=\"1.0\"></root>" := by decide +kernel
-- set_test.go:TestSet_AttributeCreationPreservesStructure
example : succeeds (set chkEnv.ord b!"<root><existing><data>value</data></existing></root>" b!"root.new.@attr" (.str b!"test")) = some true := by decide +kernel
-- set_test.go:TestSetBytes
example : succeeds (set chkEnv.ord b!"<root><value>old</value></root>" b!"root.value" (.str b!"new")) = some true := by decide +kernel
-- set_test.go:TestSet_NilValue
example : succeeds (set chkEnv.ord b!"<root><user><name>John</name><age>30</age></user></root>" b!"root.user.age" .nil) = some true := by decide +kernel
example : docOf (set chkEnv.ord b!"<root><user><name>John</name><age>30</age></user></root>" b!"root.user.age" .nil) = some b!"<root><user><name>John</name></user></root>" := by decide +kernel
-- set_test.go:TestSet_Errors:empty path
example : succeeds (set chkEnv.ord b!"<root></root>" [] (.str b!"test")) = some false := by decide +kernel
-- set_test.go:TestSet_ArrayIndex:update first element
example : succeeds (set chkEnv.ord b!"<root>\n\t\t\t\t<item>first</item>\n\t\t\t\t<item>second</item>\n\t\t\t\t<item>third</item>\n\t\t\t</root>" b!"root.item.0" (.str b!"updated")) = some true := by decide +kernel
-- set_test.go:TestSet_ArrayIndex:update middle element
example : succeeds (set chkEnv.ord b!"<root>\n\t\t\t\t<item>first</item>\n\t\t\t\t<item>second</item>\n\t\t\t\t<item>third</item>\n\t\t\t</root>" b!"root.item.1" (.str b!"updated")) = some true := by decide +kernel
-- set_test.go:TestSet_DeepNesting
example : succeeds (set chkEnv.ord b!"<root><level1><level2><level3><target>old</target></level3></level2></level1></root>" b!"root.level1.level2.level3.target" (.str b!"new")) = some true := by decide +kernel
-- set_test.go:TestSet_MultipleNested
example : succeeds (set chkEnv.ord b!"<root>\n\t\t<user>\n\t\t\t<name>John</name>\n\t\t\t<address>\n\t\t\t\t<city>NYC</city>\n\t\t\t\t<zip>10001</zip>\n\t\t\t</address>\n\t\t</user>\n\t</root>" b!"root.user.address.city" (.str b!"LA")) = some true := by decide +kernel
-- set_test.go:TestSet_DeepNestingWithAttributes
example : succeeds (set chkEnv.ord b!"<root><a><b id=\"1\"><c><d>value</d></c></b></a></root>" b!"root.a.b.c.d" (.str b!"newvalue")) = some true := by decide +kernel
-- set_test.go:TestSet_NestedSiblings
example : succeeds (set chkEnv.ord b!"<root>\n\t\t<section>\n\t\t\t<item>first</item>\n\t\t\t<nested>\n\t\t\t\t<value>nested1</value>\n\t\t\t</nested>\n\t\t\t<item>second</item>\n\t\t</section>\n\t</root>" b!"root.section.nested.value" (.str b!"modified")) = some true := by decide +kernel
-- set_test.go:TestSetMalformedXMLRegression:unclosed nested tag
example : succeeds (set chkEnv.ord b!"<root><user>" b!"root.user.name" (.str b!"John")) = some false := by decide +kernel
example : docOf (set chkEnv.ord b!"<root><user>" b!"root.user.name" (.str b!"John")) = some b!"<root><user>" := by decide +kernel
-- set_test.go:TestSetMalformedXMLRegression:mismatched closing tag
example : succeeds (set chkEnv.ord b!"<root><user></root>" b!"root.user" (.str b!"value")) = some false := by decide +kernel
example : docOf (set chkEnv.ord b!"<root><user></root>" b!"root.user" (.str b!"value")) = some b!"<root><user></root>" := by decide +kernel
-- set_test.go:TestSetMalformedXMLRegression:missing opening tag
example : succeeds (set chkEnv.ord b!"<root></user></root>" b!"root.user" (.str b!"value")) = some false := by decide +kernel
example : docOf (set chkEnv.ord b!"<root></user></root>" b!"root.user" (.str b!"value")) = some b!"<root></user></root>" := by decide +kernel
-- set_test.go:TestSetMalformedXMLRegression:unclosed attribute quote
example : succeeds (set chkEnv.ord b!"<root attr=\"value><item>test</item></root>" b!"root.item" (.str b!"new")) = some false := by decide +kernel
example : docOf (set chkEnv.ord b!"<root attr=\"value><item>test</item></root>" b!"root.item" (.str b!"new")) = some b!"<root attr=\"value><item>test</item></root>" := by decide +kernel
-- set_test.go:TestSetMalformedXMLRegression:valid XML should work
example : succeeds (set chkEnv.ord b!"<root></root>" b!"root.item" (.str b!"value")) = some true := by decide +kernel
-- set_test.go:TestDeleteMalformedXMLRegression:unclosed root tag
example : succeeds (delete chkEnv.ord b!"<root>" b!"root") = some false := by decide +kernel
example : docOf (delete chkEnv.ord b!"<root>" b!"root") = some b!"<root>" := by decide +kernel
-- set_test.go:TestDeleteMalformedXMLRegression:unclosed nested tag
example : succeeds (delete chkEnv.ord b!"<root><user>" b!"root.user") = some false := by decide +kernel
example : docOf (delete chkEnv.ord b!"<root><user>" b!"root.user") = some b!"<root><user>" := by decide +kernel
-- set_test.go:TestDeleteMalformedXMLRegression:mismatched closing tag
example : succeeds (delete chkEnv.ord b!"<root><user></root>" b!"root.user") = some false := by decide +kernel
example : docOf (delete chkEnv.ord b!"<root><user></root>" b!"root.user") = some b!"<root><user></root>" := by decide +kernel
-- set_test.go:TestDeleteMalformedXMLRegression:valid XML should work
example : succeeds (delete chkEnv.ord b!"<root><item>test</item></root>" b!"root.item") = some true := by decide +kernel

end Verif.Check
