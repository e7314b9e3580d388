import Verif.Model.GetOpt
import Verif.Model.Modifier
import Verif.Model.Set
/-
Expectations about Get and GetWithOptions written down in the test files of /repo, checked against the model. They are tests of the translation, not
proofs of properties; each comment names the file and the test it is taken from.
-/
namespace Verif.Check
open Verif

/-- Decimal numbers, as much of strconv.ParseFloat as the tests need. -/
def digits (s : Bytes) : Option Nat := if s ≠ [] ∧ s.all isDigit then some (digitsVal s) else none
def decimal (s : Bytes) : Option Rat :=
  match splitOn c!"." s with
  | [i] => (digits i).map (fun n => (n : Rat))
  | [i, f] => match digits i, digits f with
    | some n, some m => some (mkRat (n * 10 ^ f.length + m : Nat) (10 ^ f.length))
    | _, _ => none
  | _ => none
def chkFloat (s : Bytes) : Option FVal :=
  match s with
  | 45 :: r => (decimal r).map (fun q => .fin (-q))
  | r => (decimal r).map .fin

def insertBy (less : Result → Result → Bool) (x : Result) : List Result → List Result
  | [] => [x]
  | y :: ys => if less x y then x :: y :: ys else y :: insertBy less x ys

def chkEnv : Env := ⟨fun _ l => l, builtinMods (fun less l => l.foldr (insertBy less) []) chkFloat id, chkFloat⟩

def strOf : Outcome Result → Option Bytes
  | .ret r => some r.toStr
  | .panic => none
def existsOf : Outcome Result → Option Bool
  | .ret r => some r.exists?
  | .panic => none

-- append_test.go:TestSet_AppendMixedSiblings
example : strOf (get chkEnv b!"<root><item>A</item><other>X</other><item>B</item><item>C</item><foo>Y</foo></root>" b!"root.item.2") = some b!"C" := by decide +kernel
example : strOf (get chkEnv b!"<root><item>A</item><other>X</other><item>B</item><item>C</item><foo>Y</foo></root>" b!"root.other") = some b!"X" := by decide +kernel
-- append_test.go:TestSet_AppendPreservesAttributes
example : strOf (get chkEnv b!"<root><items id=\"list1\" class=\"active\"><item>A</item><item>B</item></items></root>" b!"root.items.item.1") = some b!"B" := by decide +kernel
example : strOf (get chkEnv b!"<root><items id=\"list1\" class=\"active\"><item>A</item><item>B</item></items></root>" b!"root.items.@id") = some b!"list1" := by decide +kernel
example : strOf (get chkEnv b!"<root><items id=\"list1\" class=\"active\"><item>A</item><item>B</item></items></root>" b!"root.items.@class") = some b!"active" := by decide +kernel
-- append_test.go:TestSet_AppendToEmptyArrayEdgeCases
example : strOf (get chkEnv b!"<root><other>existing</other><item>new</item></root>" b!"root.item.0") = some b!"new" := by decide +kernel
example : strOf (get chkEnv b!"<root><other>existing</other><item>new</item></root>" b!"root.other") = some b!"existing" := by decide +kernel
example : strOf (get chkEnv b!"<root>\n  <item>value</item></root>" b!"root.item.0") = some b!"value" := by decide +kernel
example : strOf (get chkEnv b!"<root><a>1</a><b>2</b><item>new</item></root>" b!"root.a") = some b!"1" := by decide +kernel
example : strOf (get chkEnv b!"<root><a>1</a><b>2</b><item>new</item></root>" b!"root.b") = some b!"2" := by decide +kernel
example : strOf (get chkEnv b!"<root><a>1</a><b>2</b><item>new</item></root>" b!"root.item.0") = some b!"new" := by decide +kernel
example : strOf (get chkEnv b!"<root><item>A</item><item>B</item><item>C</item></root>" b!"root.item.2") = some b!"C" := by decide +kernel
example : strOf (get chkEnv b!"<root><item>A</item><item>B</item><item>C</item></root>" b!"root.item.0") = some b!"A" := by decide +kernel
example : strOf (get chkEnv b!"<root><item>A</item><item>B</item><item>C</item></root>" b!"root.item.1") = some b!"B" := by decide +kernel
example : strOf (get chkEnv b!"<root><item><name>Test</name></item></root>" b!"root.item.0.name") = some b!"Test" := by decide +kernel
example : strOf (get chkEnv b!"<root><level1><level2><item>deep</item></level2></level1></root>" b!"root.level1.level2.item.0") = some b!"deep" := by decide +kernel
-- delete_test.go:TestDelete_Integration
example : existsOf (get chkEnv b!"<root><user><name>John</name><email>john@example.com</email></user></root>" b!"root.user.age") = some false := by decide +kernel
example : strOf (get chkEnv b!"<root><user><name>John</name><email>john@example.com</email></user></root>" b!"root.user.name") = some b!"John" := by decide +kernel
example : strOf (get chkEnv b!"<root><user><name>John</name><email>john@example.com</email></user></root>" b!"root.user.email") = some b!"john@example.com" := by decide +kernel
-- delete_test.go:TestSetDelete_Integration
example : existsOf (get chkEnv b!"<root><user><name>John</name></user></root>" b!"root.user.age") = some false := by decide +kernel
example : strOf (get chkEnv b!"<root><user><name>John</name></user></root>" b!"root.user.name") = some b!"John" := by decide +kernel
-- delete_test.go:TestDelete_LastElement
example : existsOf (get chkEnv b!"<root><user></user></root>" b!"root.user") = some true := by decide +kernel
-- edge_test.go:TestEdgeBoundaries_EmptyArrays:No matching elements
example : strOf (get chkEnv b!"<root></root>" b!"root.item") = some [] := by decide +kernel
-- edge_test.go:TestEdgeBoundaries_EmptyArrays:Index into non-existent array
example : strOf (get chkEnv b!"<root></root>" b!"root.item.0") = some [] := by decide +kernel
-- edge_test.go:TestEdgeBoundaries_EmptyArrays:Wildcard on empty
example : strOf (get chkEnv b!"<root></root>" b!"root.*") = some [] := by decide +kernel
-- edge_test.go:TestEdgeBoundaries_SpecialNumbers:Zero
example : existsOf (get chkEnv b!"<root><item>0</item></root>" b!"root.item") = some true := by decide +kernel
-- edge_test.go:TestEdgeBoundaries_SpecialNumbers:Negative number
example : existsOf (get chkEnv b!"<root><item>-42</item></root>" b!"root.item") = some true := by decide +kernel
-- edge_test.go:TestEdgeBoundaries_SpecialNumbers:Large integer
example : existsOf (get chkEnv b!"<root><item>9223372036854775807</item></root>" b!"root.item") = some true := by decide +kernel
-- edge_test.go:TestEdgeBoundaries_SpecialNumbers:Float
example : existsOf (get chkEnv b!"<root><item>3.14159</item></root>" b!"root.item") = some true := by decide +kernel
-- edge_test.go:TestEdgeBoundaries_SpecialNumbers:Boolean true
example : existsOf (get chkEnv b!"<root><item>true</item></root>" b!"root.item") = some true := by decide +kernel
-- edge_test.go:TestEdgeBoundaries_SpecialNumbers:Boolean false
example : existsOf (get chkEnv b!"<root><item>false</item></root>" b!"root.item") = some true := by decide +kernel
-- edge_test.go:TestEdgeErrors_RecoveryFromErrors
example : strOf (get chkEnv b!"<root><item>value</item></root>" b!"root.item") = some b!"value" := by decide +kernel
example : strOf (get chkEnv b!"<root><item>newvalue</item></root>" b!"root.item") = some b!"newvalue" := by decide +kernel
-- edge_test.go:TestEdgeNamespace_DefaultNamespace:Default namespace on root
example : strOf (get chkEnv b!"<root xmlns=\"http://example.com\"><item>value</item></root>" b!"root.item") = some b!"value" := by decide +kernel
-- edge_test.go:TestEdgeNamespace_DefaultNamespace:Default namespace on child
example : strOf (get chkEnv b!"<root><item xmlns=\"http://example.com\">value</item></root>" b!"root.item") = some b!"value" := by decide +kernel
-- edge_test.go:TestEdgeNamespace_DefaultNamespace:Changing default namespace
example : strOf (get chkEnv b!"<root xmlns=\"http://a.com\"><item xmlns=\"http://b.com\">value</item></root>" b!"root.item") = some b!"value" := by decide +kernel
-- edge_test.go:TestEdgeNamespace_PrefixedNamespaces:Single namespace prefix
example : strOf (get chkEnv b!"<root xmlns:ns=\"http://example.com\"><ns:item>value</ns:item></root>" b!"root.ns:item") = some b!"value" := by decide +kernel
-- edge_test.go:TestEdgeNamespace_PrefixedNamespaces:Multiple namespace prefixes
example : strOf (get chkEnv b!"<root xmlns:a=\"http://a.com\" xmlns:b=\"http://b.com\"><a:item>val1</a:item><b:item>val2</b:item></root>" b!"root.b:item") = some b!"val2" := by decide +kernel
-- edge_test.go:TestEdgeNamespace_PrefixedNamespaces:Nested namespace declarations
example : strOf (get chkEnv b!"<root xmlns:ns=\"http://example.com\"><ns:outer><ns:inner>value</ns:inner></ns:outer></root>" b!"root.ns:outer.ns:inner") = some b!"value" := by decide +kernel
-- edge_test.go:TestEdgeNamespace_PrefixedNamespaces:Namespace prefix on attribute
example : strOf (get chkEnv b!"<root xmlns:ns=\"http://example.com\"><item ns:attr=\"value\">text</item></root>" b!"root.item.@ns:attr") = some b!"value" := by decide +kernel
-- edge_test.go:TestEdgeNamespace_XMLNamespace:xml:lang attribute
example : strOf (get chkEnv b!"<root><item xml:lang=\"en\">value</item></root>" b!"root.item.@xml:lang") = some b!"en" := by decide +kernel
-- edge_test.go:TestEdgeNamespace_XMLNamespace:xml:space attribute
example : strOf (get chkEnv b!"<root><item xml:space=\"preserve\">value</item></root>" b!"root.item.@xml:space") = some b!"preserve" := by decide +kernel
-- edge_test.go:TestEdgeNamespace_XMLNamespace:xml:id attribute
example : strOf (get chkEnv b!"<root><item xml:id=\"id123\">value</item></root>" b!"root.item.@xml:id") = some b!"id123" := by decide +kernel
-- edge_test.go:TestEdgeNamespace_NamespaceDeclarationAttributes:Default namespace declaration
example : strOf (get chkEnv b!"<root xmlns=\"http://example.com\"><item>value</item></root>" b!"root.@xmlns") = some b!"http://example.com" := by decide +kernel
-- edge_test.go:TestEdgeNamespace_NamespaceDeclarationAttributes:Prefixed namespace declaration
example : strOf (get chkEnv b!"<root xmlns:ns=\"http://example.com\"><item>value</item></root>" b!"root.@xmlns:ns") = some b!"http://example.com" := by decide +kernel
-- edge_test.go:TestEdgeNamespace_NamespaceDeclarationAttributes:Multiple namespace declarations
example : strOf (get chkEnv b!"<root xmlns:a=\"http://a.com\" xmlns:b=\"http://b.com\"><item>value</item></root>" b!"root.@xmlns:b") = some b!"http://b.com" := by decide +kernel
-- edge_test.go:TestEdgeNamespace_NamespacePrefixSameAsElement:Prefix same as element name
example : strOf (get chkEnv b!"<root xmlns:item=\"http://example.com\"><item:item>value</item:item></root>" b!"root.item:item") = some b!"value" := by decide +kernel
-- edge_test.go:TestEdgeNamespace_NamespacePrefixSameAsElement:Unprefixed and prefixed same name
example : strOf (get chkEnv b!"<root xmlns:ns=\"http://example.com\"><item>val1</item><ns:item>val2</ns:item></root>" b!"root.item") = some b!"val1" := by decide +kernel
-- edge_test.go:TestEdgeNamespace_EmptyNamespace:Empty default namespace
example : strOf (get chkEnv b!"<root xmlns=\"\"><item>value</item></root>" b!"root.item") = some b!"value" := by decide +kernel
-- edge_test.go:TestEdgeNamespace_EmptyNamespace:Resetting to empty namespace
example : strOf (get chkEnv b!"<root xmlns=\"http://example.com\"><item xmlns=\"\">value</item></root>" b!"root.item") = some b!"value" := by decide +kernel
-- edge_test.go:TestEdgeNamespace_MultipleDefaultNamespaces:Nested default namespace changes
example : strOf (get chkEnv b!"<root xmlns=\"http://a.com\"><outer xmlns=\"http://b.com\"><inner xmlns=\"http://c.com\">value</inner></outer></root>" b!"root.outer.inner") = some b!"value" := by decide +kernel
-- edge_test.go:TestEdgeNamespace_MultipleDefaultNamespaces:Sibling default namespace changes
example : strOf (get chkEnv b!"<root><a xmlns=\"http://a.com\">val1</a><b xmlns=\"http://b.com\">val2</b></root>" b!"root.b") = some b!"val2" := by decide +kernel
-- edge_test.go:TestEdgeNamespace_NamespaceInheritance:Mixed prefixed and unprefixed
example : strOf (get chkEnv b!"<root xmlns:ns=\"http://example.com\"><ns:outer><inner>value</inner></ns:outer></root>" b!"root.ns:outer.inner") = some b!"value" := by decide +kernel
-- edge_test.go:TestEdgeNamespace_SetWithNamespaces:Set on prefixed element
example : strOf (get chkEnv b!"<root xmlns:ns=\"http://example.com\"><ns:item>new</ns:item></root>" b!"root.ns:item") = some b!"new" := by decide +kernel
-- edge_test.go:TestEdgeNamespace_SetWithNamespaces:Set on element with default namespace
example : strOf (get chkEnv b!"<root xmlns=\"http://example.com\"><item>new</item></root>" b!"root.item") = some b!"new" := by decide +kernel
-- edge_test.go:TestEdgeNamespace_SetWithNamespaces:Set creates element without namespace awareness
example : strOf (get chkEnv b!"<root xmlns:ns=\"http://example.com\"><newitem>value</newitem></root>" b!"root.newitem") = some b!"value" := by decide +kernel
-- edge_test.go:TestEdgeNamespace_SpecialCharactersInNamespaceURI:URI with query string
example : strOf (get chkEnv b!"<root xmlns:ns=\"http://example.com?version=1.0\"><ns:item>value</ns:item></root>" b!"root.ns:item") = some b!"value" := by decide +kernel
-- edge_test.go:TestEdgeNamespace_SpecialCharactersInNamespaceURI:URI with fragment
example : strOf (get chkEnv b!"<root xmlns:ns=\"http://example.com#section\"><ns:item>value</ns:item></root>" b!"root.ns:item") = some b!"value" := by decide +kernel
-- edge_test.go:TestEdgeNamespace_SpecialCharactersInNamespaceURI:URI with special characters
example : strOf (get chkEnv b!"<root xmlns:ns=\"http://example.com/path/to/schema\"><ns:item>value</ns:item></root>" b!"root.ns:item") = some b!"value" := by decide +kernel
-- edge_test.go:TestEdgeStructure_CDATA:Empty CDATA
example : strOf (get chkEnv b!"<root><data><![CDATA[]]></data></root>" b!"root.data") = some [] := by decide +kernel
-- edge_test.go:TestEdgeStructure_Comments:Comment before element
example : strOf (get chkEnv b!"<root><!-- comment --><item>value</item></root>" b!"root.item") = some b!"value" := by decide +kernel
-- edge_test.go:TestEdgeStructure_Comments:Comment after element
example : strOf (get chkEnv b!"<root><item>value</item><!-- comment --></root>" b!"root.item") = some b!"value" := by decide +kernel
-- edge_test.go:TestEdgeStructure_Comments:Comment between elements
example : strOf (get chkEnv b!"<root><item1>val1</item1><!-- comment --><item2>val2</item2></root>" b!"root.item2") = some b!"val2" := by decide +kernel
-- edge_test.go:TestEdgeStructure_Comments:Multiple comments
example : strOf (get chkEnv b!"<root><!-- c1 --><!-- c2 --><item>value</item><!-- c3 --></root>" b!"root.item") = some b!"value" := by decide +kernel
-- edge_test.go:TestEdgeStructure_Comments:Comment with dashes
example : strOf (get chkEnv b!"<root><!-- comment-with-dashes --><item>value</item></root>" b!"root.item") = some b!"value" := by decide +kernel
-- edge_test.go:TestEdgeStructure_Comments:Multi-line comment
example : strOf (get chkEnv b!"<root><!-- line1\nline2\nline3 --><item>value</item></root>" b!"root.item") = some b!"value" := by decide +kernel
-- edge_test.go:TestEdgeStructure_Comments:Comment at document start
example : strOf (get chkEnv b!"<!-- document comment --><root><item>value</item></root>" b!"root.item") = some b!"value" := by decide +kernel
-- edge_test.go:TestEdgeStructure_ProcessingInstructions:XML declaration
example : strOf (get chkEnv b!"<?xml version=\"1.0\" encoding=\"UTF-8\"?><root><item>value</item></root>" b!"root.item") = some b!"value" := by decide +kernel
-- edge_test.go:TestEdgeStructure_ProcessingInstructions:PI before element
example : strOf (get chkEnv b!"<root><?target data?><item>value</item></root>" b!"root.item") = some b!"value" := by decide +kernel
-- edge_test.go:TestEdgeStructure_ProcessingInstructions:PI after element
example : strOf (get chkEnv b!"<root><item>value</item><?target data?></root>" b!"root.item") = some b!"value" := by decide +kernel
-- edge_test.go:TestEdgeStructure_ProcessingInstructions:Multiple PIs
example : strOf (get chkEnv b!"<?pi1 data1?><?pi2 data2?><root><item>value</item></root>" b!"root.item") = some b!"value" := by decide +kernel
-- edge_test.go:TestEdgeStructure_ProcessingInstructions:PI with attributes
example : strOf (get chkEnv b!"<root><?stylesheet type=\"text/xsl\" href=\"style.xsl\"?><item>value</item></root>" b!"root.item") = some b!"value" := by decide +kernel
-- edge_test.go:TestEdgeStructure_MixedContent:Text before child
example : strOf (get chkEnv b!"<root>text1<child>value</child></root>" b!"root") = some b!"text1value" := by decide +kernel
-- edge_test.go:TestEdgeStructure_MixedContent:Text after child
example : strOf (get chkEnv b!"<root><child>value</child>text2</root>" b!"root") = some b!"valuetext2" := by decide +kernel
-- edge_test.go:TestEdgeStructure_MixedContent:Text between children
example : strOf (get chkEnv b!"<root><child1>val1</child1>middle<child2>val2</child2></root>" b!"root") = some b!"val1middleval2" := by decide +kernel
-- edge_test.go:TestEdgeStructure_MixedContent:Text surrounding child
example : strOf (get chkEnv b!"<root>before<child>value</child>after</root>" b!"root") = some b!"beforevalueafter" := by decide +kernel
-- edge_test.go:TestEdgeStructure_MixedContent:Direct text extraction with %
example : strOf (get chkEnv b!"<root>direct<child>nested</child>text</root>" b!"root.%") = some b!"directtext" := by decide +kernel
-- edge_test.go:TestEdgeStructure_MixedContent:Multiple text nodes
example : strOf (get chkEnv b!"<root>text1<c1>v1</c1>text2<c2>v2</c2>text3</root>" b!"root") = some b!"text1v1text2v2text3" := by decide +kernel
-- edge_test.go:TestEdgeStructure_EmptyElements:Self-closing tag
example : strOf (get chkEnv b!"<root><item/></root>" b!"root.item") = some [] := by decide +kernel
-- edge_test.go:TestEdgeStructure_EmptyElements:Empty tag pair
example : strOf (get chkEnv b!"<root><item></item></root>" b!"root.item") = some [] := by decide +kernel
-- edge_test.go:TestEdgeStructure_EmptyElements:Self-closing with attributes
example : strOf (get chkEnv b!"<root><item attr='val'/></root>" b!"root.item") = some [] := by decide +kernel
-- edge_test.go:TestEdgeStructure_EmptyElements:Self-closing with space
example : strOf (get chkEnv b!"<root><item /></root>" b!"root.item") = some [] := by decide +kernel
-- edge_test.go:TestEdgeStructure_EmptyElements:Empty with whitespace
example : strOf (get chkEnv b!"<root><item>   </item></root>" b!"root.item") = some [] := by decide +kernel
-- edge_test.go:TestEdgeStructure_EmptyElements:Empty with newlines
example : strOf (get chkEnv b!"<root><item>\n\t\n</item></root>" b!"root.item") = some [] := by decide +kernel
-- edge_test.go:TestEdgeStructure_Whitespace:Leading whitespace
example : strOf (get chkEnv b!"<root><item>   value</item></root>" b!"root.item") = some b!"value" := by decide +kernel
-- edge_test.go:TestEdgeStructure_Whitespace:Trailing whitespace
example : strOf (get chkEnv b!"<root><item>value   </item></root>" b!"root.item") = some b!"value" := by decide +kernel
-- edge_test.go:TestEdgeStructure_Whitespace:Both leading and trailing
example : strOf (get chkEnv b!"<root><item>   value   </item></root>" b!"root.item") = some b!"value" := by decide +kernel
-- edge_test.go:TestEdgeStructure_Whitespace:Internal whitespace preserved
example : strOf (get chkEnv b!"<root><item>value1   value2</item></root>" b!"root.item") = some b!"value1   value2" := by decide +kernel
-- edge_test.go:TestEdgeStructure_Whitespace:Newlines and tabs
example : strOf (get chkEnv b!"<root><item>\n\t\tvalue\n\t</item></root>" b!"root.item") = some b!"value" := by decide +kernel
-- edge_test.go:TestEdgeStructure_Whitespace:Multiple spaces
example : strOf (get chkEnv b!"<root><item>     value     </item></root>" b!"root.item") = some b!"value" := by decide +kernel
-- edge_test.go:TestEdgeStructure_Whitespace:Whitespace-only content
example : strOf (get chkEnv b!"<root><item>   \n\t  </item></root>" b!"root.item") = some [] := by decide +kernel
-- edge_test.go:TestEdgeStructure_Whitespace:Whitespace between tags
example : strOf (get chkEnv b!"<root>  \n  <item>value</item>  \n  </root>" b!"root.item") = some b!"value" := by decide +kernel
-- edge_test.go:TestEdgeStructure_AttributeEdgeCases:Empty attribute value (double quotes)
example : strOf (get chkEnv b!"<root><item attr=\"\">text</item></root>" b!"root.item.@attr") = some [] := by decide +kernel
-- edge_test.go:TestEdgeStructure_AttributeEdgeCases:Empty attribute value (single quotes)
example : strOf (get chkEnv b!"<root><item attr=''>text</item></root>" b!"root.item.@attr") = some [] := by decide +kernel
-- edge_test.go:TestEdgeStructure_AttributeEdgeCases:Attribute with whitespace value
example : strOf (get chkEnv b!"<root><item attr=\"   \">text</item></root>" b!"root.item.@attr") = some b!"   " := by decide +kernel
-- edge_test.go:TestEdgeStructure_AttributeEdgeCases:Multiple attributes
example : strOf (get chkEnv b!"<root><item a='1' b='2' c='3'>text</item></root>" b!"root.item.@b") = some b!"2" := by decide +kernel
-- edge_test.go:TestEdgeStructure_AttributeEdgeCases:Attribute name with underscore
example : strOf (get chkEnv b!"<root><item attr_name='value'>text</item></root>" b!"root.item.@attr_name") = some b!"value" := by decide +kernel
-- edge_test.go:TestEdgeStructure_AttributeEdgeCases:Attribute name with dash
example : strOf (get chkEnv b!"<root><item attr-name='value'>text</item></root>" b!"root.item.@attr-name") = some b!"value" := by decide +kernel
-- edge_test.go:TestEdgeStructure_AttributeEdgeCases:Attribute name with colon (namespace)
example : strOf (get chkEnv b!"<root><item xml:lang='en'>text</item></root>" b!"root.item.@xml:lang") = some b!"en" := by decide +kernel
-- edge_test.go:TestEdgeStructure_DuplicateElements:First match without index
example : strOf (get chkEnv b!"<root><item>first</item><item>second</item><item>third</item></root>" b!"root.item") = some b!"first" := by decide +kernel
-- edge_test.go:TestEdgeStructure_DuplicateElements:Index 0
example : strOf (get chkEnv b!"<root><item>first</item><item>second</item><item>third</item></root>" b!"root.item.0") = some b!"first" := by decide +kernel
-- edge_test.go:TestEdgeStructure_DuplicateElements:Index 1
example : strOf (get chkEnv b!"<root><item>first</item><item>second</item><item>third</item></root>" b!"root.item.1") = some b!"second" := by decide +kernel
-- edge_test.go:TestEdgeStructure_DuplicateElements:Index 2
example : strOf (get chkEnv b!"<root><item>first</item><item>second</item><item>third</item></root>" b!"root.item.2") = some b!"third" := by decide +kernel
-- edge_test.go:TestEdgeStructure_DuplicateElements:Count
example : strOf (get chkEnv b!"<root><item>first</item><item>second</item><item>third</item></root>" b!"root.item.#") = some b!"3" := by decide +kernel
-- edge_test.go:TestEdgeStructure_ComplexMixedContent:Multiple nested levels with mixed content
example : strOf (get chkEnv b!"<root>L0<l1>L1<l2>L2</l2>text</l1>end</root>" b!"root") = some b!"L0L1L2textend" := by decide +kernel
-- edge_test.go:TestEdgeStructure_ComplexMixedContent:Mixed content with attributes
example : strOf (get chkEnv b!"<root attr='val'>text<child attr2='val2'>nested</child>more</root>" b!"root") = some b!"textnestedmore" := by decide +kernel
-- edge_test.go:TestEdgeStructure_SetPreservesStructure:Set preserves comments
example : strOf (get chkEnv b!"<root><!-- comment --><item>new</item></root>" b!"root.item") = some b!"new" := by decide +kernel
-- edge_test.go:TestEdgeStructure_SetPreservesStructure:Set preserves attributes
example : strOf (get chkEnv b!"<root><item attr='val'>new</item></root>" b!"root.item") = some b!"new" := by decide +kernel
example : strOf (get chkEnv b!"<root><item attr='val'>new</item></root>" b!"root.item.@attr") = some b!"val" := by decide +kernel
-- edge_test.go:TestEdgeStructure_SetPreservesStructure:Set preserves sibling elements
example : strOf (get chkEnv b!"<root><item1>val1</item1><item2>new</item2></root>" b!"root.item2") = some b!"new" := by decide +kernel
example : strOf (get chkEnv b!"<root><item1>val1</item1><item2>new</item2></root>" b!"root.item1") = some b!"val1" := by decide +kernel
-- edge_test.go:TestEdgeUnicode_XMLEscaping:Less than
example : strOf (get chkEnv b!"<root><item>a &lt; b</item></root>" b!"root.item") = some b!"a < b" := by decide +kernel
example : strOf (get chkEnv b!"<root><item attr=\"a &lt; b\">test</item></root>" b!"root.item.@attr") = some b!"a < b" := by decide +kernel
-- edge_test.go:TestEdgeUnicode_XMLEscaping:Greater than
example : strOf (get chkEnv b!"<root><item>a &gt; b</item></root>" b!"root.item") = some b!"a > b" := by decide +kernel
example : strOf (get chkEnv b!"<root><item attr=\"a &gt; b\">test</item></root>" b!"root.item.@attr") = some b!"a > b" := by decide +kernel
-- edge_test.go:TestEdgeUnicode_XMLEscaping:Ampersand
example : strOf (get chkEnv b!"<root><item>Tom &amp; Jerry</item></root>" b!"root.item") = some b!"Tom & Jerry" := by decide +kernel
example : strOf (get chkEnv b!"<root><item attr=\"Tom &amp; Jerry\">test</item></root>" b!"root.item.@attr") = some b!"Tom & Jerry" := by decide +kernel
-- edge_test.go:TestEdgeUnicode_XMLEscaping:Double quote
example : strOf (get chkEnv b!"<root><item>He said &quot;hello&quot;</item></root>" b!"root.item") = some b!"He said \"hello\"" := by decide +kernel
example : strOf (get chkEnv b!"<root><item attr=\"He said &quot;hello&quot;\">test</item></root>" b!"root.item.@attr") = some b!"He said \"hello\"" := by decide +kernel
-- edge_test.go:TestEdgeUnicode_XMLEscaping:Single quote
example : strOf (get chkEnv b!"<root><item>It&apos;s working</item></root>" b!"root.item") = some b!"It's working" := by decide +kernel
example : strOf (get chkEnv b!"<root><item attr=\"It&apos;s working\">test</item></root>" b!"root.item.@attr") = some b!"It's working" := by decide +kernel
-- edge_test.go:TestEdgeUnicode_XMLEscaping:All special chars
example : strOf (get chkEnv b!"<root><item>&lt;&gt;&amp;&quot;&apos;</item></root>" b!"root.item") = some b!"<>&\"'" := by decide +kernel
example : strOf (get chkEnv b!"<root><item attr=\"&lt;&gt;&amp;&quot;&apos;\">test</item></root>" b!"root.item.@attr") = some b!"<>&\"'" := by decide +kernel
-- edge_test.go:TestEdgeUnicode_XMLEscaping:Multiple escapes
example : strOf (get chkEnv b!"<root><item>a &lt; b &amp;&amp; c &gt; d</item></root>" b!"root.item") = some b!"a < b && c > d" := by decide +kernel
example : strOf (get chkEnv b!"<root><item attr=\"a &lt; b &amp;&amp; c &gt; d\">test</item></root>" b!"root.item.@attr") = some b!"a < b && c > d" := by decide +kernel
-- edge_test.go:TestEdgeUnicode_AlreadyEscaped:Already escaped ampersand
example : strOf (get chkEnv b!"<root><item>&amp;test</item></root>" b!"root.item") = some b!"&test" := by decide +kernel
-- edge_test.go:TestEdgeUnicode_AlreadyEscaped:Already escaped less than
example : strOf (get chkEnv b!"<root><item>&lt;tag&gt;</item></root>" b!"root.item") = some b!"<tag>" := by decide +kernel
-- edge_test.go:TestEdgeUnicode_AlreadyEscaped:Already escaped quote
example : strOf (get chkEnv b!"<root><item attr=\"&quot;quoted&quot;\">test</item></root>" b!"root.item.@attr") = some b!"\"quoted\"" := by decide +kernel
-- edge_test.go:TestEdgeUnicode_AlreadyEscaped:Mixed escaped and unescaped
example : strOf (get chkEnv b!"<root><item>&amp; and text</item></root>" b!"root.item") = some b!"& and text" := by decide +kernel
-- errors_test.go:TestDelete_RecoveryAfterError
example : existsOf (get chkEnv b!"<root><other>data</other></root>" b!"root.item") = some false := by decide +kernel
example : existsOf (get chkEnv b!"<root><other>data</other></root>" b!"root.other") = some true := by decide +kernel
example : strOf (get chkEnv b!"<root><other>data</other></root>" b!"root.other") = some b!"data" := by decide +kernel
-- errors_test.go:TestGetErrors_EmptyXML
example : existsOf (get chkEnv [] b!"root.item") = some false := by decide +kernel
-- errors_test.go:TestGetErrors_NonExistentPaths:non-existent element
example : existsOf (get chkEnv b!"<root><item>value</item></root>" b!"root.nonexistent") = some false := by decide +kernel
-- errors_test.go:TestGetErrors_NonExistentPaths:non-existent nested
example : existsOf (get chkEnv b!"<root><item>value</item></root>" b!"root.item.nested") = some false := by decide +kernel
-- errors_test.go:TestGetErrors_NonExistentPaths:non-existent attribute
example : existsOf (get chkEnv b!"<root><item>value</item></root>" b!"root.item.@nonexistent") = some false := by decide +kernel
-- errors_test.go:TestGetErrors_NonExistentPaths:non-existent array index
example : existsOf (get chkEnv b!"<root><item>value</item></root>" b!"root.item.5") = some false := by decide +kernel
-- errors_test.go:TestGetErrors_NonExistentPaths:wrong root
example : existsOf (get chkEnv b!"<root><item>value</item></root>" b!"wrong.item") = some false := by decide +kernel
-- filter_test.go:TestAttributeFilter:attribute does not exist
example : existsOf (get chkEnv b!"<items>\n\t\t\t\t<item deprecated=\"true\"><title>Old</title></item>\n\t\t\t\t<item><title>New1</title></item>\n\t\t\t\t<item><title>New2</title></item>\n\t\t\t</items>" b!"items.item.#(@active).title") = some false := by decide +kernel
-- filter_test.go:TestGJSONFilterFirstMatch:first match age>21
example : strOf (get chkEnv b!"<items>\n\t\t<item><age>18</age><name>Bob</name></item>\n\t\t<item><age>25</age><name>Alice</name></item>\n\t\t<item><age>30</age><name>Carol</name></item>\n\t</items>" b!"items.item.#(age>21)") = some b!"25Alice" := by decide +kernel
-- filter_test.go:TestGJSONFilterFirstMatch:first match age>21 with child
example : strOf (get chkEnv b!"<items>\n\t\t<item><age>18</age><name>Bob</name></item>\n\t\t<item><age>25</age><name>Alice</name></item>\n\t\t<item><age>30</age><name>Carol</name></item>\n\t</items>" b!"items.item.#(age>21).name") = some b!"Alice" := by decide +kernel
-- filter_test.go:TestGJSONFilterFirstMatch:no match returns null
example : strOf (get chkEnv b!"<items>\n\t\t<item><age>18</age><name>Bob</name></item>\n\t\t<item><age>25</age><name>Alice</name></item>\n\t\t<item><age>30</age><name>Carol</name></item>\n\t</items>" b!"items.item.#(age>100)") = some [] := by decide +kernel
-- filter_test.go:TestGJSONFilterAttributeFilters:attribute equality first match
example : strOf (get chkEnv b!"<users>\n\t\t<user id=\"1\" role=\"admin\"><name>Alice</name></user>\n\t\t<user id=\"2\" role=\"user\"><name>Bob</name></user>\n\t\t<user id=\"3\" role=\"admin\"><name>Carol</name></user>\n\t</users>" b!"users.user.#(@role==admin).name") = some b!"Alice" := by decide +kernel
-- filter_test.go:TestGJSONFilterAttributeFilters:attribute equality by id
example : strOf (get chkEnv b!"<users>\n\t\t<user id=\"1\" role=\"admin\"><name>Alice</name></user>\n\t\t<user id=\"2\" role=\"user\"><name>Bob</name></user>\n\t\t<user id=\"3\" role=\"admin\"><name>Carol</name></user>\n\t</users>" b!"users.user.#(@id==2).name") = some b!"Bob" := by decide +kernel
-- filter_test.go:TestGJSONFilterAttributeFilters:attribute filter get attribute
example : strOf (get chkEnv b!"<users>\n\t\t<user id=\"1\" role=\"admin\"><name>Alice</name></user>\n\t\t<user id=\"2\" role=\"user\"><name>Bob</name></user>\n\t\t<user id=\"3\" role=\"admin\"><name>Carol</name></user>\n\t</users>" b!"users.user.#(@role==admin).@id") = some b!"1" := by decide +kernel
-- filter_test.go:TestGJSONFilterStringComparisons:string equality
example : strOf (get chkEnv b!"<products>\n\t\t<product><status>active</status><name>Product A</name></product>\n\t\t<product><status>pending</status><name>Product B</name></product>\n\t\t<product><status>active</status><name>Product C</name></product>\n\t</products>" b!"products.product.#(status==active).name") = some b!"Product A" := by decide +kernel
-- filter_test.go:TestGJSONFilterStringComparisons:string inequality first match
example : strOf (get chkEnv b!"<products>\n\t\t<product><status>active</status><name>Product A</name></product>\n\t\t<product><status>pending</status><name>Product B</name></product>\n\t\t<product><status>active</status><name>Product C</name></product>\n\t</products>" b!"products.product.#(status!=active).name") = some b!"Product B" := by decide +kernel
-- filter_test.go:TestGJSONFilterNumericComparisons:greater than
example : strOf (get chkEnv b!"<items>\n\t\t<item><price>50</price><name>Item A</name></item>\n\t\t<item><price>100</price><name>Item B</name></item>\n\t\t<item><price>150</price><name>Item C</name></item>\n\t\t<item><price>200</price><name>Item D</name></item>\n\t</items>" b!"items.item.#(price>100).name") = some b!"Item C" := by decide +kernel
-- filter_test.go:TestGJSONFilterNumericComparisons:less than
example : strOf (get chkEnv b!"<items>\n\t\t<item><price>50</price><name>Item A</name></item>\n\t\t<item><price>100</price><name>Item B</name></item>\n\t\t<item><price>150</price><name>Item C</name></item>\n\t\t<item><price>200</price><name>Item D</name></item>\n\t</items>" b!"items.item.#(price<100).name") = some b!"Item A" := by decide +kernel
-- filter_test.go:TestGJSONFilterNumericComparisons:greater than or equal
example : strOf (get chkEnv b!"<items>\n\t\t<item><price>50</price><name>Item A</name></item>\n\t\t<item><price>100</price><name>Item B</name></item>\n\t\t<item><price>150</price><name>Item C</name></item>\n\t\t<item><price>200</price><name>Item D</name></item>\n\t</items>" b!"items.item.#(price>=100).name") = some b!"Item B" := by decide +kernel
-- filter_test.go:TestGJSONFilterNumericComparisons:less than or equal
example : strOf (get chkEnv b!"<items>\n\t\t<item><price>50</price><name>Item A</name></item>\n\t\t<item><price>100</price><name>Item B</name></item>\n\t\t<item><price>150</price><name>Item C</name></item>\n\t\t<item><price>200</price><name>Item D</name></item>\n\t</items>" b!"items.item.#(price<=100).name") = some b!"Item A" := by decide +kernel
-- filter_test.go:TestGJSONFilterTextExtraction
example : strOf (get chkEnv b!"<items>\n\t\t<item><age>18</age>Bob is young</item>\n\t\t<item><age>25</age>Alice is older</item>\n\t\t<item><age>30</age>Carol is oldest</item>\n\t</items>" b!"items.item.#(age>21).%") = some b!"Alice is older" := by decide +kernel
-- filter_test.go:TestGJSONFilterEmptyResults:first match no results
example : existsOf (get chkEnv b!"<items>\n\t\t<item><age>18</age><name>Bob</name></item>\n\t\t<item><age>25</age><name>Alice</name></item>\n\t</items>" b!"items.item.#(age>100)") = some false := by decide +kernel
-- filter_test.go:TestGJSONFilterEmptyResults:all matches no results
example : existsOf (get chkEnv b!"<items>\n\t\t<item><age>18</age><name>Bob</name></item>\n\t\t<item><age>25</age><name>Alice</name></item>\n\t</items>" b!"items.item.#(age>100)#") = some false := by decide +kernel
-- filter_test.go:TestGJSONFilterEmptyResults:attribute filter no match
example : existsOf (get chkEnv b!"<items>\n\t\t<item><age>18</age><name>Bob</name></item>\n\t\t<item><age>25</age><name>Alice</name></item>\n\t</items>" b!"items.item.#(@id==999)") = some false := by decide +kernel
-- filter_test.go:TestPatternMatchBasicWildcards:star wildcard prefix
example : strOf (get chkEnv b!"<items>\n\t\t<item><name>Dale</name></item>\n\t\t<item><name>David</name></item>\n\t\t<item><name>Roger</name></item>\n\t\t<item><name>Jane</name></item>\n\t</items>" b!"items.item.#(name%\"D*\").name") = some b!"Dale" := by decide +kernel
-- filter_test.go:TestPatternMatchBasicWildcards:star wildcard suffix
example : strOf (get chkEnv b!"<items>\n\t\t<item><name>Dale</name></item>\n\t\t<item><name>David</name></item>\n\t\t<item><name>Roger</name></item>\n\t\t<item><name>Jane</name></item>\n\t</items>" b!"items.item.#(name%\"*e\").name") = some b!"Dale" := by decide +kernel
-- filter_test.go:TestPatternMatchBasicWildcards:star wildcard middle
example : strOf (get chkEnv b!"<items>\n\t\t<item><name>Dale</name></item>\n\t\t<item><name>David</name></item>\n\t\t<item><name>Roger</name></item>\n\t\t<item><name>Jane</name></item>\n\t</items>" b!"items.item.#(name%\"D*e\").name") = some b!"Dale" := by decide +kernel
-- filter_test.go:TestPatternMatchBasicWildcards:question mark wildcard
example : strOf (get chkEnv b!"<items>\n\t\t<item><name>Dale</name></item>\n\t\t<item><name>David</name></item>\n\t\t<item><name>Roger</name></item>\n\t\t<item><name>Jane</name></item>\n\t</items>" b!"items.item.#(name%\"D?le\").name") = some b!"Dale" := by decide +kernel
-- filter_test.go:TestPatternMatchBasicWildcards:multiple question marks
example : strOf (get chkEnv b!"<items>\n\t\t<item><name>Dale</name></item>\n\t\t<item><name>David</name></item>\n\t\t<item><name>Roger</name></item>\n\t\t<item><name>Jane</name></item>\n\t</items>" b!"items.item.#(name%\"D??e\").name") = some b!"Dale" := by decide +kernel
-- filter_test.go:TestPatternMatchBasicWildcards:star matches empty
example : strOf (get chkEnv b!"<items>\n\t\t<item><name>Dale</name></item>\n\t\t<item><name>David</name></item>\n\t\t<item><name>Roger</name></item>\n\t\t<item><name>Jane</name></item>\n\t</items>" b!"items.item.#(name%\"*\").name") = some b!"Dale" := by decide +kernel
-- filter_test.go:TestPatternNotMatch:not match prefix
example : strOf (get chkEnv b!"<items>\n\t\t<item><name>Dale</name></item>\n\t\t<item><name>David</name></item>\n\t\t<item><name>Roger</name></item>\n\t\t<item><name>Jane</name></item>\n\t</items>" b!"items.item.#(name!%\"D*\").name") = some b!"Roger" := by decide +kernel
-- filter_test.go:TestPatternNotMatch:not match suffix
example : strOf (get chkEnv b!"<items>\n\t\t<item><name>Dale</name></item>\n\t\t<item><name>David</name></item>\n\t\t<item><name>Roger</name></item>\n\t\t<item><name>Jane</name></item>\n\t</items>" b!"items.item.#(name!%\"*e\").name") = some b!"David" := by decide +kernel
-- filter_test.go:TestPatternMatchComplex:multiple stars
example : strOf (get chkEnv b!"<items>\n\t\t<item><name>abc123xyz</name></item>\n\t\t<item><name>test.txt</name></item>\n\t\t<item><name>user:admin:name</name></item>\n\t</items>" b!"items.item.#(name%\"a*1*z\").name") = some b!"abc123xyz" := by decide +kernel
-- filter_test.go:TestPatternMatchComplex:mixed wildcards - all chars including dot
example : strOf (get chkEnv b!"<items>\n\t\t<item><name>abc123xyz</name></item>\n\t\t<item><name>test.txt</name></item>\n\t\t<item><name>user:admin:name</name></item>\n\t</items>" b!"items.item.#(name%\"test*txt\").name") = some b!"test.txt" := by decide +kernel
-- filter_test.go:TestPatternMatchComplex:multiple segments
example : strOf (get chkEnv b!"<items>\n\t\t<item><name>abc123xyz</name></item>\n\t\t<item><name>test.txt</name></item>\n\t\t<item><name>user:admin:name</name></item>\n\t</items>" b!"items.item.#(name%\"user:*:name\").name") = some b!"user:admin:name" := by decide +kernel
-- filter_test.go:TestPatternMatchCaseSensitivity:exact case match
example : existsOf (get chkEnv b!"<items>\n\t\t<item><name>Dale</name></item>\n\t\t<item><name>dale</name></item>\n\t\t<item><name>DALE</name></item>\n\t</items>" b!"items.item.#(name%\"Dale\").name") = some true := by decide +kernel
example : strOf (get chkEnv b!"<items>\n\t\t<item><name>Dale</name></item>\n\t\t<item><name>dale</name></item>\n\t\t<item><name>DALE</name></item>\n\t</items>" b!"items.item.#(name%\"Dale\").name") = some b!"Dale" := by decide +kernel
-- filter_test.go:TestPatternMatchCaseSensitivity:case mismatch prefix
example : existsOf (get chkEnv b!"<items>\n\t\t<item><name>Dale</name></item>\n\t\t<item><name>dale</name></item>\n\t\t<item><name>DALE</name></item>\n\t</items>" b!"items.item.#(name%\"d*\").name") = some true := by decide +kernel
example : strOf (get chkEnv b!"<items>\n\t\t<item><name>Dale</name></item>\n\t\t<item><name>dale</name></item>\n\t\t<item><name>DALE</name></item>\n\t</items>" b!"items.item.#(name%\"d*\").name") = some b!"dale" := by decide +kernel
-- filter_test.go:TestPatternMatchCaseSensitivity:case mismatch no match uppercase pattern
example : existsOf (get chkEnv b!"<items>\n\t\t<item><name>Dale</name></item>\n\t\t<item><name>dale</name></item>\n\t\t<item><name>DALE</name></item>\n\t</items>" b!"items.item.#(name%\"DALE\").name") = some true := by decide +kernel
example : strOf (get chkEnv b!"<items>\n\t\t<item><name>Dale</name></item>\n\t\t<item><name>dale</name></item>\n\t\t<item><name>DALE</name></item>\n\t</items>" b!"items.item.#(name%\"DALE\").name") = some b!"DALE" := by decide +kernel
-- filter_test.go:TestPatternMatchSecurityReDoS
example : existsOf (get chkEnv b!"<items>\n\t\t<item><name>aaaaaaaaaaaaaaaaaaaaaaaaaaaaaaaaaaaaa</name></item>\n\t</items>" b!"items.item.#(name%\"a*a*a*a*a*a*a*a*a*a*a*a*a*a*a*b\")") = some false := by decide +kernel
-- filter_test.go:TestPatternMatchFastPath
example : strOf (get chkEnv b!"<items>\n\t\t<item><name>exact</name></item>\n\t\t<item><name>test</name></item>\n\t</items>" b!"items.item.#(name%\"exact\").name") = some b!"exact" := by decide +kernel
-- filter_test.go:TestPatternMatchConsecutiveStars
example : strOf (get chkEnv b!"<items>\n\t\t<item><name>test</name></item>\n\t</items>" b!"items.item.#(name%\"t**t\").name") = some b!"test" := by decide +kernel
-- fragment_test.go:TestFragmentGetOperations:get first user name
example : strOf (get chkEnv b!"<user id=\"1\"><name>Alice</name><age>30</age></user>\n<user id=\"2\"><name>Bob</name><age>25</age></user>\n<user id=\"3\"><name>Carol</name><age>35</age></user>" b!"user.name") = some b!"Alice" := by decide +kernel
-- fragment_test.go:TestFragmentGetOperations:get first user age
example : strOf (get chkEnv b!"<user id=\"1\"><name>Alice</name><age>30</age></user>\n<user id=\"2\"><name>Bob</name><age>25</age></user>\n<user id=\"3\"><name>Carol</name><age>35</age></user>" b!"user.age") = some b!"30" := by decide +kernel
-- fragment_test.go:TestFragmentGetOperations:get first user id attribute
example : strOf (get chkEnv b!"<user id=\"1\"><name>Alice</name><age>30</age></user>\n<user id=\"2\"><name>Bob</name><age>25</age></user>\n<user id=\"3\"><name>Carol</name><age>35</age></user>" b!"user.@id") = some b!"1" := by decide +kernel
-- fragment_test.go:TestFragmentSetOperations
example : strOf (get chkEnv b!"<user id=\"1\"><name>Alicia</name></user><user id=\"2\"><name>Bob</name></user>" b!"user.name") = some b!"Alicia" := by decide +kernel
example : strOf (get chkEnv b!"<user><name>Alice</name><age>30</age></user><user><name>Bob</name></user>" b!"user.age") = some b!"30" := by decide +kernel
example : strOf (get chkEnv b!"<user id=\"100\"><name>Alice</name></user><user><name>Bob</name></user>" b!"user.@id") = some b!"100" := by decide +kernel
-- fragment_test.go:TestFragmentDeleteOperations
example : existsOf (get chkEnv b!"<user><name>Alice</name></user><user><name>Bob</name></user>" b!"user.age") = some false := by decide +kernel
example : strOf (get chkEnv b!"<user><name>Alice</name></user><user><name>Bob</name></user>" b!"user.name") = some b!"Alice" := by decide +kernel
example : existsOf (get chkEnv b!"<user><name>Alice</name></user><user id=\"2\"><name>Bob</name></user>" b!"user.@id") = some false := by decide +kernel
example : strOf (get chkEnv b!"<user><name>Alice</name></user><user id=\"2\"><name>Bob</name></user>" b!"user.name") = some b!"Alice" := by decide +kernel
-- fragment_test.go:TestFragmentWithProlog
example : strOf (get chkEnv b!"<?xml version=\"1.0\" encoding=\"UTF-8\"?>\n<item id=\"1\">First</item>\n<item id=\"2\">Second</item>" b!"item.%") = some b!"First" := by decide +kernel
-- fragment_test.go:TestFragmentWithComments
example : strOf (get chkEnv b!"<!-- First item -->\n<item>first</item>\n<!-- Second item -->\n<item>second</item>\n<!-- End -->" b!"item.%") = some b!"first" := by decide +kernel
-- fragment_test.go:TestFragmentArrayOperations:access first root by index 0
example : strOf (get chkEnv b!"<user id=\"1\"><name>Alice</name><age>30</age></user>\n<user id=\"2\"><name>Bob</name><age>25</age></user>\n<user id=\"3\"><name>Carol</name><age>35</age></user>" b!"user.0.name") = some b!"Alice" := by decide +kernel
-- fragment_test.go:TestFragmentArrayOperations:access second root by index 1
example : strOf (get chkEnv b!"<user id=\"1\"><name>Alice</name><age>30</age></user>\n<user id=\"2\"><name>Bob</name><age>25</age></user>\n<user id=\"3\"><name>Carol</name><age>35</age></user>" b!"user.1.name") = some b!"Bob" := by decide +kernel
-- fragment_test.go:TestFragmentArrayOperations:access third root by index 2
example : strOf (get chkEnv b!"<user id=\"1\"><name>Alice</name><age>30</age></user>\n<user id=\"2\"><name>Bob</name><age>25</age></user>\n<user id=\"3\"><name>Carol</name><age>35</age></user>" b!"user.2.name") = some b!"Carol" := by decide +kernel
-- fragment_test.go:TestFragmentArrayOperations:access attribute from indexed root
example : strOf (get chkEnv b!"<user id=\"1\"><name>Alice</name><age>30</age></user>\n<user id=\"2\"><name>Bob</name><age>25</age></user>\n<user id=\"3\"><name>Carol</name><age>35</age></user>" b!"user.0.@id") = some b!"1" := by decide +kernel
-- fragment_test.go:TestFragmentArrayOperations:access attribute from second root
example : strOf (get chkEnv b!"<user id=\"1\"><name>Alice</name><age>30</age></user>\n<user id=\"2\"><name>Bob</name><age>25</age></user>\n<user id=\"3\"><name>Carol</name><age>35</age></user>" b!"user.1.@id") = some b!"2" := by decide +kernel
-- fragment_test.go:TestFragmentArrayOperations:nested element after root index
example : strOf (get chkEnv b!"<user id=\"1\"><name>Alice</name><age>30</age></user>\n<user id=\"2\"><name>Bob</name><age>25</age></user>\n<user id=\"3\"><name>Carol</name><age>35</age></user>" b!"user.2.age") = some b!"35" := by decide +kernel
-- fragment_test.go:TestFragmentArrayMixedRoots
example : strOf (get chkEnv b!"<user id=\"1\">Alice</user>\n<item>Widget</item>\n<user id=\"2\">Bob</user>\n<item>Gadget</item>\n<user id=\"3\">Carol</user>" b!"user.0.%") = some b!"Alice" := by decide +kernel
example : strOf (get chkEnv b!"<user id=\"1\">Alice</user>\n<item>Widget</item>\n<user id=\"2\">Bob</user>\n<item>Gadget</item>\n<user id=\"3\">Carol</user>" b!"user.1.%") = some b!"Bob" := by decide +kernel
example : strOf (get chkEnv b!"<user id=\"1\">Alice</user>\n<item>Widget</item>\n<user id=\"2\">Bob</user>\n<item>Gadget</item>\n<user id=\"3\">Carol</user>" b!"user.2.%") = some b!"Carol" := by decide +kernel
-- fragment_test.go:TestFragmentArrayBoundaries
example : strOf (get chkEnv b!"<user><name>Alice</name></user>" b!"user.0.name") = some b!"Alice" := by decide +kernel
example : existsOf (get chkEnv b!"<user>Alice</user><user>Bob</user>" b!"user.5.name") = some false := by decide +kernel
example : existsOf (get chkEnv b!"<!-- comment only -->" b!"user.#") = some false := by decide +kernel
example : existsOf (get chkEnv b!"<item>Widget</item><item>Gadget</item>" b!"user.#") = some false := by decide +kernel
-- get_test.go:TestFieldExtractionChainedModifiers
example : strOf (get chkEnv b!"<root>\n\t\t<items>\n\t\t\t<item><value>10</value></item>\n\t\t\t<item><value>5</value></item>\n\t\t\t<item><value>20</value></item>\n\t\t\t<item><value>15</value></item>\n\t\t</items>\n\t</root>" b!"root.items.item.#.value|@sort|@reverse|@first") = some b!"20" := by decide +kernel
-- integration_test.go:TestIntegrationAndroidManifestWithSDK
example : strOf (get chkEnv b!"<?xml version=\"1.0\"?>\n<manifest xmlns:android=\"http://schemas.android.com/apk/res/android\"\n    package=\"com.example.app\"\n    android:versionCode=\"1\">\n  <uses-sdk\n      android:minSdkVersion=\"21\"\n      android:targetSdkVersion=\"33\"/>\n  <application android:label=\"MyApp\">\n    <activity android:name=\".MainActivity\">\n    </activity>\n  </application>\n</manifest>" b!"manifest.uses-sdk.@android:minSdkVersion") = some b!"21" := by decide +kernel
example : strOf (get chkEnv b!"<?xml version=\"1.0\"?>\n<manifest xmlns:android=\"http://schemas.android.com/apk/res/android\"\n    package=\"com.example.app\"\n    android:versionCode=\"1\">\n  <uses-sdk\n      android:minSdkVersion=\"21\"\n      android:targetSdkVersion=\"33\"/>\n  <application android:label=\"MyApp\">\n    <activity android:name=\".MainActivity\">\n    </activity>\n  </application>\n</manifest>" b!"manifest.uses-sdk.@android:targetSdkVersion") = some b!"33" := by decide +kernel
example : strOf (get chkEnv b!"<?xml version=\"1.0\"?>\n<manifest xmlns:android=\"http://schemas.android.com/apk/res/android\"\n    package=\"com.example.app\"\n    android:versionCode=\"1\">\n  <uses-sdk android:minSdkVersion=\"21\" android:targetSdkVersion=\"34\"/>rsion=\"33\"/>\n  <application android:label=\"MyApp\">\n    <activity android:name=\".MainActivity\">\n    </activity>\n  </application>\n</manifest>" b!"manifest.uses-sdk.@android:targetSdkVersion") = some b!"34" := by decide +kernel
-- integration_test.go:TestIntegrationRSSFeed
example : strOf (get chkEnv b!"<?xml version=\"1.0\"?>\n<rss version=\"2.0\">\n  <channel>\n    <title>Example Feed</title>\n    <link>https://example.com</link>\n    \n    <item>\n      <title>Article 2</title>\n      <link>https://example.com/article2</link>\n      <category>news</category>\n    </item>\n  </channel>\n</rss>" b!"rss.channel.item.#") = some b!"1" := by decide +kernel
example : strOf (get chkEnv b!"<?xml version=\"1.0\"?>\n<rss version=\"2.0\">\n  <channel>\n    <title>Example Feed</title>\n    <link>https://example.com</link>\n    \n    <item>\n      <title>Article 2</title>\n      <link>https://example.com/article2</link>\n      <category>news</category>\n    </item>\n  </channel>\n</rss>" b!"rss.channel.item.0.title") = some b!"Article 2" := by decide +kernel
-- integration_test.go:TestIntegrationSOAPResponse
example : strOf (get chkEnv b!"<?xml version=\"1.0\"?>\n<soap:Envelope xmlns:soap=\"http://schemas.xmlsoap.org/soap/envelope/\">\n  <soap:Body>\n    <m:GetStockPriceResponse xmlns:m=\"http://example.com/stock\">\n      <m:Price currency=\"USD\">150.25</m:Price>\n      <m:Timestamp>2025-10-08T10:00:00Z</m:Timestamp>\n      <m:Status>success</m:Status>\n    </m:GetStockPriceResponse>\n  </soap:Body>\n</soap:Envelope>" b!"Envelope.Body.GetStockPriceResponse.Price") = some b!"150.25" := by decide +kernel
example : strOf (get chkEnv b!"<?xml version=\"1.0\"?>\n<soap:Envelope xmlns:soap=\"http://schemas.xmlsoap.org/soap/envelope/\">\n  <soap:Body>\n    <m:GetStockPriceResponse xmlns:m=\"http://example.com/stock\">\n      <m:Price currency=\"USD\">150.25</m:Price>\n      <m:Timestamp>2025-10-08T10:00:00Z</m:Timestamp>\n      <m:Status>success</m:Status>\n    </m:GetStockPriceResponse>\n  </soap:Body>\n</soap:Envelope>" b!"Envelope.Body.GetStockPriceResponse.Price.@currency") = some b!"USD" := by decide +kernel
example : strOf (get chkEnv b!"<?xml version=\"1.0\"?>\n<soap:Envelope xmlns:soap=\"http://schemas.xmlsoap.org/soap/envelope/\">\n  <soap:Body>\n    <m:GetStockPriceResponse xmlns:m=\"http://example.com/stock\">\n      <m:Price currency=\"USD\">150.25</m:Price>\n      <m:Timestamp>2025-10-08T10:00:00Z</m:Timestamp>\n      <m:Status>success</m:Status>\n    </m:GetStockPriceResponse>\n  </soap:Body>\n</soap:Envelope>" b!"Envelope.Body.GetStockPriceResponse.Status") = some b!"success" := by decide +kernel
example : strOf (get chkEnv b!"<?xml version=\"1.0\"?>\n<soap:Envelope xmlns:soap=\"http://schemas.xmlsoap.org/soap/envelope/\">\n  <soap:Body>\n    <m:GetStockPriceResponse xmlns:m=\"http://example.com/stock\">\n      <m:Price currency=\"USD\">150.25</m:Price>\n      <m:Timestamp>2025-10-08T10:00:00Z</m:Timestamp>\n      <m:Status>success</m:Status>\n    </m:GetStockPriceResponse>\n  </soap:Body>\n</soap:Envelope>" b!"Envelope.Body.GetStockPriceResponse.Timestamp") = some b!"2025-10-08T10:00:00Z" := by decide +kernel
-- integration_test.go:TestIntegrationSOAP12
example : strOf (get chkEnv b!"<?xml version=\"1.0\"?>\n<env:Envelope xmlns:env=\"http://www.w3.org/2003/05/soap-envelope\">\n  <env:Header>\n    <n:alertcontrol xmlns:n=\"http://example.org/alertcontrol\">\n      <n:priority>1</n:priority>\n    </n:alertcontrol>\n  </env:Header>\n  <env:Body>\n    <m:alert xmlns:m=\"http://example.org/alert\">\n      <m:msg>System maintenance scheduled</m:msg>\n    </m:alert>\n  </env:Body>\n</env:Envelope>" b!"Envelope.Header.alertcontrol.priority") = some b!"1" := by decide +kernel
example : strOf (get chkEnv b!"<?xml version=\"1.0\"?>\n<env:Envelope xmlns:env=\"http://www.w3.org/2003/05/soap-envelope\">\n  <env:Header>\n    <n:alertcontrol xmlns:n=\"http://example.org/alertcontrol\">\n      <n:priority>1</n:priority>\n    </n:alertcontrol>\n  </env:Header>\n  <env:Body>\n    <m:alert xmlns:m=\"http://example.org/alert\">\n      <m:msg>System maintenance scheduled</m:msg>\n    </m:alert>\n  </env:Body>\n</env:Envelope>" b!"Envelope.Body.alert.msg") = some b!"System maintenance scheduled" := by decide +kernel
example : strOf (get chkEnv b!"<?xml version=\"1.0\"?>\n<env:Envelope xmlns:env=\"http://www.w3.org/2003/05/soap-envelope\">\n  <env:Header>\n    <n:alertcontrol xmlns:n=\"http://example.org/alertcontrol\">\n      <n:priority>1</n:priority>\n    </n:alertcontrol>\n  </env:Header>\n  <env:Body>\n    <m:alert xmlns:m=\"http://example.org/alert\">\n      <m:msg>Emergency maintenance required</m:msg>\n    </m:alert>\n  </env:Body>\n</env:Envelope>" b!"Envelope.Body.alert.msg") = some b!"Emergency maintenance required" := by decide +kernel
-- integration_test.go:TestIntegrationSVGDocument
example : strOf (get chkEnv b!"<?xml version=\"1.0\"?>\n<svg xmlns=\"http://www.w3.org/2000/svg\" width=\"100\" height=\"100\">\n  <circle cx=\"50\" cy=\"50\" r=\"40\" fill=\"red\"/>\n  <rect x=\"10\" y=\"10\" width=\"30\" height=\"30\" fill=\"blue\"/>\n  <text x=\"10\" y=\"90\" font-size=\"14\">Hello SVG</text>\n</svg>" b!"svg.@width") = some b!"100" := by decide +kernel
example : strOf (get chkEnv b!"<?xml version=\"1.0\"?>\n<svg xmlns=\"http://www.w3.org/2000/svg\" width=\"100\" height=\"100\">\n  <circle cx=\"50\" cy=\"50\" r=\"40\" fill=\"red\"/>\n  <rect x=\"10\" y=\"10\" width=\"30\" height=\"30\" fill=\"blue\"/>\n  <text x=\"10\" y=\"90\" font-size=\"14\">Hello SVG</text>\n</svg>" b!"svg.@height") = some b!"100" := by decide +kernel
example : strOf (get chkEnv b!"<?xml version=\"1.0\"?>\n<svg xmlns=\"http://www.w3.org/2000/svg\" width=\"100\" height=\"100\">\n  <circle cx=\"50\" cy=\"50\" r=\"40\" fill=\"red\"/>\n  <rect x=\"10\" y=\"10\" width=\"30\" height=\"30\" fill=\"blue\"/>\n  <text x=\"10\" y=\"90\" font-size=\"14\">Hello SVG</text>\n</svg>" b!"svg.circle.@cx") = some b!"50" := by decide +kernel
example : strOf (get chkEnv b!"<?xml version=\"1.0\"?>\n<svg xmlns=\"http://www.w3.org/2000/svg\" width=\"100\" height=\"100\">\n  <circle cx=\"50\" cy=\"50\" r=\"40\" fill=\"red\"/>\n  <rect x=\"10\" y=\"10\" width=\"30\" height=\"30\" fill=\"blue\"/>\n  <text x=\"10\" y=\"90\" font-size=\"14\">Hello SVG</text>\n</svg>" b!"svg.circle.@r") = some b!"40" := by decide +kernel
example : strOf (get chkEnv b!"<?xml version=\"1.0\"?>\n<svg xmlns=\"http://www.w3.org/2000/svg\" width=\"100\" height=\"100\">\n  <circle cx=\"50\" cy=\"50\" r=\"40\" fill=\"red\"/>\n  <rect x=\"10\" y=\"10\" width=\"30\" height=\"30\" fill=\"blue\"/>\n  <text x=\"10\" y=\"90\" font-size=\"14\">Hello SVG</text>\n</svg>" b!"svg.circle.@fill") = some b!"red" := by decide +kernel
example : strOf (get chkEnv b!"<?xml version=\"1.0\"?>\n<svg xmlns=\"http://www.w3.org/2000/svg\" width=\"100\" height=\"100\">\n  <circle cx=\"50\" cy=\"50\" r=\"40\" fill=\"red\"/>\n  <rect x=\"10\" y=\"10\" width=\"30\" height=\"30\" fill=\"blue\"/>\n  <text x=\"10\" y=\"90\" font-size=\"14\">Hello SVG</text>\n</svg>" b!"svg.rect.@x") = some b!"10" := by decide +kernel
example : strOf (get chkEnv b!"<?xml version=\"1.0\"?>\n<svg xmlns=\"http://www.w3.org/2000/svg\" width=\"100\" height=\"100\">\n  <circle cx=\"50\" cy=\"50\" r=\"40\" fill=\"red\"/>\n  <rect x=\"10\" y=\"10\" width=\"30\" height=\"30\" fill=\"blue\"/>\n  <text x=\"10\" y=\"90\" font-size=\"14\">Hello SVG</text>\n</svg>" b!"svg.rect.@width") = some b!"30" := by decide +kernel
example : strOf (get chkEnv b!"<?xml version=\"1.0\"?>\n<svg xmlns=\"http://www.w3.org/2000/svg\" width=\"100\" height=\"100\">\n  <circle cx=\"50\" cy=\"50\" r=\"40\" fill=\"red\"/>\n  <rect x=\"10\" y=\"10\" width=\"30\" height=\"30\" fill=\"blue\"/>\n  <text x=\"10\" y=\"90\" font-size=\"14\">Hello SVG</text>\n</svg>" b!"svg.text") = some b!"Hello SVG" := by decide +kernel
example : strOf (get chkEnv b!"<?xml version=\"1.0\"?>\n<svg xmlns=\"http://www.w3.org/2000/svg\" width=\"100\" height=\"100\">\n  <circle cx=\"50\" cy=\"50\" r=\"40\" fill=\"red\"/>\n  <rect x=\"10\" y=\"10\" width=\"30\" height=\"30\" fill=\"blue\"/>\n  <text x=\"10\" y=\"90\" font-size=\"14\">Hello SVG</text>\n</svg>" b!"svg.text.@font-size") = some b!"14" := by decide +kernel
example : strOf (get chkEnv b!"<?xml version=\"1.0\"?>\n<svg xmlns=\"http://www.w3.org/2000/svg\" width=\"100\" height=\"100\">\n  <circle cx=\"50\" cy=\"50\" fill=\"blue\" r=\"40\"/>\n  <rect x=\"10\" y=\"10\" width=\"30\" height=\"30\" fill=\"blue\"/>\n  <text x=\"10\" y=\"90\" font-size=\"14\">Hello SVG</text>\n</svg>" b!"svg.circle.@fill") = some b!"blue" := by decide +kernel
example : strOf (get chkEnv b!"<?xml version=\"1.0\"?>\n<svg xmlns=\"http://www.w3.org/2000/svg\" width=\"100\" height=\"100\">\n  <circle cx=\"50\" cy=\"50\" fill=\"red\" r=\"45\"/>\n  <rect x=\"10\" y=\"10\" width=\"30\" height=\"30\" fill=\"blue\"/>\n  <text x=\"10\" y=\"90\" font-size=\"14\">Hello SVG</text>\n</svg>" b!"svg.circle.@r") = some b!"45" := by decide +kernel
example : strOf (get chkEnv b!"<?xml version=\"1.0\"?>\n<svg xmlns=\"http://www.w3.org/2000/svg\" width=\"100\" height=\"100\">\n  <circle cx=\"50\" cy=\"50\" r=\"40\" fill=\"red\"/>\n  <rect x=\"10\" y=\"10\" width=\"30\" height=\"30\" fill=\"blue\"/>\n  <text x=\"10\" y=\"90\" font-size=\"14\">Updated Text</text>\n</svg>" b!"svg.text") = some b!"Updated Text" := by decide +kernel
example : existsOf (get chkEnv b!"<?xml version=\"1.0\"?>\n<svg xmlns=\"http://www.w3.org/2000/svg\" width=\"100\" height=\"100\">\n  <circle cx=\"50\" cy=\"50\" r=\"40\" fill=\"red\"/>\n  \n  <text x=\"10\" y=\"90\" font-size=\"14\">Hello SVG</text>\n</svg>" b!"svg.rect") = some false := by decide +kernel
example : existsOf (get chkEnv b!"<?xml version=\"1.0\"?>\n<svg xmlns=\"http://www.w3.org/2000/svg\" width=\"100\" height=\"100\">\n  <circle cx=\"50\" cy=\"50\" r=\"40\" fill=\"red\"/>\n  \n  <text x=\"10\" y=\"90\" font-size=\"14\">Hello SVG</text>\n</svg>" b!"svg.circle") = some true := by decide +kernel
-- integration_test.go:TestIntegrationSVGGroups
example : strOf (get chkEnv b!"<?xml version=\"1.0\"?>\n<svg xmlns=\"http://www.w3.org/2000/svg\" width=\"300\" height=\"200\">\n  <g id=\"shapes\" transform=\"translate(50,50)\">\n    <circle cx=\"25\" cy=\"25\" r=\"20\" fill=\"red\"/>\n    <circle cx=\"75\" cy=\"25\" r=\"20\" fill=\"blue\"/>\n    <circle cx=\"125\" cy=\"25\" r=\"20\" fill=\"green\"/>\n  </g>\n  <g id=\"labels\">\n    <text x=\"75\" y=\"100\">Circle Group</text>\n  </g>\n</svg>" b!"svg.g.@id") = some b!"shapes" := by decide +kernel
example : strOf (get chkEnv b!"<?xml version=\"1.0\"?>\n<svg xmlns=\"http://www.w3.org/2000/svg\" width=\"300\" height=\"200\">\n  <g id=\"shapes\" transform=\"translate(50,50)\">\n    <circle cx=\"25\" cy=\"25\" r=\"20\" fill=\"red\"/>\n    <circle cx=\"75\" cy=\"25\" r=\"20\" fill=\"blue\"/>\n    <circle cx=\"125\" cy=\"25\" r=\"20\" fill=\"green\"/>\n  </g>\n  <g id=\"labels\">\n    <text x=\"75\" y=\"100\">Circle Group</text>\n  </g>\n</svg>" b!"svg.g.circle.#") = some b!"3" := by decide +kernel
example : strOf (get chkEnv b!"<?xml version=\"1.0\"?>\n<svg xmlns=\"http://www.w3.org/2000/svg\" width=\"300\" height=\"200\">\n  <g id=\"shapes\" transform=\"translate(100,100)\">\n    <circle cx=\"25\" cy=\"25\" r=\"20\" fill=\"red\"/>\n    <circle cx=\"75\" cy=\"25\" r=\"20\" fill=\"blue\"/>\n    <circle cx=\"125\" cy=\"25\" r=\"20\" fill=\"green\"/>\n  </g>\n  <g id=\"labels\">\n    <text x=\"75\" y=\"100\">Circle Group</text>\n  </g>\n</svg>" b!"svg.g.@transform") = some b!"translate(100,100)" := by decide +kernel
-- integration_test.go:TestIntegrationErrorRecovery
example : existsOf (get chkEnv b!"<data>\n  <items>\n    <item id=\"1\">Value 1</item>\n    <item id=\"2\">Value 2</item>\n  </items>\n</data>" b!"data.nonexistent.path") = some false := by decide +kernel
-- modifier_test.go:TestModifierChain_FirstPretty
example : existsOf (get chkEnv b!"<root><items><item><nested><data>value</data></nested></item><item><nested><data>value2</data></nested></item></items></root>" b!"root.items.*|@first|@pretty") = some true := by decide +kernel
-- modifier_test.go:TestModifierChain_UnknownModifier
example : existsOf (get chkEnv b!"<root><item>test</item></root>" b!"root.item|@sort|@unknown|@first") = some false := by decide +kernel
-- namespace_test.go:TestNamespacePrefixElement
example : existsOf (get chkEnv b!"<soap:Envelope><soap:Body>content</soap:Body></soap:Envelope>" b!"soap:Envelope.soap:Body") = some true := by decide +kernel
example : strOf (get chkEnv b!"<soap:Envelope><soap:Body>content</soap:Body></soap:Envelope>" b!"soap:Envelope.soap:Body") = some b!"content" := by decide +kernel
-- namespace_test.go:TestNamespacePrefixAttribute
example : existsOf (get chkEnv b!"<root xmlns:ns=\"http://example.com\" ns:attr=\"value\">content</root>" b!"root.@ns:attr") = some true := by decide +kernel
example : strOf (get chkEnv b!"<root xmlns:ns=\"http://example.com\" ns:attr=\"value\">content</root>" b!"root.@ns:attr") = some b!"value" := by decide +kernel
-- namespace_test.go:TestUnprefixedMatchesAny
example : existsOf (get chkEnv b!"<soap:Envelope><Body>content</Body></soap:Envelope>" b!"Envelope.Body") = some true := by decide +kernel
example : strOf (get chkEnv b!"<soap:Envelope><Body>content</Body></soap:Envelope>" b!"Envelope.Body") = some b!"content" := by decide +kernel
-- namespace_test.go:TestPrefixedRequiresExactMatch
example : existsOf (get chkEnv b!"<soap:Envelope><other:Envelope>wrong</other:Envelope></soap:Envelope>" b!"soap:Envelope.other:Envelope") = some true := by decide +kernel
example : strOf (get chkEnv b!"<soap:Envelope><other:Envelope>wrong</other:Envelope></soap:Envelope>" b!"soap:Envelope.other:Envelope") = some b!"wrong" := by decide +kernel
example : existsOf (get chkEnv b!"<soap:Envelope><other:Envelope>wrong</other:Envelope></soap:Envelope>" b!"soap:Envelope.soap:Envelope") = some false := by decide +kernel
-- namespace_test.go:TestLocalNameOnly
example : existsOf (get chkEnv b!"<root><ns1:item>value1</ns1:item><ns2:item>value2</ns2:item><item>value3</item></root>" b!"root.item") = some true := by decide +kernel
example : strOf (get chkEnv b!"<root><ns1:item>value1</ns1:item><ns2:item>value2</ns2:item><item>value3</item></root>" b!"root.item") = some b!"value1" := by decide +kernel
-- namespace_test.go:TestNestedNamespacedElements
example : existsOf (get chkEnv b!"<soap:Envelope><soap:Body><soap:Request>data</soap:Request></soap:Body></soap:Envelope>" b!"soap:Envelope.soap:Body.soap:Request") = some true := by decide +kernel
example : strOf (get chkEnv b!"<soap:Envelope><soap:Body><soap:Request>data</soap:Request></soap:Body></soap:Envelope>" b!"soap:Envelope.soap:Body.soap:Request") = some b!"data" := by decide +kernel
-- namespace_test.go:TestMixedNamespacedUnprefixed
example : existsOf (get chkEnv b!"<soap:Envelope><Body>content</Body></soap:Envelope>" b!"soap:Envelope.Body") = some true := by decide +kernel
example : strOf (get chkEnv b!"<soap:Envelope><Body>content</Body></soap:Envelope>" b!"soap:Envelope.Body") = some b!"content" := by decide +kernel
-- namespace_test.go:TestMultipleNamespaces
example : existsOf (get chkEnv b!"<ns1:root><ns2:child><ns3:data>value</ns3:data></ns2:child></ns1:root>" b!"ns1:root.ns2:child.ns3:data") = some true := by decide +kernel
example : strOf (get chkEnv b!"<ns1:root><ns2:child><ns3:data>value</ns3:data></ns2:child></ns1:root>" b!"ns1:root.ns2:child.ns3:data") = some b!"value" := by decide +kernel
-- namespace_test.go:TestDeepNestedNamespaces
example : existsOf (get chkEnv b!"<a:l1><b:l2><c:l3><d:l4><e:l5>deep</e:l5></d:l4></c:l3></b:l2></a:l1>" b!"a:l1.b:l2.c:l3.d:l4.e:l5") = some true := by decide +kernel
example : strOf (get chkEnv b!"<a:l1><b:l2><c:l3><d:l4><e:l5>deep</e:l5></d:l4></c:l3></b:l2></a:l1>" b!"a:l1.b:l2.c:l3.d:l4.e:l5") = some b!"deep" := by decide +kernel
-- namespace_test.go:TestWildcardWithNamespaces
example : existsOf (get chkEnv b!"<soap:Envelope><soap:Header>h</soap:Header><soap:Body><Data>content</Data></soap:Body></soap:Envelope>" b!"soap:Envelope.*.Data") = some true := by decide +kernel
example : strOf (get chkEnv b!"<soap:Envelope><soap:Header>h</soap:Header><soap:Body><Data>content</Data></soap:Body></soap:Envelope>" b!"soap:Envelope.*.Data") = some b!"content" := by decide +kernel
-- namespace_test.go:TestRecursiveWildcardNamespace
example : existsOf (get chkEnv b!"<soap:Envelope><soap:Body><nested><Data>target</Data></nested></soap:Body></soap:Envelope>" b!"soap:Envelope.**.Data") = some true := by decide +kernel
example : strOf (get chkEnv b!"<soap:Envelope><soap:Body><nested><Data>target</Data></nested></soap:Body></soap:Envelope>" b!"soap:Envelope.**.Data") = some b!"target" := by decide +kernel
-- namespace_test.go:TestFilterNamespacedElements
example : existsOf (get chkEnv b!"<ns:items>\n\t\t<ns:item ns:status=\"active\"><ns:name>item1</ns:name></ns:item>\n\t\t<ns:item ns:status=\"inactive\"><ns:name>item2</ns:name></ns:item>\n\t\t<ns:item ns:status=\"active\"><ns:name>item3</ns:name></ns:item>\n\t</ns:items>" b!"ns:items.ns:item.ns:name") = some true := by decide +kernel
example : existsOf (get chkEnv b!"<ns:items>\n\t\t<ns:item ns:status=\"active\"><ns:name>item1</ns:name></ns:item>\n\t\t<ns:item ns:status=\"inactive\"><ns:name>item2</ns:name></ns:item>\n\t\t<ns:item ns:status=\"active\"><ns:name>item3</ns:name></ns:item>\n\t</ns:items>" b!"ns:items.ns:item.#(@ns:status==active).ns:name") = some true := by decide +kernel
-- namespace_test.go:TestFilterNamespacedAttributes
example : existsOf (get chkEnv b!"<root>\n\t\t<item xmlns:a=\"uri1\" a:id=\"100\">first</item>\n\t\t<item xmlns:a=\"uri1\" a:id=\"200\">second</item>\n\t</root>" b!"root.item.#(@a:id==200)") = some true := by decide +kernel
example : strOf (get chkEnv b!"<root>\n\t\t<item xmlns:a=\"uri1\" a:id=\"100\">first</item>\n\t\t<item xmlns:a=\"uri1\" a:id=\"200\">second</item>\n\t</root>" b!"root.item.#(@a:id==200)") = some b!"second" := by decide +kernel
-- namespace_test.go:TestCombinedNamespaceFilterWildcard
example : existsOf (get chkEnv b!"<ns:root>\n\t\t<ns:section>\n\t\t\t<ns:item status=\"active\" ns:priority=\"high\">target</ns:item>\n\t\t\t<ns:item status=\"inactive\" ns:priority=\"low\">skip</ns:item>\n\t\t</ns:section>\n\t</ns:root>" b!"ns:root.*.ns:item.#(@ns:priority==high)") = some true := by decide +kernel
example : strOf (get chkEnv b!"<ns:root>\n\t\t<ns:section>\n\t\t\t<ns:item status=\"active\" ns:priority=\"high\">target</ns:item>\n\t\t\t<ns:item status=\"inactive\" ns:priority=\"low\">skip</ns:item>\n\t\t</ns:section>\n\t</ns:root>" b!"ns:root.*.ns:item.#(@ns:priority==high)") = some b!"target" := by decide +kernel
-- namespace_test.go:TestNamespaceCaseInsensitive
example : existsOf (getWithOptions chkEnv b!"<SOAP:Envelope><soap:Body>content</soap:Body></SOAP:Envelope>" b!"soap:envelope.SOAP:body" (some ⟨false, [], false, none⟩)) = some true := by decide +kernel
example : strOf (getWithOptions chkEnv b!"<SOAP:Envelope><soap:Body>content</soap:Body></SOAP:Envelope>" b!"soap:envelope.SOAP:body" (some ⟨false, [], false, none⟩)) = some b!"content" := by decide +kernel
-- namespace_test.go:TestUnprefixedCaseInsensitiveNamespace
example : existsOf (getWithOptions chkEnv b!"<SOAP:ENVELOPE><Body>content</Body></SOAP:ENVELOPE>" b!"envelope.body" (some ⟨false, [], false, none⟩)) = some true := by decide +kernel
example : strOf (getWithOptions chkEnv b!"<SOAP:ENVELOPE><Body>content</Body></SOAP:ENVELOPE>" b!"envelope.body" (some ⟨false, [], false, none⟩)) = some b!"content" := by decide +kernel
-- options_test.go:TestGetWithOptionsCaseSensitive
example : existsOf (getWithOptions chkEnv b!"<ROOT><CHILD>value</CHILD></ROOT>" b!"root.child" (some ⟨true, [], false, none⟩)) = some false := by decide +kernel
example : existsOf (getWithOptions chkEnv b!"<ROOT><CHILD>value</CHILD></ROOT>" b!"root.child" (some ⟨false, [], false, none⟩)) = some true := by decide +kernel
example : strOf (getWithOptions chkEnv b!"<ROOT><CHILD>value</CHILD></ROOT>" b!"root.child" (some ⟨false, [], false, none⟩)) = some b!"value" := by decide +kernel
-- options_test.go:TestGetWithOptionsDefaultOptionsFastPath
example : existsOf (getWithOptions chkEnv b!"<root><child>value</child></root>" b!"root.child" (some ⟨true, [], false, none⟩)) = some true := by decide +kernel
example : strOf (getWithOptions chkEnv b!"<root><child>value</child></root>" b!"root.child" (some ⟨true, [], false, none⟩)) = some b!"value" := by decide +kernel
-- options_test.go:TestGetWithOptionsCaseInsensitiveNested
example : existsOf (getWithOptions chkEnv b!"<ROOT><User><Name>John</Name><Age>30</Age></User></ROOT>" b!"root.user.name" (some ⟨false, [], false, none⟩)) = some true := by decide +kernel
example : strOf (getWithOptions chkEnv b!"<ROOT><User><Name>John</Name><Age>30</Age></User></ROOT>" b!"root.user.name" (some ⟨false, [], false, none⟩)) = some b!"John" := by decide +kernel
example : existsOf (getWithOptions chkEnv b!"<ROOT><User><Name>John</Name><Age>30</Age></User></ROOT>" b!"ROOT.USER.AGE" (some ⟨false, [], false, none⟩)) = some true := by decide +kernel
example : strOf (getWithOptions chkEnv b!"<ROOT><User><Name>John</Name><Age>30</Age></User></ROOT>" b!"ROOT.USER.AGE" (some ⟨false, [], false, none⟩)) = some b!"30" := by decide +kernel
-- options_test.go:TestGetWithOptionsCaseInsensitiveAttribute
example : existsOf (getWithOptions chkEnv b!"<root><user ID=\"123\" Name=\"John\"/></root>" b!"root.user.@id" (some ⟨false, [], false, none⟩)) = some true := by decide +kernel
example : strOf (getWithOptions chkEnv b!"<root><user ID=\"123\" Name=\"John\"/></root>" b!"root.user.@id" (some ⟨false, [], false, none⟩)) = some b!"123" := by decide +kernel
example : existsOf (getWithOptions chkEnv b!"<root><user ID=\"123\" Name=\"John\"/></root>" b!"root.user.@NAME" (some ⟨false, [], false, none⟩)) = some true := by decide +kernel
example : strOf (getWithOptions chkEnv b!"<root><user ID=\"123\" Name=\"John\"/></root>" b!"root.user.@NAME" (some ⟨false, [], false, none⟩)) = some b!"John" := by decide +kernel
-- options_test.go:TestGetWithOptionsCaseInsensitiveArrays
example : existsOf (getWithOptions chkEnv b!"<ROOT><USERS><User>Alice</User><User>Bob</User><User>Charlie</User></USERS></ROOT>" b!"root.users.user.1" (some ⟨false, [], false, none⟩)) = some true := by decide +kernel
example : strOf (getWithOptions chkEnv b!"<ROOT><USERS><User>Alice</User><User>Bob</User><User>Charlie</User></USERS></ROOT>" b!"root.users.user.1" (some ⟨false, [], false, none⟩)) = some b!"Bob" := by decide +kernel
example : existsOf (getWithOptions chkEnv b!"<ROOT><USERS><User>Alice</User><User>Bob</User><User>Charlie</User></USERS></ROOT>" b!"ROOT.USERS.USER.#" (some ⟨false, [], false, none⟩)) = some true := by decide +kernel
-- options_test.go:TestGetWithOptionsCaseInsensitiveWildcards
example : existsOf (getWithOptions chkEnv b!"<ROOT><User><Name>Alice</Name></User><User><Name>Bob</Name></User></ROOT>" b!"root.*.name" (some ⟨false, [], false, none⟩)) = some true := by decide +kernel
-- options_test.go:TestGetWithOptionsCaseInsensitiveRecursiveWildcard
example : existsOf (getWithOptions chkEnv b!"<ROOT><Level1><Level2><NAME>Alice</NAME></Level2></Level1></ROOT>" b!"root.**.name" (some ⟨false, [], false, none⟩)) = some true := by decide +kernel
example : strOf (getWithOptions chkEnv b!"<ROOT><Level1><Level2><NAME>Alice</NAME></Level2></Level1></ROOT>" b!"root.**.name" (some ⟨false, [], false, none⟩)) = some b!"Alice" := by decide +kernel
-- options_test.go:TestSetWithOptionsCaseInsensitive
example : strOf (getWithOptions chkEnv b!"<ROOT><USER><NAME>John</NAME><age>30</age></USER></ROOT>" b!"root.user.name" (some ⟨false, [], false, none⟩)) = some b!"John" := by decide +kernel
-- options_test.go:TestSetWithOptionsAttributes
example : strOf (getWithOptions chkEnv b!"<root><user id=\"123\" name=\"Alice\"/></root>" b!"root.user.@NAME" (some ⟨false, [], false, none⟩)) = some b!"Alice" := by decide +kernel
-- options_test.go:TestSetWithOptionsPreserveStructure
example : strOf (get chkEnv b!"<root><user><name>John</name><age>31</age></user></root>" b!"root.user.name") = some b!"John" := by decide +kernel
-- result_security_test.go:TestResultGet_PrimitiveTypeSafety:String type
example : existsOf (get chkEnv b!"<root><name>Alice</name><age>30</age></root>" b!"root.name.%") = some true := by decide +kernel
-- result_security_test.go:TestResultGet_PrimitiveTypeSafety:Number type
example : existsOf (get chkEnv b!"<root><name>Alice</name><age>30</age></root>" b!"root.age") = some true := by decide +kernel
-- result_test.go:TestResult_Get_MultiRootFieldExtraction
example : existsOf (get chkEnv b!"<root>\n\t\t<filter>\n\t\t\t<arpacl>FILTER2</arpacl>\n\t\t\t<vlan>\n\t\t\t\t<vlan-range>10</vlan-range>\n\t\t\t\t<static></static>\n\t\t\t</vlan>\n\t\t\t<vlan>\n\t\t\t\t<vlan-range>100</vlan-range>\n\t\t\t</vlan>\n\t\t</filter>\n\t</root>" b!"root.filter") = some true := by decide +kernel
-- security_test.go:TestSecurity_DOCTYPEHandling
example : strOf (get chkEnv b!"<?xml version=\"1.0\"?>\n<!DOCTYPE root>\n<root><element>value</element></root>" b!"root.element") = some b!"value" := by decide +kernel
example : strOf (get chkEnv b!"<?xml version=\"1.0\"?>\n<!DOCTYPE root [\n\t<!ENTITY test \"entity value\">\n]>\n<root><element>value</element></root>" b!"root.element") = some b!"value" := by decide +kernel
example : strOf (get chkEnv b!"<?xml version=\"1.0\"?>\n<!DOCTYPE root SYSTEM \"http://example.com/dtd\">\n<root><element>value</element></root>" b!"root.element") = some b!"value" := by decide +kernel
-- security_test.go:TestSecurity_DOCTYPECaseInsensitive:uppercase DOCTYPE
example : existsOf (get chkEnv b!"<!DOCTYPE root><root>test</root>" b!"root") = some true := by decide +kernel
example : strOf (get chkEnv b!"<!DOCTYPE root><root>test</root>" b!"root") = some b!"test" := by decide +kernel
-- security_test.go:TestSecurity_DOCTYPECaseInsensitive:lowercase doctype
example : existsOf (get chkEnv b!"<!doctype root><root>test</root>" b!"root") = some true := by decide +kernel
example : strOf (get chkEnv b!"<!doctype root><root>test</root>" b!"root") = some b!"test" := by decide +kernel
-- security_test.go:TestSecurity_DOCTYPECaseInsensitive:mixed case DoCtYpE
example : existsOf (get chkEnv b!"<!DoCtYpE root><root>test</root>" b!"root") = some true := by decide +kernel
example : strOf (get chkEnv b!"<!DoCtYpE root><root>test</root>" b!"root") = some b!"test" := by decide +kernel
-- security_test.go:TestSecurity_DOCTYPECaseInsensitive:DOCTYPE with entity
example : existsOf (get chkEnv b!"<!DOCTYPE root [ <!ENTITY test \"value\"> ]><root>test</root>" b!"root") = some true := by decide +kernel
example : strOf (get chkEnv b!"<!DOCTYPE root [ <!ENTITY test \"value\"> ]><root>test</root>" b!"root") = some b!"test" := by decide +kernel
-- security_test.go:TestSecurity_DOCTYPECaseInsensitive:doctype with entity lowercase
example : existsOf (get chkEnv b!"<!doctype root [ <!ENTITY test \"value\"> ]><root>test</root>" b!"root") = some true := by decide +kernel
example : strOf (get chkEnv b!"<!doctype root [ <!ENTITY test \"value\"> ]><root>test</root>" b!"root") = some b!"test" := by decide +kernel
-- security_test.go:TestControlCharacterRejection:newline in path
example : existsOf (get chkEnv b!"<items><item><name>value</name></item></items>" b!"items.item.#(name\n==value)") = some false := by decide +kernel
-- security_test.go:TestControlCharacterRejection:carriage return in path
example : existsOf (get chkEnv b!"<items><item><name>value</name></item></items>" b!"items.item.#(name\r==value)") = some false := by decide +kernel
-- security_test.go:TestControlCharacterRejection:tab in path
example : existsOf (get chkEnv b!"<items><item><name>value</name></item></items>" b!"items.item.#(name\t==value)") = some false := by decide +kernel
-- security_test.go:TestControlCharacterRejection:newline in value
example : existsOf (get chkEnv b!"<items><item><name>value</name></item></items>" b!"items.item.#(name==val\nue)") = some false := by decide +kernel
-- security_test.go:TestControlCharacterRejection:carriage return in value
example : existsOf (get chkEnv b!"<items><item><name>value</name></item></items>" b!"items.item.#(name==val\rue)") = some false := by decide +kernel
-- security_test.go:TestControlCharacterRejection:tab in value
example : existsOf (get chkEnv b!"<items><item><name>value</name></item></items>" b!"items.item.#(name==val\tue)") = some false := by decide +kernel
-- security_test.go:TestControlCharacterRejection:valid path and value
example : existsOf (get chkEnv b!"<items><item><name>value</name></item></items>" b!"items.item.#(name==value)") = some true := by decide +kernel
-- security_test.go:TestControlCharacterRejection:valid numeric filter
example : existsOf (get chkEnv b!"<items><item><price>150</price></item></items>" b!"items.item.#(price>100)") = some true := by decide +kernel
-- security_test.go:TestControlCharacterRejection:valid attribute filter
example : existsOf (get chkEnv b!"<items><item id=\"5\"><name>test</name></item></items>" b!"items.item.#(@id==5)") = some true := by decide +kernel
-- security_test.go:TestOperatorAlignmentBackwardCompatibility
example : existsOf (get chkEnv b!"<root>\n\t\t<item><status>active</status></item>\n\t\t<item><status>inactive</status></item>\n\t</root>" b!"root.item.#(status==active)") = some true := by decide +kernel
example : existsOf (get chkEnv b!"<root>\n\t\t<item><status>active</status></item>\n\t\t<item><status>inactive</status></item>\n\t</root>" b!"root.item.#(status=active)") = some false := by decide +kernel
-- security_test.go:TestPatternMatchAttack_ExponentialBacktracking:alternating stars
example : existsOf (get chkEnv b!"<items>\n\t\t<item><name>aaaaaaaaaaaaaaaaaaaaaaaaaaaaaaaaaaaaa</name></item>\n\t</items>" b!"items.item.#(name%\"*a*a*a*a*a*a*a*a*a*a*a*a*a*a*b\")") = some false := by decide +kernel
-- security_test.go:TestPatternMatchAttack_ExponentialBacktracking:deep nesting
example : existsOf (get chkEnv b!"<items>\n\t\t<item><name>aaaaaaaaaaaaaaaaaaaaaaaaaaaaaaaaaaaaa</name></item>\n\t</items>" b!"items.item.#(name%\"a*a*a*a*a*a*a*a*a*a*a*a*a*a*a*a*a*a*a*a*a*a*a*a*a*a*a*a*a*a*a*a*a*a*a*a*a*a*a*a*a*a*a*a*a*a*a*a*a*a*b\")") = some false := by decide +kernel
-- security_test.go:TestPatternMatchAttack_ExponentialBacktracking:question marks at end
example : existsOf (get chkEnv b!"<items>\n\t\t<item><name>aaaaaaaaaaaaaaaaaaaaaaaaaaaaaaaaaaaaa</name></item>\n\t</items>" b!"items.item.#(name%\"aaaaaaaaaaaaaaaaaaaa????????????????????b\")") = some false := by decide +kernel
-- security_test.go:TestPatternMatchAttack_ExponentialBacktracking:mixed wildcards
example : existsOf (get chkEnv b!"<items>\n\t\t<item><name>aaaaaaaaaaaaaaaaaaaaaaaaaaaaaaaaaaaaa</name></item>\n\t</items>" b!"items.item.#(name%\"a*?a*?a*?a*?a*?a*?a*?a*?b\")") = some false := by decide +kernel
-- set_test.go:TestSet_AttributeCreation:create attribute on missing single element
example : existsOf (get chkEnv b!"<root><user id=\"123\"></user></root>" b!"root.user.@id") = some true := by decide +kernel
-- set_test.go:TestSet_AttributeCreation:create attribute on missing nested path
example : existsOf (get chkEnv b!"<root><a><b><c id=\"deep\"></c></b></a></root>" b!"root.a.b.c.@id") = some true := by decide +kernel
-- set_test.go:TestSet_AttributeCreation:create attribute in self-closing root
example : existsOf (get chkEnv b!"<root><user active=\"true\"></user></root>" b!"root.user.@active") = some true := by decide +kernel
-- set_test.go:TestSet_AttributeCreation:create attribute with special characters
example : existsOf (get chkEnv b!"<root><item value=\"&quot;test&quot;\"></item></root>" b!"root.item.@value") = some true := by decide +kernel
-- set_test.go:TestSet_AttributeCreation:create attribute with partial existing path
example : existsOf (get chkEnv b!"<root><user><contact email=\"test@example.com\"></contact></user></root>" b!"root.user.contact.@email") = some true := by decide +kernel
-- set_test.go:TestSet_AttributeCreation:create attribute with empty value
example : existsOf (get chkEnv b!"<root><item flag=\"\"></item></root>" b!"root.item.@flag") = some true := by decide +kernel
-- set_test.go:TestSet_AttributeCreation:create attribute with numeric value
example : existsOf (get chkEnv b!"<root><item count=\"42\"></item></root>" b!"root.item.@count") = some true := by decide +kernel
-- set_test.go:TestSet_AttributeCreation:create attribute on root element
example : existsOf (get chkEnv b!"<root version=\"1.0\"></root>" b!"root.@version") = some true := by decide +kernel
-- set_test.go:TestSet_AttributeCreationPreservesStructure
example : strOf (get chkEnv b!"<root><existing><data>value</data></existing><new attr=\"test\"></new></root>" b!"root.existing.data") = some b!"value" := by decide +kernel
-- set_test.go:TestSet_ArrayIndex:update first element
example : strOf (get chkEnv b!"<root>\n\t\t\t\t<item>updated</item>\n\t\t\t\t<item>second</item>\n\t\t\t\t<item>third</item>\n\t\t\t</root>" b!"root.item.0") = some b!"updated" := by decide +kernel
-- set_test.go:TestSet_ArrayIndex:update middle element
example : strOf (get chkEnv b!"<root>\n\t\t\t\t<item>first</item>\n\t\t\t\t<item>updated</item>\n\t\t\t\t<item>third</item>\n\t\t\t</root>" b!"root.item.1") = some b!"updated" := by decide +kernel
-- set_test.go:TestSet_Integration
example : strOf (get chkEnv b!"<root><user><name>John</name><age>30</age></user></root>" b!"root.user.name") = some b!"John" := by decide +kernel
-- set_test.go:TestSet_DeepNesting
example : strOf (get chkEnv b!"<root><level1><level2><level3><target>new</target></level3></level2></level1></root>" b!"root.level1.level2.level3.target") = some b!"new" := by decide +kernel
-- set_test.go:TestSet_MultipleNested
example : strOf (get chkEnv b!"<root>\n\t\t<user>\n\t\t\t<name>John</name>\n\t\t\t<address>\n\t\t\t\t<city>LA</city>\n\t\t\t\t<zip>10001</zip>\n\t\t\t</address>\n\t\t</user>\n\t</root>" b!"root.user.address.city") = some b!"LA" := by decide +kernel
example : strOf (get chkEnv b!"<root>\n\t\t<user>\n\t\t\t<name>John</name>\n\t\t\t<address>\n\t\t\t\t<city>LA</city>\n\t\t\t\t<zip>10001</zip>\n\t\t\t</address>\n\t\t</user>\n\t</root>" b!"root.user.address.zip") = some b!"10001" := by decide +kernel
example : strOf (get chkEnv b!"<root>\n\t\t<user>\n\t\t\t<name>John</name>\n\t\t\t<address>\n\t\t\t\t<city>LA</city>\n\t\t\t\t<zip>10001</zip>\n\t\t\t</address>\n\t\t</user>\n\t</root>" b!"root.user.name") = some b!"John" := by decide +kernel
-- set_test.go:TestSet_DeepNestingWithAttributes
example : strOf (get chkEnv b!"<root><a><b id=\"1\"><c><d>newvalue</d></c></b></a></root>" b!"root.a.b.c.d") = some b!"newvalue" := by decide +kernel
example : strOf (get chkEnv b!"<root><a><b id=\"1\"><c><d>newvalue</d></c></b></a></root>" b!"root.a.b.@id") = some b!"1" := by decide +kernel
-- set_test.go:TestSet_NestedSiblings
example : strOf (get chkEnv b!"<root>\n\t\t<section>\n\t\t\t<item>first</item>\n\t\t\t<nested>\n\t\t\t\t<value>modified</value>\n\t\t\t</nested>\n\t\t\t<item>second</item>\n\t\t</section>\n\t</root>" b!"root.section.nested.value") = some b!"modified" := by decide +kernel
example : strOf (get chkEnv b!"<root>\n\t\t<section>\n\t\t\t<item>first</item>\n\t\t\t<nested>\n\t\t\t\t<value>modified</value>\n\t\t\t</nested>\n\t\t\t<item>second</item>\n\t\t</section>\n\t</root>" b!"root.section.item.0") = some b!"first" := by decide +kernel
example : strOf (get chkEnv b!"<root>\n\t\t<section>\n\t\t\t<item>first</item>\n\t\t\t<nested>\n\t\t\t\t<value>modified</value>\n\t\t\t</nested>\n\t\t\t<item>second</item>\n\t\t</section>\n\t</root>" b!"root.section.item.1") = some b!"second" := by decide +kernel

-- filter_test.go:TestParseFilter
example : parseFilter b!"age==21" = .ok ⟨b!"age", .eq, b!"21"⟩ ∧ parseFilter b!"name!=John" = .ok ⟨b!"name", .ne, b!"John"⟩ ∧ parseFilter b!"age<18" = .ok ⟨b!"age", .lt, b!"18"⟩ ∧
    parseFilter b!"age>21" = .ok ⟨b!"age", .gt, b!"21"⟩ ∧ parseFilter b!"age<=18" = .ok ⟨b!"age", .le, b!"18"⟩ ∧ parseFilter b!"age>=21" = .ok ⟨b!"age", .ge, b!"21"⟩ ∧
    parseFilter b!"@id==5" = .ok ⟨b!"@id", .eq, b!"5"⟩ ∧ parseFilter b!"name=='John Doe'" = .ok ⟨b!"name", .eq, b!"John Doe"⟩ ∧
    parseFilter b!"name==\"John Doe\"" = .ok ⟨b!"name", .eq, b!"John Doe"⟩ ∧ parseFilter b!"@active" = .ok ⟨b!"@active", .ex, []⟩ ∧
    parseFilter b!"[age>21]" = .ok ⟨b!"age", .gt, b!"21"⟩ ∧ parseFilter b!" age > 21 " = .ok ⟨b!"age", .gt, b!"21"⟩ := by decide +kernel
-- filter_test.go:TestFilterSecurity, TestFilterOperatorValidation
example : parseFilter (b!"[" ++ List.replicate 257 c!"a" ++ b!"=1]") = .err ∧ parseFilter [] = .err ∧ parseFilter (List.replicate 257 c!"a" ++ b!">1") = .err ∧
    parseFilter (b!"price>10" ++ [0]) = .err ∧ parseFilter (b!"pri" ++ [0] ++ b!"ce>10") = .err ∧ parseFilter (b!"price>10" ++ [0] ++ b!"abc") = .err ∧
    parseFilter b!"price>50" = .ok ⟨b!"price", .gt, b!"50"⟩ := by decide +kernel

end Verif.Check
