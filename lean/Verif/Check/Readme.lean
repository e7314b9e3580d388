import Verif.Check.Get
import Verif.Check.Edit
/-
What README.md and docs/error-handling.md of /repo say their examples give, evaluated in the model. What is not so is at the end.
-/
namespace Verif.Check
open Verif

/-- The strings of an Array. -/
def listOf : Outcome Result → Option (List Bytes)
  | .ret r => if r.isArray then some (r.array.map Result.toStr) else none
  | .panic => none

def readme1 : Bytes := b!"<catalog>\n    <book id=\"1\">\n        <title>The Go Programming Language</title>\n        <author>Alan Donovan</author>\n        <price>44.99</price>\n        <tags>\n            <tag>programming</tag>\n            <tag>go</tag>\n        </tags>\n    </book>\n    <book id=\"2\">\n        <title>Learning Go</title>\n        <author>Jon Bodner</author>\n        <price>39.99</price>\n    </book>\n</catalog>"
def readme2 : Bytes := b!"<catalog>\n    <book status=\"active\">\n        <title>The Go Programming Language</title>\n        <price>44.99</price>\n    </book>\n    <book status=\"active\">\n        <title>Learning Go</title>\n        <price>39.99</price>\n    </book>\n    <book status=\"discontinued\">\n        <title>Old Book</title>\n        <price>19.99</price>\n    </book>\n</catalog>"
def readme3 : Bytes := b!"<user id=\"1\"><name>Alice</name></user>\n<user id=\"2\"><name>Bob</name></user>\n<user id=\"3\"><name>Carol</name></user>"
def readme4 : Bytes := b!"\n<catalog>\n    <book id=\"1\">\n        <title>The Go Programming Language</title>\n        <price>44.99</price>\n    </book>\n</catalog>"
def readme5 : Bytes := b!"<root xmlns:ns=\"http://example.com\">\n    <ns:item>value</ns:item>\n</root>"

-- README.md, Path Syntax, Arrays, Attributes, Text Content
example : strOf (get chkEnv readme1 b!"catalog.book.title") = some b!"The Go Programming Language" := by decide +kernel
example : strOf (get chkEnv readme1 b!"catalog.book.@id") = some b!"1" := by decide +kernel
example : strOf (get chkEnv readme1 b!"catalog.book.price") = some b!"44.99" := by decide +kernel
example : strOf (get chkEnv readme1 b!"catalog.book.1.title") = some b!"Learning Go" := by decide +kernel
example : strOf (get chkEnv readme1 b!"catalog.book.#") = some b!"2" := by decide +kernel
example : strOf (get chkEnv readme1 b!"catalog.book.tags.tag.0") = some b!"programming" := by decide +kernel
example : strOf (get chkEnv readme1 b!"catalog.book.title.%") = some b!"The Go Programming Language" := by decide +kernel
example : strOf (get chkEnv readme1 b!"catalog.book.0.title") = some b!"The Go Programming Language" := by decide +kernel
example : strOf (get chkEnv readme1 b!"catalog.book.tags.tag.#") = some b!"2" := by decide +kernel
example : strOf (get chkEnv readme1 b!"catalog.book.0.@id") = some b!"1" := by decide +kernel
example : strOf (get chkEnv readme1 b!"catalog.book.1.@id") = some b!"2" := by decide +kernel
-- README.md, Wildcards (the document there has no authors and tags)
example : listOf (get chkEnv readme1 b!"catalog.*.title") = some [b!"The Go Programming Language", b!"Learning Go"] := by decide +kernel
example : listOf (get chkEnv readme1 b!"catalog.**.price") = some [b!"44.99", b!"39.99"] := by decide +kernel
-- README.md, Filters
example : strOf (get chkEnv readme2 b!"catalog.book.#(price>40).title") = some b!"The Go Programming Language" := by decide +kernel
example : listOf (get chkEnv readme2 b!"catalog.book.#(@status==active)#.title") = some [b!"The Go Programming Language", b!"Learning Go"] := by decide +kernel
example : listOf (get chkEnv readme2 b!"catalog.book.#(title%\"*Go*\")#.title") = some [b!"The Go Programming Language", b!"Learning Go"] := by decide +kernel
-- README.md, Modifiers, Namespaces
example : strOf (get chkEnv readme1 b!"catalog.book.title|@first") = some b!"The Go Programming Language" := by decide +kernel
example : strOf (get chkEnv readme5 b!"root.ns:item") = some b!"value" := by decide +kernel
-- README.md, XML Fragments
example : valid readme3 = true := by decide +kernel
example : strOf (get chkEnv readme3 b!"user.name") = some b!"Alice" := by decide +kernel
example : strOf (get chkEnv readme3 b!"user.#") = some b!"3" := by decide +kernel
example : strOf (get chkEnv readme3 b!"user.0.name") = some b!"Alice" := by decide +kernel
example : listOf (get chkEnv readme3 b!"user.#.name") = some [b!"Alice", b!"Bob", b!"Carol"] := by decide +kernel
example : set chkEnv.ord b!"<user>Alice</user>" b!"item.-1" (.str b!"first") = .ret (b!"<user>Alice</user><item>first</item>", none) := by decide +kernel
example : set chkEnv.ord b!"<user>Alice</user><item>first</item>" b!"item.-1" (.str b!"second") = .ret (b!"<user>Alice</user><item>first</item><item>second</item>", none) := by decide +kernel
example : set chkEnv.ord b!"<user id=\"1\"><name>Alice</name></user>\n<user id=\"2\"><name>Bob</name></user>\n<user id=\"3\"><name>Carol</name></user>" b!"user.@status" (.str b!"active") = .ret (b!"<user id=\"1\" status=\"active\"><name>Alice</name></user>\n<user id=\"2\"><name>Bob</name></user>\n<user id=\"3\"><name>Carol</name></user>", none) := by decide +kernel
-- README.md, Creating Elements with Attributes, Arrays
example : set chkEnv.ord b!"<root></root>" b!"root.user.@id" (.str b!"123") = .ret (b!"<root><user id=\"123\"></user></root>", none) := by decide +kernel
example : set chkEnv.ord b!"<root></root>" b!"root.company.department.@name" (.str b!"Engineering") = .ret (b!"<root><company><department name=\"Engineering\"></department></company></root>", none) := by decide +kernel
example : setRaw chkEnv.ord b!"<catalog><book><title>Book 1</title></book></catalog>" b!"catalog.book.-1" b!"<title>Book 2</title>" = .ret (b!"<catalog><book><title>Book 1</title></book><book><title>Book 2</title></book></catalog>", none) := by decide +kernel
example : setRaw chkEnv.ord b!"<catalog></catalog>" b!"catalog.book.-1" b!"<title>First Book</title>" = .ret (b!"<catalog><book><title>First Book</title></book></catalog>", none) := by decide +kernel
-- docs/error-handling.md
example : set chkEnv.ord b!"<root><unclosed>" b!"root.item" (.str b!"value") = .ret (b!"<root><unclosed>", some .malformed) := by decide +kernel
example : set chkEnv.ord b!"<root>" b!"root.item" (.str b!"value") = .ret (b!"<root>", some .malformed) := by decide +kernel
example : set chkEnv.ord b!"<root/>" [] (.str b!"value") = .ret (b!"<root/>", some .invalidPath) := by decide +kernel
example : setRaw chkEnv.ord b!"<root/>" b!"root.data" b!"<unclosed>" = .ret (b!"<root/>", some .invalidValue) := by decide +kernel
example : setRaw chkEnv.ord b!"<root/>" b!"root.data" b!"<!DOCTYPE test><test/>" = .ret (b!"<root/>", some .invalidValue) := by decide +kernel
example : setRaw chkEnv.ord b!"<root/>" b!"root.data" b!"<!ENTITY test 'value'><test/>" = .ret (b!"<root/>", some .invalidValue) := by decide +kernel
example : setRaw chkEnv.ord b!"<root/>" b!"root.data" b!"<![CDATA[<![CDATA[nested]]>]]>" = .ret (b!"<root/>", some .invalidValue) := by decide +kernel
example : delete chkEnv.ord b!"<root>" b!"root.item" = .ret (b!"<root>", some .malformed) := by decide +kernel
example : delete chkEnv.ord b!"<root/>" [] = .ret (b!"<root/>", some .invalidPath) := by decide +kernel
example : delete chkEnv.ord b!"<root/>" b!"root.nonexistent" = .ret (b!"<root/>", none) := by decide +kernel
example : setMany chkEnv.ord b!"<root/>" [b!"a", b!"b"] [.str b!"value"] = .ret (b!"<root/>", some .invalidPath) := by decide +kernel
example : setMany chkEnv.ord b!"<root/>" [b!"root.a", [], b!"root.c"] [.int 1, .int 2, .int 3] = .ret (b!"<root/>", some .invalidPath) := by decide +kernel
example : deleteMany chkEnv.ord b!"<root><a>1</a></root>" [b!"root.a", b!"root.nonexistent", b!"root.alsomissing"] = .ret (b!"<root></root>", none) := by decide +kernel
-- Not as the documents say.
-- README.md, Set a value: prints the document without its white space. It is kept.
example : set chkEnv.ord readme4 b!"catalog.book.price" (.str b!"39.99") = .ret (b!"\n<catalog>\n    <book id=\"1\">\n        <title>The Go Programming Language</title>\n        <price>39.99</price>\n    </book>\n</catalog>", none) := by decide +kernel
-- README.md, Wildcards: the own texts of the children of all books. They are those of the first book, and an element with elements only gives an empty text.
example : listOf (get chkEnv readme1 b!"catalog.book.*.%") = some [b!"The Go Programming Language", b!"Alan Donovan", b!"44.99", b!""] := by decide +kernel
-- README.md, Filters: an empty Array. It is Null.
example : get chkEnv readme2 b!"catalog.book.#(price<30).#(@status==active)" = .ret .null := by decide +kernel
-- README.md, Modifiers: lists of all titles and prices, reversed and sorted (C63).
example : strOf (get chkEnv readme1 b!"catalog.book.title|@reverse") = some b!"The Go Programming Language" := by decide +kernel
example : strOf (get chkEnv readme1 b!"catalog.book.price|@sort") = some b!"44.99" := by decide +kernel
example : strOf (get chkEnv readme1 b!"catalog.book.title|@last") = some b!"The Go Programming Language" := by decide +kernel
-- README.md: built-in modifiers @keys, @values and @raw. They do not exist (C63).
example : get chkEnv readme1 b!"catalog.book|@keys" = .ret .null := by decide +kernel
example : get chkEnv readme1 b!"catalog.book|@values" = .ret .null := by decide +kernel
example : get chkEnv readme1 b!"catalog.book|@raw" = .ret .null := by decide +kernel
-- docs/error-handling.md: empty documents are malformed. Set accepts them.
example : set chkEnv.ord [] b!"a" (.str b!"v") = .ret (b!"<a>v</a>", none) := by decide +kernel
example : delete chkEnv.ord [] b!"a" = .ret ([], some .malformed) := by decide +kernel

end Verif.Check
