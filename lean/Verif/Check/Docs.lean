import Verif.Check.Readme
/-
What docs/path-syntax.md, docs/migration.md, docs/security.md, doc.go and the programs in examples/ of /repo say their queries give, evaluated in the model. What is not so is at the end.
-/
namespace Verif.Check
open Verif

def docs1 : Bytes := b!"<root><child><element>value</element></child></root>"
def docs2 : Bytes := b!"\n<catalog>\n    <products>\n        <product>\n            <name>Laptop</name>\n            <specs>\n                <cpu>Intel i7</cpu>\n            </specs>\n        </product>\n    </products>\n</catalog>"
def docs3 : Bytes := b!"<root><empty></empty></root>"
def docs4 : Bytes := b!"<root><empty/></root>"
def docs5 : Bytes := b!"<root><text>  value  </text></root>"
def docs6 : Bytes := b!"<root><child>value</child></root>"
def docs7 : Bytes := b!"\n<catalog>\n    <product id=\"101\">\n        <name>Go Programming</name>\n        <price>44.99</price>\n    </product>\n</catalog>"
def docs8 : Bytes := b!"<book id=\"123\" lang=\"en\">Title</book>"
def docs9 : Bytes := b!"\n<catalog>\n    <product id=\"101\" status=\"active\">\n        <name>Laptop</name>\n    </product>\n</catalog>"
def docs10 : Bytes := b!"\n<product id=\"101\">\n    <id>SKU-12345</id>\n</product>"
def docs11 : Bytes := b!"<book id=\"123\">Title</book>"
def docs12 : Bytes := b!"<book id=\"\" title=\"Book\">Content</book>"
def docs13 : Bytes := b!"<element data-id=\"123\" xmlns:ns=\"uri\">Content</element>"
def docs14 : Bytes := b!"\n<items>\n    <item>First</item>\n    <item>Second</item>\n    <item>Third</item>\n</items>"
def docs15 : Bytes := b!"\n<books>\n    <book><title>Book 1</title></book>\n    <book><title>Book 2</title></book>\n    <book><title>Book 3</title></book>\n</books>"
def docs16 : Bytes := b!"\n<items>\n    <item>A</item>\n    <item>B</item>\n    <item>C</item>\n</items>"
def docs17 : Bytes := b!"<items><item>A</item><item>B</item></items>"
def docs18 : Bytes := b!"<items><item>Only one</item></items>"
def docs19 : Bytes := b!"\n<catalog>\n    <category>\n        <product>Product A1</product>\n        <product>Product A2</product>\n    </category>\n    <category>\n        <product>Product B1</product>\n        <product>Product B2</product>\n    </category>\n</catalog>"
def docs20 : Bytes := b!"<book><title>The Go Programming Language</title></book>"
def docs21 : Bytes := b!"\n<paragraph>\n    This is <bold>important</bold> text with <italic>formatting</italic>.\n</paragraph>"
def docs22 : Bytes := b!"\n<products>\n    <electronics>\n        <laptop>Laptop 1</laptop>\n        <phone>Phone 1</phone>\n    </electronics>\n    <books>\n        <fiction>Book 1</fiction>\n        <nonfiction>Book 2</nonfiction>\n    </books>\n</products>"
def docs23 : Bytes := b!"\n<users>\n    <user><name>Alice</name><age>28</age></user>\n    <user><name>Bob</name><age>35</age></user>\n    <user><name>Carol</name><age>42</age></user>\n</users>"
def docs24 : Bytes := b!"\n<products>\n    <product><name>Laptop</name><price>999.99</price><stock>5</stock></product>\n    <product><name>Mouse</name><price>29.99</price><stock>50</stock></product>\n    <product><name>Monitor</name><price>299.99</price><stock>0</stock></product>\n</products>"
def docs25 : Bytes := b!"\n<employees>\n    <employee><name>Alice</name><dept>Engineering</dept></employee>\n    <employee><name>Bob</name><dept>Sales</dept></employee>\n    <employee><name>Carol</name><dept>Engineering</dept></employee>\n</employees>"
def docs26 : Bytes := b!"\n<items>\n    <item id=\"1\" status=\"active\">Item A</item>\n    <item id=\"2\" status=\"inactive\">Item B</item>\n    <item id=\"3\" status=\"active\">Item C</item>\n</items>"
def docs27 : Bytes := b!"\n<employees>\n    <employee>\n        <name>Alice</name>\n        <age>28</age>\n        <dept>Engineering</dept>\n        <salary>85000</salary>\n    </employee>\n    <employee>\n        <name>Bob</name>\n        <age>35</age>\n        <dept>Sales</dept>\n        <salary>75000</salary>\n    </employee>\n    <employee>\n        <name>Carol</name>\n        <age>42</age>\n        <dept>Engineering</dept>\n        <salary>95000</salary>\n    </employee>\n</employees>"
def docs28 : Bytes := b!"<data><value>42</value><text>hello</text></data>"
def docs29 : Bytes := b!"<nums><n>10</n><n>20</n><n>30</n></nums>"
def docs30 : Bytes := b!"\n<scores>\n    <score>85</score>\n    <score>92</score>\n    <score>78</score>\n    <score>95</score>\n    <score>88</score>\n</scores>"
def docs31 : Bytes := b!"\n<soap:Envelope xmlns:soap=\"http://schemas.xmlsoap.org/soap/envelope/\">\n    <soap:Body>\n        <m:GetStockPrice xmlns:m=\"http://www.example.org/stock\">\n            <m:StockName>AAPL</m:StockName>\n        </m:GetStockPrice>\n    </soap:Body>\n</soap:Envelope>"
def docs32 : Bytes := b!"<ns:root><ns:child>value</ns:child></ns:root>"
def docs33 : Bytes := b!"\n<root xmlns:a=\"http://example.com/a\" xmlns:b=\"http://example.com/b\">\n    <a:item>Value A</a:item>\n    <b:item>Value B</b:item>\n</root>"
def docs34 : Bytes := b!"<data><file.name>document.pdf</file.name></data>"
def docs35 : Bytes := b!"<data><item[0]>First</item[0]></data>"
def docs36 : Bytes := b!"<data><@special>value</@special></data>"
def docs37 : Bytes := b!"<data><option|default>value</option|default></data>"
def docs38 : Bytes := b!"<items><item name=\"file.txt\">Content</item></items>"
def docs39 : Bytes := b!"<cart>\n\t<items>\n\t\t<item><name>Book</name><quantity>2</quantity></item>\n\t\t<item><name>Pen</name><quantity>5</quantity></item>\n\t\t<item><name>Notebook</name><quantity>1</quantity></item>\n\t</items>\n</cart>"
def docs40 : Bytes := b!"<catalog>\n\t<product id=\"101\">\n\t\t<name>Laptop</name>\n\t\t<price>999.99</price>\n\t\t<specs>\n\t\t\t<cpu>Intel i7</cpu>\n\t\t\t<ram>16GB</ram>\n\t\t</specs>\n\t</product>\n\t<product id=\"102\">\n\t\t<name>Mouse</name>\n\t\t<price>29.99</price>\n\t</product>\n\t<product id=\"103\">\n\t\t<name>Keyboard</name>\n\t\t<price>79.99</price>\n\t</product>\n</catalog>"
def docs41 : Bytes := b!"<company>\n\t<employees>\n\t\t<employee id=\"1001\" status=\"active\">\n\t\t\t<name>Alice</name>\n\t\t\t<age>28</age>\n\t\t\t<department>Engineering</department>\n\t\t\t<salary>85000</salary>\n\t\t</employee>\n\t\t<employee id=\"1002\" status=\"active\">\n\t\t\t<name>Bob</name>\n\t\t\t<age>35</age>\n\t\t\t<department>Sales</department>\n\t\t\t<salary>75000</salary>\n\t\t</employee>\n\t\t<employee id=\"1003\" status=\"inactive\">\n\t\t\t<name>Carol</name>\n\t\t\t<age>42</age>\n\t\t\t<department>Engineering</department>\n\t\t\t<salary>95000</salary>\n\t\t</employee>\n\t\t<employee id=\"1004\" status=\"active\">\n\t\t\t<name>David</name>\n\t\t\t<age>31</age>\n\t\t\t<department>Marketing</department>\n\t\t\t<salary>70000</salary>\n\t\t</employee>\n\t\t<employee id=\"1005\" status=\"active\">\n\t\t\t<name>Eve</name>\n\t\t\t<age>29</age>\n\t\t\t<department>Engineering</department>\n\t\t\t<salary>88000</salary>\n\t\t</employee>\n\t</employees>\n</company>"
def docs42 : Bytes := b!"<blog>\n\t<posts>\n\t\t<post id=\"3\"><title>Getting Started</title><views>150</views></post>\n\t\t<post id=\"1\"><title>Advanced Topics</title><views>420</views></post>\n\t\t<post id=\"2\"><title>Best Practices</title><views>300</views></post>\n\t</posts>\n</blog>"
def docs43 : Bytes := b!"<data>\n\t\t<group><item>A</item><item>B</item></group>\n\t\t<group><item>C</item><item>D</item></group>\n\t</data>"
def docs44 : Bytes := b!"<root><item>value</item><nested><child>data</child></nested></root>"
def docs45 : Bytes := b!"<root>\n\t<item>value</item>\n\t<nested>\n\t\t<child>data</child>\n\t</nested>\n</root>"
def docs46 : Bytes := b!"<soap:Envelope xmlns:soap=\"http://schemas.xmlsoap.org/soap/envelope/\">\n\t<soap:Header>\n\t\t<auth:Authentication xmlns:auth=\"http://example.org/auth\">\n\t\t\t<auth:Token>abc123</auth:Token>\n\t\t</auth:Authentication>\n\t</soap:Header>\n\t<soap:Body>\n\t\t<m:GetStockPrice xmlns:m=\"http://www.example.org/stock\">\n\t\t\t<m:StockName>AAPL</m:StockName>\n\t\t\t<m:Currency>USD</m:Currency>\n\t\t</m:GetStockPrice>\n\t</soap:Body>\n</soap:Envelope>"
def docs47 : Bytes := b!"<rss version=\"2.0\" xmlns:atom=\"http://www.w3.org/2005/Atom\">\n\t<channel>\n\t\t<title>Example Feed</title>\n\t\t<atom:link href=\"http://example.org/feed\" rel=\"self\" type=\"application/rss+xml\"/>\n\t\t<item>\n\t\t\t<title>Post 1</title>\n\t\t</item>\n\t</channel>\n</rss>"
def docs48 : Bytes := b!"<root><user><name>John</name><age>30</age></user></root>"
def docs49 : Bytes := b!"<user id=\"123\"><name>John</name></user>"
def docs50 : Bytes := b!"<users><user>Alice</user><user>Bob</user></users>"
def docs51 : Bytes := b!"<users>\n  <user><name>Alice</name><age>30</age></user>\n  <user><name>Bob</name><age>25</age></user>\n</users>"
def docs52 : Bytes := b!"<catalog><book>Title</book></catalog>"
def docs53 : Bytes := b!"<Root><Child>value</Child></Root>"
def docs54 : Bytes := b!"\n<config version=\"2.0\">\n    <database host=\"localhost\" port=\"5432\" ssl=\"true\">\n        <name>production</name>\n    </database>\n</config>"
def docs55 : Bytes := b!"\n<items>\n    <item>Alpha</item>\n    <item>Beta</item>\n    <item>Gamma</item>\n</items>"
def docs56 : Bytes := b!"\n<cart>\n    <items>\n        <item id=\"1\">\n            <name>Book</name>\n            <quantity>2</quantity>\n            <price>15.99</price>\n        </item>\n        <item id=\"2\">\n            <name>Pen</name>\n            <quantity>5</quantity>\n            <price>2.50</price>\n        </item>\n        <item id=\"3\">\n            <name>Notebook</name>\n            <quantity>1</quantity>\n            <price>8.99</price>\n        </item>\n    </items>\n</cart>"
def docs57 : Bytes := b!"\n<article>\n    Article introduction text.\n    <section>Section 1</section>\n    More article text.\n    <section>Section 2</section>\n</article>"
def docs58 : Bytes := b!"\n<poem>\n    Roses are red,\n    Violets are blue,\n    XML is structured,\n    And so are you.\n</poem>"
def docs59 : Bytes := b!"\n<catalog>\n    <category name=\"Electronics\">\n        <product>\n            <name>Laptop</name>\n            <price>999.99</price>\n        </product>\n    </category>\n    <category name=\"Books\">\n        <product>\n            <name>Go Book</name>\n            <price>44.99</price>\n        </product>\n    </category>\n</catalog>"
def docs60 : Bytes := b!"\n<employees>\n    <department name=\"Engineering\">\n        <employee><name>Alice</name><salary>85000</salary></employee>\n        <employee><name>Bob</name><salary>75000</salary></employee>\n    </department>\n    <department name=\"Sales\">\n        <employee><name>Carol</name><salary>95000</salary></employee>\n        <employee><name>Dave</name><salary>65000</salary></employee>\n    </department>\n</employees>"
def docs61 : Bytes := b!"\n<products>\n    <product id=\"1\">Laptop</product>\n    <product id=\"2\">Mouse</product>\n    <product id=\"3\">Keyboard</product>\n</products>"
def docs62 : Bytes := b!"\n<store>\n    <electronics>\n        <computers>\n            <laptop><name>Pro 15</name><price>1299.99</price></laptop>\n            <desktop><name>Tower</name><price>899.99</price></desktop>\n        </computers>\n        <accessories>\n            <mouse><name>Wireless</name><price>29.99</price></mouse>\n        </accessories>\n    </electronics>\n    <books>\n        <fiction>\n            <book><title>Novel 1</title><price>15.99</price></book>\n        </fiction>\n    </books>\n</store>"
def docs63 : Bytes := b!"\n<products>\n    <product featured=\"true\"><name>Laptop</name></product>\n    <product><name>Mouse</name></product>\n    <product featured=\"false\"><name>Keyboard</name></product>\n</products>"
def docs64 : Bytes := b!"\n<items>\n    <item>Apple</item>\n    <item>Banana</item>\n    <item>Cherry</item>\n</items>"
def docs65 : Bytes := b!"<nums><n>1</n><n>2</n><n>3</n></nums>"
def docs66 : Bytes := b!"\n<items>\n    <item>Zebra</item>\n    <item>Apple</item>\n    <item>Mango</item>\n</items>"
def docs67 : Bytes := b!"\n<data>\n    <group><item>A</item><item>B</item></group>\n    <group><item>C</item><item>D</item></group>\n</data>"
def docs68 : Bytes := b!"<root><child><item>value</item></child></root>"
def docs69 : Bytes := b!"\n<root>\n    <child>\n        <item>value</item>\n    </child>\n</root>"
def docs70 : Bytes := b!"\n<sales>\n    <transaction date=\"2024-01-15\">\n        <amount>125.50</amount>\n        <customer>Alice</customer>\n    </transaction>\n    <transaction date=\"2024-01-16\">\n        <amount>89.99</amount>\n        <customer>Bob</customer>\n    </transaction>\n    <transaction date=\"2024-01-17\">\n        <amount>250.00</amount>\n        <customer>Carol</customer>\n    </transaction>\n    <transaction date=\"2024-01-18\">\n        <amount>45.25</amount>\n        <customer>Dave</customer>\n    </transaction>\n</sales>"
def docs71 : Bytes := b!"\n<soap:Envelope xmlns:soap=\"http://schemas.xmlsoap.org/soap/envelope/\">\n    <soap:Header>\n        <auth:Token xmlns:auth=\"http://example.com/auth\">SECRET123</auth:Token>\n    </soap:Header>\n    <soap:Body>\n        <m:GetUser xmlns:m=\"http://example.com/api\">\n            <m:UserId>12345</m:UserId>\n        </m:GetUser>\n    </soap:Body>\n</soap:Envelope>"
def docs72 : Bytes := b!"\n<soap:Envelope>\n    <soap:Body>\n        <soap:Request>Data</soap:Request>\n    </soap:Body>\n</soap:Envelope>"
def docs73 : Bytes := b!"<ns:data><ns:item>Value</ns:item></ns:data>"
def docs74 : Bytes := b!"\n<root xmlns:custom=\"http://example.com\">\n    <custom:item>Value</custom:item>\n</root>"
def docs75 : Bytes := b!"\n<root xmlns=\"http://example.com/default\">\n    <item>Value</item>\n</root>"

-- docs/path-syntax.md, Simple Paths
example : strOf (get chkEnv docs1 b!"root.child.element") = some b!"value" := by decide +kernel
-- docs/path-syntax.md, Nested Elements
example : strOf (get chkEnv docs2 b!"catalog.products.product.specs.cpu") = some b!"Intel i7" := by decide +kernel
-- docs/path-syntax.md, Empty Elements
example : existsOf (get chkEnv docs3 b!"root.empty") = some true := by decide +kernel
example : strOf (get chkEnv docs3 b!"root.empty") = some b!"" := by decide +kernel
-- docs/path-syntax.md, Self-Closing Elements
example : existsOf (get chkEnv docs4 b!"root.empty") = some true := by decide +kernel
example : strOf (get chkEnv docs4 b!"root.empty") = some b!"" := by decide +kernel
-- docs/path-syntax.md, Non-Existent Paths
example : existsOf (get chkEnv docs6 b!"root.missing") = some false := by decide +kernel
example : strOf (get chkEnv docs6 b!"root.missing") = some b!"" := by decide +kernel
-- docs/path-syntax.md, Path Segment Limit
example : strOf (get chkEnv docs7 b!"catalog.product.name") = some b!"Go Programming" := by decide +kernel
example : strOf (get chkEnv docs7 b!"catalog.product.price") = some b!"44.99" := by decide +kernel
-- docs/path-syntax.md, Basic Attribute Syntax
example : strOf (get chkEnv docs8 b!"book.@id") = some b!"123" := by decide +kernel
-- docs/path-syntax.md, Nested Element Attributes
example : strOf (get chkEnv docs9 b!"catalog.product.@id") = some b!"101" := by decide +kernel
example : strOf (get chkEnv docs9 b!"catalog.product.@status") = some b!"active" := by decide +kernel
-- docs/path-syntax.md, Attribute vs Element Disambiguation
example : strOf (get chkEnv docs10 b!"product.@id") = some b!"101" := by decide +kernel
example : strOf (get chkEnv docs10 b!"product.id") = some b!"SKU-12345" := by decide +kernel
-- docs/path-syntax.md, Non-Existent Attributes
example : existsOf (get chkEnv docs11 b!"book.@isbn") = some false := by decide +kernel
-- docs/path-syntax.md, Empty Attribute Values
example : existsOf (get chkEnv docs12 b!"book.@id") = some true := by decide +kernel
example : strOf (get chkEnv docs12 b!"book.@id") = some b!"" := by decide +kernel
example : existsOf (get chkEnv docs12 b!"book.@isbn") = some false := by decide +kernel
-- docs/path-syntax.md, Special Attribute Names
example : strOf (get chkEnv docs13 b!"element.@data-id") = some b!"123" := by decide +kernel
example : strOf (get chkEnv docs13 b!"element.@xmlns:ns") = some b!"uri" := by decide +kernel
-- docs/path-syntax.md, Array Detection
example : strOf (get chkEnv docs14 b!"items.item.0") = some b!"First" := by decide +kernel
-- docs/path-syntax.md, Array Indexing
example : strOf (get chkEnv docs15 b!"books.book.0.title") = some b!"Book 1" := by decide +kernel
example : strOf (get chkEnv docs15 b!"books.book.1.title") = some b!"Book 2" := by decide +kernel
example : strOf (get chkEnv docs15 b!"books.book.2.title") = some b!"Book 3" := by decide +kernel
-- docs/path-syntax.md, Array Count
example : strOf (get chkEnv docs16 b!"items.item.#") = some b!"3" := by decide +kernel
-- docs/path-syntax.md, Out-of-Bounds Access
example : existsOf (get chkEnv docs17 b!"items.item.10") = some false := by decide +kernel
-- docs/path-syntax.md, Single vs Multiple Elements
example : strOf (get chkEnv docs18 b!"items.item") = some b!"Only one" := by decide +kernel
example : strOf (get chkEnv docs18 b!"items.item.0") = some b!"Only one" := by decide +kernel
example : strOf (get chkEnv docs18 b!"items.item.#") = some b!"1" := by decide +kernel
-- docs/path-syntax.md, Nested Arrays
example : strOf (get chkEnv docs19 b!"catalog.category.1.product.0") = some b!"Product B1" := by decide +kernel
example : strOf (get chkEnv docs19 b!"catalog.category.0.product.#") = some b!"2" := by decide +kernel
-- docs/path-syntax.md, Text vs Element Content
example : strOf (get chkEnv docs20 b!"book.title") = some b!"The Go Programming Language" := by decide +kernel
example : strOf (get chkEnv docs20 b!"book.title.%") = some b!"The Go Programming Language" := by decide +kernel
-- docs/path-syntax.md, Mixed Content
example : strOf (get chkEnv docs21 b!"paragraph") = some b!"This is important text with formatting." := by decide +kernel
example : strOf (get chkEnv docs21 b!"paragraph.%") = some b!"This is  text with ." := by decide +kernel
-- docs/path-syntax.md, Single-Level Wildcard (*)
example : strOf (get chkEnv docs22 b!"products.*.laptop") = some b!"Laptop 1" := by decide +kernel
-- docs/path-syntax.md, Filter Syntax
example : strOf (get chkEnv docs23 b!"users.user.#(age>30).name") = some b!"Bob" := by decide +kernel
-- docs/path-syntax.md, Numeric Comparison Operators
example : strOf (get chkEnv docs24 b!"products.product.#(stock==50).name") = some b!"Mouse" := by decide +kernel
example : strOf (get chkEnv docs24 b!"products.product.#(stock!=0).name") = some b!"Laptop" := by decide +kernel
example : strOf (get chkEnv docs24 b!"products.product.#(price>500).name") = some b!"Laptop" := by decide +kernel
example : strOf (get chkEnv docs24 b!"products.product.#(price<=100).name") = some b!"Mouse" := by decide +kernel
example : strOf (get chkEnv docs24 b!"products.product.#(stock>=50).name") = some b!"Mouse" := by decide +kernel
-- docs/path-syntax.md, String Comparison
example : strOf (get chkEnv docs25 b!"employees.employee.#(dept==Engineering).name") = some b!"Alice" := by decide +kernel
example : strOf (get chkEnv docs25 b!"employees.employee.#(dept!=Engineering).name") = some b!"Bob" := by decide +kernel
-- docs/path-syntax.md, Attribute Filters
example : strOf (get chkEnv docs26 b!"items.item.#(@status==active)") = some b!"Item A" := by decide +kernel
example : strOf (get chkEnv docs26 b!"items.item.#(@id==2)") = some b!"Item B" := by decide +kernel
-- docs/path-syntax.md, ⚠️ Chained Filters Limitation
example : existsOf (get chkEnv docs27 b!"employees.employee.#(dept==Engineering).#(salary>90000).name") = some false := by decide +kernel
-- docs/path-syntax.md, Type Coercion Rules
example : existsOf (get chkEnv docs28 b!"data.#(value>40)") = some true := by decide +kernel
example : existsOf (get chkEnv docs28 b!"data.#(text>5)") = some false := by decide +kernel
example : existsOf (get chkEnv docs28 b!"data.#(text==hello)") = some true := by decide +kernel
-- docs/path-syntax.md, @first - Get First Element
example : strOf (get chkEnv docs29 b!"nums.n|@first") = some b!"10" := by decide +kernel
-- docs/path-syntax.md, Prefix Syntax
example : strOf (get chkEnv docs31 b!"soap:Envelope.soap:Body.m:GetStockPrice.m:StockName") = some b!"AAPL" := by decide +kernel
-- docs/path-syntax.md, Backward Compatibility
example : strOf (get chkEnv docs32 b!"root.child") = some b!"value" := by decide +kernel
example : strOf (get chkEnv docs32 b!"ns:root.ns:child") = some b!"value" := by decide +kernel
-- docs/path-syntax.md, Namespace Prefix Limitations
example : strOf (get chkEnv docs33 b!"root.a:item") = some b!"Value A" := by decide +kernel
example : strOf (get chkEnv docs33 b!"root.b:item") = some b!"Value B" := by decide +kernel
example : strOf (get chkEnv docs33 b!"root.item") = some b!"Value A" := by decide +kernel
-- docs/path-syntax.md, Escaping Dots
example : existsOf (get chkEnv docs34 b!"data.file.name") = some false := by decide +kernel
example : strOf (get chkEnv docs34 b!"data.file\\.name") = some b!"document.pdf" := by decide +kernel
-- docs/path-syntax.md, Escaping Brackets
example : strOf (get chkEnv docs35 b!"data.item\\[0\\]") = some b!"First" := by decide +kernel
-- docs/path-syntax.md, Escape Sequences in Filters
example : strOf (get chkEnv docs38 b!"items.item.#(@name==file\\.txt)") = some b!"Content" := by decide +kernel
-- examples/arrays
example : strOf (get chkEnv docs39 b!"cart.items.item.#") = some b!"3" := by decide +kernel
example : strOf (get chkEnv docs39 b!"cart.items.item.0.name") = some b!"Book" := by decide +kernel
example : strOf (get chkEnv docs39 b!"cart.items.item.1.name") = some b!"Pen" := by decide +kernel
example : strOf (get chkEnv docs39 b!"cart.items.item.2.name") = some b!"Notebook" := by decide +kernel
-- examples/basic-get
example : strOf (get chkEnv docs40 b!"catalog.product.name") = some b!"Laptop" := by decide +kernel
example : strOf (get chkEnv docs40 b!"catalog.product.@id") = some b!"101" := by decide +kernel
example : strOf (get chkEnv docs40 b!"catalog.product.specs.cpu") = some b!"Intel i7" := by decide +kernel
example : strOf (get chkEnv docs40 b!"catalog.product.1.name") = some b!"Mouse" := by decide +kernel
example : strOf (get chkEnv docs40 b!"catalog.product.#") = some b!"3" := by decide +kernel
example : strOf (get chkEnv docs40 b!"catalog.product.price") = some b!"999.99" := by decide +kernel
example : strOf (get chkEnv docs40 b!"catalog.product.0.name") = some b!"Laptop" := by decide +kernel
example : strOf (get chkEnv docs40 b!"catalog.product.0.@id") = some b!"101" := by decide +kernel
example : strOf (get chkEnv docs40 b!"catalog.product.0.price") = some b!"999.99" := by decide +kernel
example : strOf (get chkEnv docs40 b!"catalog.product.nonexistent") = some b!"" := by decide +kernel
example : existsOf (get chkEnv docs40 b!"catalog.product.nonexistent") = some false := by decide +kernel
example : existsOf (get chkEnv docs40 b!"catalog.product.specs") = some true := by decide +kernel
example : existsOf (get chkEnv docs40 b!"catalog.product.1.specs") = some false := by decide +kernel
-- examples/filters
example : listOf (get chkEnv docs41 b!"company.employees.employee.#(age>30)#.name") = some [b!"Bob", b!"Carol", b!"David"] := by decide +kernel
example : listOf (get chkEnv docs41 b!"company.employees.employee.#(department==Engineering)#.name") = some [b!"Alice", b!"Carol", b!"Eve"] := by decide +kernel
example : listOf (get chkEnv docs41 b!"company.employees.employee.#(@status==active)#.name") = some [b!"Alice", b!"Bob", b!"David", b!"Eve"] := by decide +kernel
example : listOf (get chkEnv docs41 b!"company.employees.employee.#(salary>=85000)#.name") = some [b!"Alice", b!"Carol", b!"Eve"] := by decide +kernel
example : listOf (get chkEnv docs41 b!"company.employees.employee.#(salary<80000)#.name") = some [b!"Bob", b!"David"] := by decide +kernel
example : listOf (get chkEnv docs41 b!"company.employees.employee.#(department!=Sales)#.name") = some [b!"Alice", b!"Carol", b!"David", b!"Eve"] := by decide +kernel
example : existsOf (get chkEnv docs41 b!"company.employees.employee.#(age<25)#.name") = some false := by decide +kernel
example : (listOf (get chkEnv docs41 b!"company.employees.employee.#(@status==active)#")).map List.length = some 4 := by decide +kernel
-- examples/modifiers
example : strOf (get chkEnv docs42 b!"blog.posts.post.title|@first") = some b!"Getting Started" := by decide +kernel
example : strOf (get chkEnv docs42 b!"blog.posts.post.title|@sort|@reverse|@first") = some b!"Getting Started" := by decide +kernel
example : listOf (get chkEnv docs42 b!"blog.posts.post.#(views>200)#.title|@sort") = some [b!"Advanced Topics", b!"Best Practices"] := by decide +kernel
-- examples/namespaces
example : existsOf (get chkEnv docs46 b!"soap:Envelope.soap:Body") = some true := by decide +kernel
example : strOf (get chkEnv docs46 b!"soap:Envelope.soap:Body.m:GetStockPrice.m:StockName") = some b!"AAPL" := by decide +kernel
example : strOf (get chkEnv docs46 b!"soap:Envelope.soap:Header.auth:Authentication.auth:Token") = some b!"abc123" := by decide +kernel
example : strOf (get chkEnv docs47 b!"rss.channel.title") = some b!"Example Feed" := by decide +kernel
example : strOf (get chkEnv docs47 b!"rss.channel.atom:link.@href") = some b!"http://example.org/feed" := by decide +kernel
-- doc.go
example : strOf (get chkEnv docs48 b!"root.user.name") = some b!"John" := by decide +kernel
example : strOf (get chkEnv docs49 b!"user.@id") = some b!"123" := by decide +kernel
example : strOf (get chkEnv docs50 b!"users.user.#") = some b!"2" := by decide +kernel
example : strOf (get chkEnv docs50 b!"users.user.0") = some b!"Alice" := by decide +kernel
-- docs/path-syntax.md, Root Element
example : existsOf (get chkEnv docs52 b!"catalog.book") = some true := by decide +kernel
example : existsOf (get chkEnv docs52 b!"book") = some false := by decide +kernel
-- docs/path-syntax.md, Case Sensitivity
example : existsOf (get chkEnv docs53 b!"Root.Child") = some true := by decide +kernel
example : existsOf (get chkEnv docs53 b!"root.child") = some false := by decide +kernel
-- docs/path-syntax.md, Special Attribute Names
example : strOf (get chkEnv docs54 b!"config.@version") = some b!"2.0" := by decide +kernel
example : strOf (get chkEnv docs54 b!"config.database.@host") = some b!"localhost" := by decide +kernel
example : strOf (get chkEnv docs54 b!"config.database.@port") = some b!"5432" := by decide +kernel
example : strOf (get chkEnv docs54 b!"config.database.@ssl") = some b!"true" := by decide +kernel
-- docs/path-syntax.md, Array Iteration
example : strOf (get chkEnv docs56 b!"cart.items.item.#") = some b!"3" := by decide +kernel
example : strOf (get chkEnv docs56 b!"cart.items.item.0.name") = some b!"Book" := by decide +kernel
example : strOf (get chkEnv docs56 b!"cart.items.item.0.quantity") = some b!"2" := by decide +kernel
example : strOf (get chkEnv docs56 b!"cart.items.item.0.price") = some b!"15.99" := by decide +kernel
-- docs/path-syntax.md, Pure Text Extraction
example : strOf (get chkEnv docs57 b!"article") = some b!"Article introduction text.\n    Section 1\n    More article text.\n    Section 2" := by decide +kernel
-- docs/path-syntax.md, Single-Level Wildcard (*)
example : listOf (get chkEnv docs22 b!"products.electronics.*") = some [b!"Laptop 1", b!"Phone 1"] := by decide +kernel
-- docs/path-syntax.md, Recursive Wildcard (**)
example : listOf (get chkEnv docs59 b!"catalog.**.price") = some [b!"999.99", b!"44.99"] := by decide +kernel
-- docs/path-syntax.md, Wildcard First Match Semantics
example : listOf (get chkEnv docs14 b!"items.*|@flatten") = some [b!"First", b!"Second", b!"Third"] := by decide +kernel
-- docs/path-syntax.md, Combining Wildcards and Filters
example : listOf (get chkEnv docs60 b!"employees.*.employee.#(salary>80000)#.name") = some [b!"Alice", b!"Carol"] := by decide +kernel
-- docs/path-syntax.md, Wildcard with Attributes
example : listOf (get chkEnv docs61 b!"products.*.@id") = some [b!"1", b!"2", b!"3"] := by decide +kernel
example : listOf (get chkEnv docs62 b!"store.**.price") = some [b!"1299.99", b!"899.99", b!"29.99", b!"15.99"] := by decide +kernel
-- docs/path-syntax.md, Filter Syntax
example : listOf (get chkEnv docs23 b!"users.user.#(age>30)#.name") = some [b!"Bob", b!"Carol"] := by decide +kernel
-- docs/path-syntax.md, Existence Checks
example : listOf (get chkEnv docs63 b!"products.product.#(@featured)#.name") = some [b!"Laptop", b!"Keyboard"] := by decide +kernel
-- docs/path-syntax.md, Modifier Performance
example : strOf (get chkEnv docs70 b!"sales.transaction.customer|@first") = some b!"Alice" := by decide +kernel
-- docs/path-syntax.md, Security: Prefix Length Limit
example : strOf (get chkEnv docs71 b!"soap:Envelope.soap:Header.auth:Token") = some b!"SECRET123" := by decide +kernel
example : strOf (get chkEnv docs71 b!"soap:Envelope.soap:Body.m:GetUser.m:UserId") = some b!"12345" := by decide +kernel
example : strOf (get chkEnv docs71 b!"Envelope.Body.GetUser.UserId") = some b!"12345" := by decide +kernel
-- docs/path-syntax.md, When Namespace Prefix Matching Works
example : strOf (get chkEnv docs72 b!"soap:Envelope.soap:Body.soap:Request") = some b!"Data" := by decide +kernel
example : strOf (get chkEnv docs73 b!"ns:data.ns:item") = some b!"Value" := by decide +kernel
-- docs/path-syntax.md, When to Avoid Namespace Prefix Matching
example : strOf (get chkEnv docs74 b!"root.custom:item") = some b!"Value" := by decide +kernel
example : strOf (get chkEnv docs75 b!"root.item") = some b!"Value" := by decide +kernel
-- doc.go, Filters
example : strOf (get chkEnv docs51 b!"users.user.#(age>28)#.name") = some b!"Alice" := by decide +kernel
-- Not as the documents say; the comment is what they say.
-- docs/path-syntax.md, Whitespace Handling: "  value  "
example : strOf (get chkEnv docs5 b!"root.text") = some b!"value" := by decide +kernel
-- docs/path-syntax.md, Wildcard First Match Semantics: "First"
example : listOf (get chkEnv docs14 b!"items.*") = some [b!"First", b!"Second", b!"Third"] := by decide +kernel
-- docs/path-syntax.md, @last - Get Last Element: "30"
example : strOf (get chkEnv docs29 b!"nums.n|@last") = some b!"10" := by decide +kernel
-- docs/path-syntax.md, Chaining Modifiers: "95"
example : strOf (get chkEnv docs30 b!"scores.score|@sort|@reverse|@first") = some b!"85" := by decide +kernel
-- docs/path-syntax.md, Escaping At-Signs: "value"
example : get chkEnv docs36 b!"data.\\@special" = .ret .null := by decide +kernel
-- docs/path-syntax.md, Escaping Pipes: "value"
example : get chkEnv docs37 b!"data.option\\|default" = .ret .null := by decide +kernel
-- examples/filters: "95000"
example : strOf (get chkEnv docs41 b!"company.employees.employee.salary|@sort|@reverse|@first") = some b!"85000" := by decide +kernel
-- examples/modifiers: the list Best Practices, Advanced Topics, Getting Started
example : strOf (get chkEnv docs42 b!"blog.posts.post.title|@reverse") = some b!"Getting Started" := by decide +kernel
-- examples/modifiers: the list Advanced Topics, Best Practices, Getting Started
example : strOf (get chkEnv docs42 b!"blog.posts.post.title|@sort") = some b!"Getting Started" := by decide +kernel
-- examples/modifiers: "Best Practices"
example : strOf (get chkEnv docs42 b!"blog.posts.post.title|@last") = some b!"Getting Started" := by decide +kernel
-- examples/modifiers: the list A, B, C, D
example : strOf (get chkEnv docs43 b!"data.group.item|@flatten") = some b!"A" := by decide +kernel
-- examples/modifiers: "<root>\n\t<item>value</item>\n\t<nested>\n\t\t<child>data</child>\n\t</nested>\n</root>"
example : strOf (get chkEnv docs44 b!"root|@pretty") = some b!"valuedata" := by decide +kernel
-- examples/modifiers: "<root><item>value</item><nested><child>data</child></nested></root>"
example : strOf (get chkEnv docs45 b!"root|@ugly") = some b!"value\n\t\n\t\tdata" := by decide +kernel
-- examples/modifiers: "<post id=\"3\"><title>Getting Started</title><views>150</views></post>"
example : get chkEnv docs42 b!"blog.posts.post.0|@raw" = .ret .null := by decide +kernel
-- examples/modifiers: the list id, title, views
example : get chkEnv docs42 b!"blog.posts.post.0|@keys" = .ret .null := by decide +kernel
-- examples/modifiers: the list 3, Getting Started, 150
example : get chkEnv docs42 b!"blog.posts.post.0|@values" = .ret .null := by decide +kernel
-- examples/namespaces: "USD"
example : get chkEnv docs46 b!"soap:Body.m:GetStockPrice.m:Currency" = .ret .null := by decide +kernel
-- docs/path-syntax.md, Array Iteration: the list Alpha, Beta, Gamma
example : strOf (get chkEnv docs55 b!"items.item") = some b!"Alpha" := by decide +kernel
-- docs/path-syntax.md, Array Iteration: 3 results
example : strOf (get chkEnv docs56 b!"cart.items.item") = some b!"Book\n            2\n            15.99" := by decide +kernel
-- docs/path-syntax.md, Pure Text Extraction: "Article introduction text.\n    More article text."
example : strOf (get chkEnv docs57 b!"article.%") = some b!"Article introduction text.\n    \n    More article text." := by decide +kernel
-- docs/path-syntax.md, Whitespace Preservation: "    Roses are red,\n    Violets are blue,\n    XML is structured,\n    And so are you."
example : strOf (get chkEnv docs58 b!"poem.%") = some b!"Roses are red,\n    Violets are blue,\n    XML is structured,\n    And so are you." := by decide +kernel
-- docs/path-syntax.md, Modifier Syntax: the list Cherry, Banana, Apple
example : strOf (get chkEnv docs64 b!"items.item|@reverse") = some b!"Apple" := by decide +kernel
-- docs/path-syntax.md, @reverse - Reverse Array Order: the list 3, 2, 1
example : strOf (get chkEnv docs65 b!"nums.n|@reverse") = some b!"1" := by decide +kernel
-- docs/path-syntax.md, @sort - Sort Array Elements: the list Apple, Mango, Zebra
example : strOf (get chkEnv docs66 b!"items.item|@sort") = some b!"Zebra" := by decide +kernel
-- docs/path-syntax.md, @flatten - Flatten Nested Arrays: 2 results
example : strOf (get chkEnv docs67 b!"data.group") = some b!"AB" := by decide +kernel
-- docs/path-syntax.md, @flatten - Flatten Nested Arrays: 4 results
example : strOf (get chkEnv docs67 b!"data.group.item|@flatten") = some b!"A" := by decide +kernel
-- docs/path-syntax.md, @pretty - Format XML with Indentation: "<root>\n  <child>\n    <item>value</item>\n  </child>\n</root>"
example : strOf (get chkEnv docs68 b!"root|@pretty") = some b!"value" := by decide +kernel
-- docs/path-syntax.md, @ugly - Compact XML (Remove Whitespace): "<root><child><item>value</item></child></root>"
example : strOf (get chkEnv docs69 b!"root|@ugly") = some b!"value" := by decide +kernel
-- docs/path-syntax.md, Chaining Modifiers: the list 95, 92, 88, 85, 78
example : strOf (get chkEnv docs30 b!"scores.score|@sort|@reverse") = some b!"85" := by decide +kernel
-- docs/path-syntax.md, Modifier Performance: the list 250.00, 125.50, 89.99, 45.25
example : strOf (get chkEnv docs70 b!"sales.transaction.amount|@sort|@reverse") = some b!"125.50" := by decide +kernel
-- docs/path-syntax.md, Modifier Performance: "Dave"
example : strOf (get chkEnv docs70 b!"sales.transaction.customer|@last") = some b!"Alice" := by decide +kernel

end Verif.Check
