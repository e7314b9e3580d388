{"id": "C01", "title": "Escaping is lossless and inert", "statement": "A string written by Set is stored escaped: the stored bytes contain none of < > \" ' and every & starts one of the five predefined entities, and reading the stored bytes back (unescaping) yields exactly the original string.", "quantifier": "every byte string, including strings that already contain entities, partial entities, invalid UTF-8 and markup", "why_tests_cant": "the value domain is infinite and the interesting inputs are adversarial combinations of & and entity fragments", "anchors": ["parser.go:escapeXML", "parser.go:unescapeXML", "builder.go:valueToXML"]}
{"id": "C02", "title": "Valid accepts exactly the documented grammar", "statement": "Valid(xml) is true if and only if xml is at most 10 MiB and is a sequence of whitespace, comments, processing instructions, declarations, CDATA sections and at least one balanced element, with text only inside elements, legal names, quoted attributes, at most 100 attributes per tag and nesting depth at most 100.", "quantifier": "every byte string", "why_tests_cant": "both directions quantify over all documents of unbounded size and nesting; a test can only sample accepted and rejected documents", "anchors": ["validate.go:Valid", "validate.go:validatingParser.validate", "validate.go:parseTag"]}
{"id": "C03", "title": "Valid and ValidateWithError agree, and every error names the place and the cause of the first fault", "statement": "ValidateWithError(xml) is nil exactly when Valid(xml) is true, and the byte versions agree with them. Otherwise the document is longer than the limit, or empty, or it splits into a correct beginning (one that some ending completes to an accepted document) followed by a fault, and the error has the line (one plus the newlines before), the column (bytes since the last newline) and the message of that fault: for a mismatched or unclosed tag the names and the place where the open element was opened, for a name the reason it is refused. Conversely every correct beginning followed by a fault is reported so. Error() is the text made of line, column and message.", "quantifier": "every byte string and every way validation can fail", "why_tests_cant": "positions and messages are maintained incrementally along every path of the validator; drift on one path is invisible to tests of others, and tests compare a substring of the message only", "anchors": ["validate.go:ValidateWithError", "validate.go:Error", "validate.go:advance", "validate.go:validate", "validate.go:parseTag", "validate.go:parseOpeningTag", "validate.go:parseClosingTag", "validate.go:parseAttributesValidating", "validate.go:validateName"]}
{"id": "C04", "title": "Get by element path returns the text of the first match in document order", "statement": "On a document of the supported class (properly nested elements with quoted attributes, tags inside CDATA sections only properly nested (see C64), tags inside comments only properly nested in the library's layout with at most one attribute, processing instructions inside the root only of a single word like <?page-break?>; names, text outside the root, ends of closing tags and depth need not be what the validator wants, and the document may end inside elements; see DESIGN.md), Get(xml, a.b.c) finds the first element, in document order with backtracking over siblings, reached by matching names; its String() is that element's whole text with tags and raw '>' removed, trimmed and unescaped (of a comment or CDATA section with a '>' or tags inside, what is behind counts as text, tags again removed), and its Raw is XML carrying the same information as its content; if no such element exists the result does not exist.", "quantifier": "every such document of at most 10 MiB, valid or not, and every path of 1 to 100 element names", "why_tests_cant": "agreement of a byte scanner with a tree semantics has to hold for all trees, attribute layouts and name repetitions", "anchors": ["get.go:GetBytes", "get.go:executeQuery", "parser.go:parseElementContent"]}
{"id": "C05", "title": "Get of an attribute returns the unescaped attribute value", "statement": "Get(xml, a.b.@k): each content reached by a contributes attribute k of its first child matching b, and the answer is the first of these that exists; in particular, when a is reached once, it is the unescaped value of the last attribute named k of the first matching element, and does not exist when that element has none.", "quantifier": "every document of the class of C04, every path of up to 99 element names and every attribute name without a bar", "why_tests_cant": "attribute layout (quotes, whitespace, duplicates, entities) is unbounded", "anchors": ["get.go:executeQuery", "parser.go:parseAttributes"]}
{"id": "C06", "title": "Count and index agree", "statement": "Get(xml, p.x.#) is, as a Number, the number n of matching children (capped at 1000) of the first parent having any, and Get(xml, p.x.i) is the i-th matching child of the first parent having that many; when p is reached once, the index exists exactly when i < n. At the first step of a path names are compared exactly. From index 1000 on Get finds nothing, however many elements there are.", "quantifier": "every document of the class of C04, every path of element names within the limit of 100 parts and every index", "why_tests_cant": "off-by-one errors depend on list lengths and indices of any size", "anchors": ["get.go:executeQuery", "get.go:collectFragmentRoots"]}
{"id": "C07", "title": "Text segment returns direct text only", "statement": "Get(xml, p.%) is the concatenation of the element's own text, excluding all text of nested elements, without raw '>', trimmed and unescaped (of comments and CDATA sections, what is behind a '>' inside counts as text).", "quantifier": "every document of the class of C04 without a raw /> in its texts and without tags or /> in comments and the like (a witness shows what happens with one) and every path of element names within the limit of 100 parts", "why_tests_cant": "nesting below the element is unbounded", "anchors": ["parser.go:extractDirectTextOnly", "get.go:executeQuery"]}
{"id": "C08", "title": "Single-level wildcard returns every child in order", "statement": "Get(xml, p.*) returns all child elements, in document order and at most 1000, of the first element matching p that has any child, as a single result when there is one and as an Array otherwise.", "quantifier": "every document of the class of C04, every path of element names within the limit of 100 parts and every number of children", "why_tests_cant": "unbounded child lists", "anchors": ["get.go:executeQuery", "get.go:handleWildcardMatches"]}
{"id": "C09", "title": "Recursive wildcard returns every descendant, bounded", "statement": "Get(xml, p.**.name) returns exactly the matching descendants down to 101 levels, in post-order, cut after 1000, of the first content reached by p having any, when the document has fewer than 9999 elements; for every document it returns a prefix of that list with at most 1000 results. In a valid document no element is deeper.", "quantifier": "every document of the class of C04, every path of element names within the limit of 100 parts and every name after **", "why_tests_cant": "depth and breadth are unbounded and limits interact with recursion", "anchors": ["get.go:handleRecursiveWildcard", "get.go:recursiveSearchWithContext"]}
{"id": "C10", "title": "Field extraction collects the field of every match", "statement": "Get(xml, p.x.#.f) returns an Array with, for each of the first 1000 matching children x of the first element reached by p in document order, each child named exactly f (or attribute, or non-empty direct text), at most 1000 values; it is an empty Array when nothing matches, and does not exist only when no p exists or (p empty) no root is named x.", "quantifier": "every document of the class of C04, every path of element names within the limit of 100 parts and every field name that the path parser accepts (a letter or _, then letters, digits, -, _ and :, up to 256 bytes; attributes with @ before that)", "why_tests_cant": "unbounded arrays", "anchors": ["get.go:executeFieldExtraction", "path.go:parsePathInternal"]}
{"id": "C11", "title": "Filters select exactly the elements satisfying the condition", "statement": "Get(xml, p.x.#(cond)#) returns as an Array exactly those of the first 1000 matching elements that satisfy cond, in document order, below the first parent having any, and #(cond) the first element satisfying it; an element lacking the tested child or attribute never satisfies a condition, including != and !%.", "quantifier": "every document of the class of C04, every path p of element names within the limit of 100 parts and every condition text accepted by the filter parser (C57) that tests an attribute or a path of names (other tested paths: C51, C78)", "why_tests_cant": "the claim is about all combinations of conditions and element lists", "anchors": ["get.go:handleFilterQueryOnMatches", "filter.go:evaluateFilterWithDepth"]}
{"id": "C12", "title": "Numeric filter operators only ever compare finite numbers", "statement": "A filter with <, >, <=, >= selects an element only if both sides are numeric, parse to finite numbers and stand in that relation; on numeric values < and >= are complementary and so are > and <=. Numerals (optional sign, digits, at most one dot) of up to 15 digits are compared exactly as the decimal numbers they stand for, so such a filter selects exactly the elements whose number stands in the relation; longer numerals are never compared the wrong way round but may count as equal (2^53 and 2^53+1 do). == and != compare texts, so 10.0 is not == 10 although it is both <= and >=.", "quantifier": "every pair of strings", "why_tests_cant": "the string domain is infinite, including signs, exponents, inf and nan spellings", "anchors": ["filter.go:evaluateFilterWithDepth", "filter.go:isNumericValue"]}
{"id": "C13", "title": "Pattern matching implements glob semantics within its budget", "statement": "Match(str, pat, max) reports stopped exactly when neither is empty and len(str)*len(pat after unescaping) > max in runes, and otherwise matched is true exactly when the string is in the language of the pattern (* any sequence, ? any one rune, \\c literally c).", "quantifier": "every string, pattern and budget", "why_tests_cant": "dynamic programming over unbounded strings; equivalence with a declarative language needs induction", "anchors": ["internal/pattern/match.go:Match", "internal/pattern/match.go:processEscapes"]}
{"id": "C14", "title": "Path escaping round-trips", "statement": "For any list of element names (containing dots, backslashes or anything else; not the list of one empty name), escaping dots and backslashes and joining with dots produces a path that splits back into exactly those names.", "quantifier": "every list of byte strings except the list of the empty one", "why_tests_cant": "combinations of backslashes and dots are unbounded", "anchors": ["path.go:splitPath"]}
{"id": "C15", "title": "Over-long and empty paths are rejected", "statement": "A path with more than 100 dot-separated parts, or with no usable segment (nothing but dots), makes Get and GetWithOptions return a non-existing result (GetMany at its place) and Set, SetRaw (of content it accepts), Delete and their variants with options return ErrInvalidPath with the document unchanged; no parsed path has more than 100 segments, and a path of 100 names is read as these.", "quantifier": "every path and every document, all options; for Set and Delete every valid document of at most 10 MiB (on others they report the document), for Set of a value also the empty one", "why_tests_cant": "limits must hold for every path", "anchors": ["path.go:parsePathInternal", "get.go:GetBytes", "set.go:SetBytesWithOptions"]}
{"id": "C16", "title": "The path cache is invisible and bounded under every interleaving", "statement": "For every interleaving of concurrent path parses by any number of goroutines, including callers that lower-case the segments they received, every parse returns exactly what parsing the path from scratch returns, and the cache never holds more than 256 entries.", "quantifier": "every number of goroutines, every schedule, every history of paths", "why_tests_cant": "schedules and histories are unbounded; races only show up in rare interleavings", "anchors": ["path.go:parsePath", "path.go:pathCache", "get.go:parsePathWithOptions"]}
{"id": "C17", "title": "Set then Get returns the value", "statement": "After Set(xml, p, v) with a string v succeeds, Get(result, p).String() is v without leading and trailing white space, unless the element at p was written as an empty tag <x/> (then the code writes the value behind the tag, shown by a witness). With an index on the first name of the path Get need not find what Set wrote, as Set counts the elements whose name matches and Get those whose name is the same (witness). From index 1000 on Set writes the element and Get never finds it.", "quantifier": "every document of the editable layout class, every path of legal element names (at most 100), existing or not, and of names with indices below 1000 behind the first name, every string value within the size limits, every order in which attribute maps are iterated", "why_tests_cant": "depends on the document, path and value all at once", "anchors": ["set.go:Set", "builder.go:replaceElement", "builder.go:createElement"]}
{"id": "C18", "title": "Set changes only the target's content", "statement": "When the path leads to an existing element that is not an empty tag, Set(xml, p, v) equals the original document with exactly the bytes between its start and end tag replaced by the value: every byte before and after is preserved. The layout class asks that the tags below the top level are as long as the library would write them (single quotes or a tab between attributes are allowed). Witnesses show that this fails for empty tags and outside the layout class.", "quantifier": "every document of the editable layout class, every path of names and indices, every value, every order in which attribute maps are iterated", "why_tests_cant": "a frame property over all other bytes of an unbounded document", "anchors": ["builder.go:replaceElement", "builder.go:findElementLocation"]}
{"id": "C19", "title": "Set creates missing elements at the end of the deepest existing ancestor", "statement": "When the path leads to an element and continues with names missing there, Set inserts the missing chain of elements around the value at the end of that element (or at the end of the document when no top-level element matches; or as the whole document when it is empty) and changes no other byte, except that an empty tag <x/> is opened up and written anew with the same attribute values. An attribute part followed by further parts is left out of the chain created in an empty document.", "quantifier": "every document of the editable layout class (of any layout when the chain is written at the end of the document), every path of names and indices followed by missing names, every value", "why_tests_cant": "which ancestor is deepest depends on arbitrary trees", "anchors": ["builder.go:createElement", "builder.go:createInParent", "builder.go:createInRoot", "builder.go:createSiblingRoot"]}
{"id": "C20", "title": "Set keeps documents valid", "statement": "If the document is valid and the path consists of legal element names, then after Set with a value without raw markup the result is again accepted by Valid, provided it stays within the size and depth limits; the only exception is a top-level empty tag as target (witness).", "quantifier": "every document of the editable layout class, every path of legal names, every value whose text has no < (all strings, since they are escaped)", "why_tests_cant": "well-formedness of the output must hold for every input, in particular hostile values", "anchors": ["set.go:SetBytesWithOptions", "builder.go:setElement", "validate.go:Valid"]}
{"id": "C21", "title": "Setting nil is deleting", "statement": "Set(xml, p, nil) returns exactly what Delete(xml, p) returns, value and error.", "quantifier": "every document, path and options", "why_tests_cant": "all inputs", "anchors": ["set.go:SetBytesWithOptions", "set.go:DeleteBytesWithOptions"]}
{"id": "C22", "title": "Delete removes exactly the located element", "statement": "When the path leads to an element, Delete(xml, p) is the document with exactly the bytes of that element, from < of its start tag to > of its end tag, removed; if nothing would be left the document is returned unchanged. The result says what the document said without that element, so the path no longer exists if it was the only match.", "quantifier": "every document of the editable layout class and every path of names and indices", "why_tests_cant": "frame property over unbounded documents", "anchors": ["builder.go:deleteElement", "builder.go:findElementLocation"]}
{"id": "C23", "title": "Delete of a missing path is the identity", "statement": "If a path leads nowhere, in particular if Get(xml, p) does not exist, Delete(xml, p) returns the document unchanged without error.", "quantifier": "every valid document of the query class (no layout condition) and every path of names and indices", "why_tests_cant": "all documents and paths", "anchors": ["builder.go:deleteElement", "builder.go:deleteAttribute"]}
{"id": "C24", "title": "SetMany and DeleteMany are sequential and all-or-nothing", "statement": "SetMany succeeds iff every Set in sequence succeeds and then equals their composition; on any error it returns the original document. DeleteMany does the same for the list of paths without repetitions.", "quantifier": "every document and every list of operations", "why_tests_cant": "operation lists are unbounded", "anchors": ["set.go:SetManyBytes", "set.go:DeleteManyBytes"]}
{"id": "C25", "title": "A failing modification returns the input unchanged", "statement": "Whenever Set, SetRaw, SetMany, Delete, DeleteMany or their variants return an error, the returned document is the input document.", "quantifier": "every document, path, value and options", "why_tests_cant": "every error path must be covered", "anchors": ["set.go:SetBytesWithOptions", "set.go:DeleteBytesWithOptions", "set.go:SetRaw"]}
{"id": "C26", "title": "Malformed documents are never modified", "statement": "Set on a non-empty document rejected by Valid, and Delete on any document rejected by Valid, return ErrMalformedXML.", "quantifier": "every byte string, path, value and options", "why_tests_cant": "all invalid documents", "anchors": ["set.go:SetBytesWithOptions", "set.go:DeleteBytesWithOptions"]}
{"id": "C27", "title": "Where the library can panic", "statement": "Get, GetWithOptions and GetMany panic only if the path has a filter whose value is a single quote character, whatever the document; with such a filter after plain names they always panic. Valid always returns. Set and Delete panic only for such paths when every attribute below the top level is preceded by white space and holds an escaped value (and, for Set of an attribute, everything before it leads to an element or has a step that no element can satisfy); on other documents they can panic, and so can Set of an attribute with markup in the indentation. What lies behind the end of the document in memory, and how much of it there is, never matters for Delete and DeleteMany, and for Set, SetRaw and SetMany only if they panic when there is nothing.", "quantifier": "every document, path, value and options", "why_tests_cant": "panics hide in rare inputs; index arithmetic must be in range for all documents", "anchors": ["builder.go:replaceElement", "builder.go:deleteElement", "filter.go:parseFilterCondition", "get.go:Get"]}
{"id": "C28", "title": "Append adds exactly one element at the end of the group", "statement": "Set(xml, p.x.-1, v) inserts one new element <x>v</x> right after the last child of p matching x (or at the end of p's content when there is none), leaving all other bytes unchanged (a self-closing parent is rewritten as a start and an end tag with its attributes sorted); so the count of p.x becomes one more than before, the last one reads back as v and the earlier ones read as before. A missing parent is created with the missing ancestors, a single-step path p = empty appends at root level, and a result of more than 10 MiB is refused unless the parent was self-closing.", "quantifier": "every document of the editable class, every path of names and indices, every value; for counting and reading back every path of legal names within the limit of 100 parts and every value without markup", "why_tests_cant": "unbounded groups and documents", "anchors": ["builder.go:appendElement", "builder.go:findLastMatchPosition", "builder.go:appendRootElement"]}
{"id": "C29", "title": "Attribute writes and deletes touch one attribute", "statement": "In a document in the library's layout, Set(xml, p.@k, v) at an existing element rewrites only its start tag (attributes sorted by name, escaped): Get(result, p.@k) is exactly v, and every other attribute and every element of the document reads back as before; Delete(xml, p.@k) removes the attribute in the same way (p.@k then does not exist if p has a unique parent), and changes nothing if it was not there. For a missing element, the element is created first. Everything outside the start tag is preserved byte for byte.", "quantifier": "every document of the editable class, every path of names and indices, every attribute and value; for reading back every legal attribute name, values of at most 1 MiB, elements with room for the attribute (100 in all)", "why_tests_cant": "attribute lists and layouts are unbounded", "anchors": ["builder.go:replaceAttribute", "builder.go:deleteAttribute"]}
{"id": "C30", "title": "Default options are the default", "statement": "GetWithOptions/SetWithOptions/DeleteWithOptions with nil or DefaultOptions() behave exactly like Get/Set/Delete. With CaseSensitive=true the other option fields do not change Get results on paths without modifiers that do not mix wildcards with '#', nor Delete results, nor Set results when Indent is empty. (Modifiers after an element are dropped by the options engine, and '*.#.f' without matches gives Null instead of an empty array.)", "quantifier": "every document and path", "why_tests_cant": "two 300-line copies of the query engine must agree on all inputs", "anchors": ["get.go:GetBytesWithOptions", "get.go:executeQueryWithOptions", "options.go:isDefaultOptions"]}
{"id": "C31", "title": "Case-insensitive queries ignore the case of the path", "statement": "With CaseSensitive=false, two paths without filters and modifiers that differ only in ASCII case give the same result on every document; on a document saying i the result of an element path is the first element reached by names compared up to ASCII case. (Filters stay case-sensitive; with two attributes differing only in case the answer depends on map order.)", "quantifier": "every document and every pair of paths equal up to ASCII case", "why_tests_cant": "all documents and casings", "anchors": ["get.go:parsePathWithOptions", "path.go:matchesWithOptions", "path.go:toLowerASCII"]}
{"id": "C32", "title": "Query answers do not depend on map iteration order", "statement": "On a document of the class (of C04: unambiguous tags, at most 100 attributes per element, tokens up to 1 MiB; it need not be valid) every Get and GetWithOptions answer is the same for every order in which Go iterates over attribute maps, chosen anew at every loop: type, String(), Int(), Float(), Bool(), existence and the nested results; only Raw may differ. GetWithOptions with CaseSensitive=false is included if no element has two attributes whose names differ only in case. Modifiers must not look at Raw (the built-in ones do not).", "quantifier": "every document of the class, every path and options, every pair of runs with any orders at every single loop, every registry of modifiers blind to Raw", "why_tests_cant": "Go randomises map iteration; a test sees a handful of orders", "anchors": ["parser.go:parseElementContent", "get.go:executeQuery"]}
{"id": "C33", "title": "Built-in list modifiers are the list operations they name", "statement": "@reverse reverses (and twice is the identity on arrays), @first/@last pick the ends, @flatten flattens one level, @sort returns a sorted permutation (numerically when all elements are numbers), and no modifier loses or invents elements otherwise. Elements whose texts are numerals of up to 15 digits are put in the order of the decimal numbers.", "quantifier": "every array result", "why_tests_cant": "arrays of any length", "anchors": ["modifier.go:reverseModifier", "modifier.go:sortModifier", "modifier.go:firstModifier", "modifier.go:lastModifier", "modifier.go:flattenModifier"]}
{"id": "C34", "title": "@ugly is idempotent and only removes white space", "statement": "compacting XML removes only white space bytes located outside tags and outside CDATA, keeps everything else in order, and compacting twice equals compacting once.", "quantifier": "every byte string", "why_tests_cant": "all inputs, including truncated tags and CDATA markers", "anchors": ["modifier.go:compactXML", "modifier.go:uglyModifier"]}
{"id": "C35", "title": "Modifier chains are pipelines with a bound", "statement": "A chain of at most 20 registered modifiers is applied left to right, stopping at the first Null; an unknown modifier or a longer chain gives a non-existing result.", "quantifier": "every chain, registry and input result", "why_tests_cant": "chains and registries are arbitrary", "anchors": ["modifier.go:applyModifiers", "modifier.go:parseModifiers"]}
{"id": "C36", "title": "The modifier registry behaves as a map with protected built-ins", "statement": "For every history of RegisterModifier/UnregisterModifier/GetModifier calls from any goroutines, a name is bound to the modifier of the last successful registration not followed by an unregistration, registration fails exactly for empty or bound names, and the seven built-ins stay bound to their original implementation.", "quantifier": "every history", "why_tests_cant": "histories are unbounded", "anchors": ["modifier.go:RegisterModifier", "modifier.go:UnregisterModifier", "modifier.go:GetModifier"]}
{"id": "C37", "title": "Result accessors are consistent", "statement": "Exists, IsArray, Array, ForEach, String, Int, Bool and Value agree with each other: Array is empty iff the result is Null or an empty array, and a non-array non-null result is its own single element; ForEach calls its callback exactly on Array() in order, numbered from 0, until the callback stops it; String() of an array is the list of the quoted String() of its items and determines them when they are UTF-8; Int of a textual result is the 64-bit integer written there and 0 if there is none; Bool is true for exactly seven words; Value is nil iff the result does not exist. Int and Float of true are 1 and of false 0. Float of a numeral is a nearest float64, and the number itself if a float64 can hold it.", "quantifier": "every result", "why_tests_cant": "results are recursive values of any size", "anchors": ["result.go:Array", "result.go:ForEach", "result.go:String", "result.go:Int", "result.go:Bool", "result.go:Value"]}
{"id": "C38", "title": "Fluent chaining agrees with the full path", "statement": "If Get(xml,p).Get(q) exists for element paths p and q then Get(xml,p.q) exists and has the same type and string; a chained element, attribute or count path is followed from the element the first query found. The converse fails: chaining looks below the first match only.", "quantifier": "every document of the query class, all paths p, q of names without prefix characters that a path treats specially, together at most 100 parts (content of the first result within the size limit of 10 MiB); counts of direct children excepted (shown by a case)", "why_tests_cant": "the chained query re-parses a re-serialised fragment; agreement is a property of all documents", "anchors": ["result.go:Get", "result.go:isMultiRootFragment"]}
{"id": "C39", "title": "Map lists the children", "statement": "Get(xml,p).Map() binds each name other than % to the children of that name among the first 1000 children, in document order: no entry if there is none, the child if there is one, the Array if there are several; % is bound to the direct text if that is not blank. MapWithOptions groups by lower-cased name when CaseSensitive is off and is Map otherwise. This holds of every result that is an element of the document, however it was found, and of the entries of a map again.", "quantifier": "every document of the query class, all paths of up to 100 names and, in general, every result that is an element of it, all keys (content within 10 MiB; for the key % no child is called % and the texts contain no />)", "why_tests_cant": "unbounded children and name collisions", "anchors": ["result.go:Map", "result.go:parseMapChildren", "result.go:addChildToMap"]}
{"id": "C40", "title": "DOCTYPE, comments and processing instructions in the prolog never influence queries", "statement": "Putting a prolog in front of a document changes the result of no Get, GetWithOptions or GetMany, with any path and options: a prolog is any sequence of text without '<' (including a byte order mark), comments up to their first '-->', processing instructions without '>' and document type declarations (any letter case) with balanced brackets. (CDATA sections and processing instructions containing '>' are not skipped: tags inside them are found.)", "quantifier": "every prolog, every byte sequence after it (not only well-formed ones) with total length up to 10 MiB, every path and options", "why_tests_cant": "XXE-style payloads are unbounded; the claim is non-interference", "anchors": ["parser.go:skipToNextElement", "get.go:GetBytes"]}
{"id": "C41", "title": "Namespace matching", "statement": "A path name with a prefix matches exactly the elements with that prefix and local name; a name without prefix matches every element with that local name whatever its prefix; an over-long (>256) or control-character prefix is treated as part of the name.", "quantifier": "every pair of names", "why_tests_cant": "all byte strings", "anchors": ["path.go:matches", "path.go:splitNamespace"]}
{"id": "C42", "title": "Size limits are enforced at every entry point", "statement": "A document above 10 MiB makes every Get return a non-existing result and every Set/Delete return ErrMalformedXML; a value above 5 MiB makes Set return ErrInvalidValue. The size of the result of Set is not checked: two values within the limit can make a document above 10 MiB, with no error, in which nothing is found and which no later modification accepts.", "quantifier": "every document, path, value", "why_tests_cant": "limits must hold on every path through the code", "anchors": ["get.go:GetBytes", "set.go:SetBytesWithOptions", "builder.go:setElement"]}
{"id": "C43", "title": "GetMany is pointwise Get", "statement": "GetMany(xml, paths...) has one result per path, in order, equal to Get on that path; Result.GetMany likewise.", "quantifier": "every document and list of paths", "why_tests_cant": "lists are unbounded", "anchors": ["get.go:GetMany", "result.go:GetMany"]}
{"id": "C44", "title": "SetRaw rejects unbalanced or DOCTYPE/ENTITY-bearing fragments", "statement": "SetRaw(xml,p,raw) accepts raw exactly when it is a balanced sequence of tokens (text, start, empty and end tags with matching names, comments, CDATA sections, other markup); anything else - a stray, mismatched or missing end tag, an unterminated comment, CDATA section or tag, nested CDATA, <!DOCTYPE, <!ENTITY - fails with ErrInvalidValue and leaves the document unchanged. Well-formed content in the library's layout is accepted, becomes the content of the target (created, with the elements on the way to it, if missing) and keeps the document valid; with a path of C89 it is the first thing that Get then finds. Tags are taken to end at the first > or />, so that some unbalanced fragments pass, and a fragment can close the target and add elements beside it (witnesses). The documented precaution, to check <root>+raw+</root> with Valid first, does not exclude this (witness), but if raw has no end tag of the name used, an accepted raw keeps the document valid within the limits on size and nesting.", "quantifier": "every raw fragment; for the effect on the document, every document of the editable layout class, every path of names, * and ** with or without positions that leads to an element or ends in names that are missing, and all options (indent without < where elements are created)", "why_tests_cant": "fragments are unbounded; it is an injection barrier", "anchors": ["set.go:validateRawXML", "set.go:SetRaw"]}
{"id": "C45", "title": "Wildcard result limit", "statement": "A query without modifiers has at most 1000^k results, where k is the number of parts of its path that are *, **, # or #(...)#: at most 1000 with one such part, at most one with none; no result in the list is missing or itself a list. (1000 is reached with 1001 elements; two wildcards can give more than 1000.)", "quantifier": "every document (any bytes) and every path without modifiers", "why_tests_cant": "needs documents of any size", "anchors": ["get.go:MaxWildcardResults", "get.go:executeQuery"]}
{"id": "C46", "title": "Later writes win and independent writes commute with reads", "statement": "Set(Set(xml,p,v1),p,v2) = Set(xml,p,v2), whether or not the target exists at first; and setting p does not change type and String() of Get of a path q that differs from the way to p at some level.", "quantifier": "every document of the editable layout class, every path of up to 100 legal names (for the other reads also positions) that does not lead to an element written as one tag, every value without < up to 5 MiB, as long as the document stays within 10 MiB", "why_tests_cant": "relates two operations on all documents", "anchors": ["set.go:Set", "get.go:Get"]}
{"id": "C47", "title": "Answers depend on what the document says, not on how it is written", "statement": "Two documents that differ only in the order, quoting and spacing of attributes, white space inside tags and in writing empty elements as one tag or two give the same answer to every path, with and without options, up to Raw.", "quantifier": "every pair of documents of the class with the same elements, attributes and text; every path and options", "why_tests_cant": "tests compare a few spellings of a few documents; the claim is about all spellings under all paths", "anchors": ["get.go:GetBytes", "get.go:executeQuery", "get.go:executeQueryWithOptions", "parser.go:parseAttributes", "parser.go:parseElementContent"]}
{"id": "C48", "title": "Options change only how names are compared and how new elements are laid out", "statement": "SetWithOptions (and SetBytesWithOptions, DeleteBytesWithOptions), with any Options: the path is resolved as by Set and Delete except that with CaseSensitive = false names are compared ignoring ASCII case; then exactly the bytes change that Set and Delete would change for that target (content of an existing element; the removed element; the start tag for an attribute, where every attribute equal up to case is set or removed). New elements and attributes are written in lower case when CaseSensitive = false, and each new element is preceded by a line break and its depth within the new chain of Indent units when Indent is not empty (an appended element: by as many units as the parent's path has parts, unless it is the first thing in the parent; never at top level). No other option has an effect on Set; Delete depends on CaseSensitive only.", "quantifier": "every Options value, every document of the editable layout class (C48_fields: every document), every path of names and indices, every value", "why_tests_cant": "options, trees, paths and indentation strings are unbounded and combine freely; a mistake in one combination changes or loses unrelated bytes", "anchors": ["set.go:SetWithOptions", "set.go:DeleteBytesWithOptions", "builder.go:buildElementPathWithDepth", "builder.go:replaceAttribute", "builder.go:appendElement", "get.go:parsePathWithOptions"]}
{"id": "C49", "title": "What SetWithOptions writes, GetWithOptions with the same options reads", "statement": "For every Options value whose Indent contains no '<': SetWithOptions of a string at a path of legal names succeeds whether or not the elements exist (unless the target is self-closing), the result is valid again, and GetWithOptions with the same path and options returns the string without surrounding white space. An attribute of a missing element is set as on the element created with the empty string. After DeleteBytesWithOptions ignoring case, GetWithOptions finds the next element selected ignoring case, or nothing. Reads of paths that do not go through the target are unaffected.", "quantifier": "every Options value without '<' in Indent, every document of the editable layout class, every path of at most 100 legal names, every string", "why_tests_cant": "options, documents, paths and values are unbounded; names are folded on two different code paths (query and builder) that must agree on all of them", "anchors": ["set.go:SetWithOptions", "set.go:DeleteBytesWithOptions", "get.go:GetWithOptions", "builder.go:createElement", "builder.go:createElementForAttribute"]}
{"id": "C50", "title": "Integers, floats and booleans written by Set are read back by Int, Float and Bool", "statement": "Set and SetWithOptions with an int or int64 do exactly what they do with the string of its decimal digits, and with a bool what they do with the string true or false. So after a successful Set with an integer at a path of element names (or at an attribute of an existing element), Get with the same path gives a result that exists and whose Int() is that integer; after a Set with a boolean, Bool() is that boolean. This holds for any options used for both calls. After a Set with a float, Float() is what ParseFloat makes of the text %g gives for it. The same holds at paths with wildcards, positions and attributes as in C89, for the first of the results: of an element that was there or was created, or of an attribute of either (Set refuses an attribute of an element to be created if the document with the empty element is too large).", "quantifier": "all documents that can be edited (comments, CDATA and instructions included), all paths of up to 100 names, and all paths of C89, all 64-bit integers including the smallest, all options (indent without <), all map orders; unless the addressed element was self-closing", "why_tests_cant": "Tests try a handful of integers at one or two paths; they cannot cover every 64-bit integer, every document shape and every combination of options, and the claim depends on formatting, escaping, trimming and parsing fitting together.", "anchors": ["builder.go:valueToXML", "set.go:Set", "set.go:SetWithOptions", "result.go:Int", "result.go:Bool", "result.go:Float"]}
{"id": "C51", "title": "The meaning of a whole path, whatever steps it combines", "statement": "A path made of any sequence of steps - element names, indices, first-match and all-match filters, * and ** - and ending in an element, an attribute, own text, a count, or fields of elements or attributes or own texts, is answered by Get with what the path means: each step leads to certain elements (children of that name, the n-th, those satisfying the condition, all children, all descendants in post-order), a name, index or first-match filter continues with the first of them that yields an answer, the others collect the answers of all of them, and the result is Null for nothing, the thing itself for one thing and an Array for several. Conditions may test any such path below the element.", "quantifier": "all documents of the class of C04, valid or not, all paths of up to 100 parts whose names contain no path syntax, all nestings of filters in filters, all attribute map orders; with ** documents of fewer than 9999 elements, searched down to 101 levels", "why_tests_cant": "Steps can be combined in unboundedly many ways and the code handles each pair of neighbouring steps in a different branch; tests try some pairs on small documents.", "anchors": ["get.go:executeQuery", "get.go:Get", "get.go:handleWildcardMatches", "get.go:handleRecursiveWildcard", "get.go:handleFilterQuery", "get.go:executeFieldExtraction", "filter.go:evaluateFilterWithDepth", "path.go:parsePath"]}
{"id": "C52", "title": "Modifiers on whole paths", "statement": "Writing modifiers on the last part of a path (a.b|@reverse|@first) gives the answer of the path without them, put through the modifiers from left to right; a missing answer and an empty list are returned as they are, without looking at the modifiers. Exceptions of the code: right below the document an index, the attribute or own text of an indexed element, and a count, and any path whose last step is ** with a name, silently ignore their modifiers - even unknown ones; on the step after * or an all-match filter they are applied twice (to each result, and to all results together), further on only to each result. The built-in list modifiers and @ugly never turn something found into a missing result. In the middle of a path, modifiers on a name, position, wildcard or filter are not looked at, whatever they are, unless the step stands directly after *, # or an all-match filter. With options that are not the default ones, modifiers at the end are not looked at either on names, positions, wildcards and counts, nor on attributes and own text that do not stand after a filter or *. Where they are looked at - on a filter, on fields collected with #, on attributes and own text after a filter, on anything but a filter after * or an all-match filter - they are applied to the answer of the path without them, once.", "quantifier": "all documents (any bytes), all paths of up to 100 parts made of names, indices, first-match filters and as last step possibly * or an all-match filter, all goals, all registries, all chains of up to 20 modifiers that do not lose results; for modifiers after * or an all-match filter: all such paths with one such step and at least one step to one element after it, and goals other than fields; for the modifiers that are not looked at: all documents and all paths; with options: all options but the default ones, all documents", "why_tests_cant": "The code applies modifiers separately in about thirty branches, one for each pair of neighbouring steps; a branch that forgets them is only seen by a test that happens to combine these steps with a modifier.", "anchors": ["get.go:executeQuery", "get.go:handleWildcardMatches", "get.go:handleRecursiveWildcard", "get.go:handleFilterQuery", "get.go:processFirstMatch", "get.go:processAllMatches", "get.go:executeFieldExtraction", "modifier.go:applyModifiers", "path.go:parseModifiers", "get.go:executeQueryWithOptions", "get.go:GetWithOptions"]}
{"id": "C53", "title": "Queries read documents the validator rejects, as if repaired", "statement": "A document that ends inside elements (closing tags missing at the end), has anything behind the name in a closing tag, has names the validator does not accept or text outside the root is still answered: every path, with and without options, gets the same answer, up to Raw, as on the document with the missing closing tags added and the closing tags cleaned. In particular an element still open at the end is found, and its text is all that follows.", "quantifier": "every document made of properly nested pieces followed by any number of elements left open at the end; every path and options; every pair of map iteration orders; every registry of modifiers blind to Raw", "why_tests_cant": "Each document can be cut at any place and each closing tag can carry any junk; tests try a handful of broken documents and mostly only check that nothing panics.", "anchors": ["parser.go:parseElementContent", "parser.go:parseElementName", "parser.go:parseAttributes", "get.go:executeQuery", "get.go:Get", "get.go:GetWithOptions"]}
{"id": "C54", "title": "Answers are flat, and their Raw and String agree", "statement": "For every document, well-formed or not, every path and all options: the result of Get/GetWithOptions is Null, a single result, or an Array whose members are single results (never Null, never Arrays); Results is empty unless the result is an Array, Num is 0 unless it is a count, and an Array has empty Raw and Str. The String() of every Element in the answer is the text in its Raw (markup removed, trimmed, entities decoded), that of an Attribute is its Raw, that of a count is its decimal numeral. On documents Valid accepts (and the parser handles faithfully), the Raw of every Element is well-formed content: put between tags it is a document Valid accepts, and String() is its text. The built-in list modifiers preserve this; @ugly does not (it changes Raw and not String()).", "quantifier": "all documents, all paths, all options, all map iteration orders, all modifiers keeping the shape", "why_tests_cant": "The claim is about every kind of step combination and every document, including malformed ones; tests inspect Raw and String of a few answers.", "anchors": ["get.go:executeQuery", "get.go:executeQueryWithOptions", "get.go:handleWildcardMatches", "get.go:recursiveSearchWithContext", "get.go:executeFieldExtraction", "parser.go:parseElementContent", "parser.go:extractTextContent", "result.go:Result"]}
{"id": "C55", "title": "GetWithOptions answers every path with its meaning under the options", "statement": "For every readable document and every path (names, indices, filters, *, ** and at the end an element, attribute, own text, count or fields), GetWithOptions with options other than the default ones returns exactly the elements, attribute values, texts, count or fields the path means when names of elements, attributes and fields are compared as CaseSensitive says (filter conditions always exactly). With CaseSensitive and unless fields are asked for this is the same as the meaning of the path for Get; fields below * and ** are never found with options.", "quantifier": "all documents of the query class, all paths spelled from the steps, all options other than the default ones, all map iteration orders (attributes that differ only in case excluded when attributes are looked for up to case)", "why_tests_cant": "The second query engine is a hand-made copy of the first; step combinations, documents and options are unbounded, and existing tests compare a handful of paths.", "anchors": ["get.go:GetWithOptions", "get.go:parsePathWithOptions", "get.go:executeQueryWithOptions", "get.go:handleWildcardMatchesWithOptions", "get.go:handleRecursiveWildcardWithOptions", "get.go:processFirstMatchWithOptions", "get.go:processAllMatchesWithOptions", "get.go:executeFieldExtractionWithOptions"]}
{"id": "C56", "title": "Answers are never much larger than the document (no entity expansion)", "statement": "For every byte string given as document, well-formed or not, and every path without modifiers: Raw and String() of every result of Get and GetWithOptions are at most 6 times as long as the document plus, for every level the path can go down (one per part, 101 for **), 13 bytes for each = in the document and 4. Entities declared in a DOCTYPE are never expanded: a reference to one is returned as written. Raw can be longer than the document, since attribute values are escaped anew. So if six times the length of the document, plus for every level 13 bytes for each = and 4, is 29 bytes below 10 MiB, every result is small enough to be queried again.", "quantifier": "all byte strings, all paths without |, all options, all map iteration orders", "why_tests_cant": "The bound is about every document an attacker may send, including malformed ones in which the parser's rewriting of attributes misaligns from level to level; tests try a handful of entity bombs.", "anchors": ["get.go:Get", "get.go:GetWithOptions", "parser.go:parseElementContent", "parser.go:parseAttributes", "parser.go:escapeXML", "parser.go:unescapeXML"]}
{"id": "C57", "title": "Which filter conditions are accepted, and how each is read", "statement": "The text between #( and ) is a condition exactly if it has at most 256 bytes and no NUL and, after trimming white space, either has no operator character and is not empty (the path must exist), or divides at the first ==, !=, <=, >= or !% (if there is none, at the first <, > or %) into a non-empty path without operator and control characters and a non-empty value, whose surrounding quotes are removed, without control characters. It then has one reading only, and two texts with the same reading are interchangeable in every path of every call (Get, Set, Delete, with any options). If it is not a condition, Get and GetWithOptions return Null for the whole path on every document, and Set and Delete report ErrInvalidPath and change nothing, except that a value consisting of a single quote character makes every call panic. A part that begins with #( and is not closed, or whose condition is empty, is ignored. A filter with a bar in its condition, quoted or not, is ignored: every call, Set and Delete included, treats the path as if the filter were not there.", "quantifier": "every condition text (without | except where it is mentioned; what is before that bar does not end in ) or )#), every document and every path around the filter whose earlier parts are not filters; every options value", "why_tests_cant": "tests try a few conditions; this decides every byte string and rules out a second reading", "anchors": ["filter.go:parseFilterCondition", "path.go:parsePathInternal"]}
{"id": "C58", "title": "Over-limit tags and tokens are misread, not ignored or truncated", "statement": "Queries do not reject documents over the reader's limits. A root tag with more than 100 attributes is read as if it ended after the 100th: every query answers as if the white space before the next attribute were '>', so the remaining attributes are part of the element's text, cannot be read as attributes, and a self-closing tag swallows what follows. An attribute value of more than 1 MiB is empty, and the rest of the value is read as further attributes of the tag. A processing instruction of more than 1 MiB ends there, and elements inside the rest of it are found.", "quantifier": "every name, every 100 attributes, every continuation of the document, every path (for the attribute limit also every Options value), every value or instruction over the limit", "why_tests_cant": "the statement equates two infinite families of documents; the tests check single documents for not crashing", "anchors": ["parser.go:parseAttributes", "parser.go:readUntil", "parser.go:parseElementName", "parser.go:skipToNextElement"]}
{"id": "C59", "title": "@pretty changes the layout only, whatever encoding/xml does, apart from prefixes and repeated attributes", "statement": "Get(xml, path + \"|@pretty\"): the modifier returns its argument unchanged if Raw is empty, if the XML decoder stops with an error other than EOF, or if the encoder rejects a token. Otherwise Type, Str and Num (hence String(), Int(), Float(), Bool(), Exists()) stay, and Raw is what the encoder writes for the decoder's tokens in their order, where every start and end tag has lost its namespace and every start tag keeps the first of those attributes that are the same namespace declaration or have the same name, and all others in order. This holds for names without ':' and '=' and namespaces without '='; in general the attributes kept are a subsequence that contains the first one. Two texts whose tokens differ only in the namespaces of elements are formatted identically.", "quantifier": "For all results, all decoders and encoders (the decoder any function from texts to a token list and an end, the encoder any state machine), all attribute lists.", "why_tests_cant": "Tests run one version of encoding/xml on a few documents; the theorem holds for every token stream and every attribute list, including colliding deduplication keys.", "anchors": ["modifier.go:prettyModifier.Apply", "modifier.go:deduplicateXmlnsAttrs"]}
{"id": "C60", "title": "Every path on a result is followed from the element found", "statement": "For a result r of type Element: r.Get(path) returns what the path means when it is followed from that element, for every path made of names, indices, filters, \"*\" and \"**\" and ending in an element, an attribute, own text, a count or \"#.\" fields. If the element has at most one child element, its content is read as a document of its own: the path means what it means for Get on a document. If it has several, a path that starts with a step into the content means what it means inside a longer path; a path that starts with a filter tests the element itself instead of its children; \"#\" is 1, \"%\" is the own text of the element, \"@a\" finds nothing and \"#.f\" collects its children. r.GetWithOptions(path, opts) likewise. On an Array the first entry is asked. If Get(xml, p) finds one element by names, indices and \"#(...)\" and r.Get(q) finds something by a step into the content, then Get(xml, p.q) finds the same (for an index, a count or \"#.\" as first step: if the element has several children). The same holds with options. Modifiers at the end of such a path are applied one after the other to what the path finds.", "quantifier": "For all documents in the query class, all elements of them (without tags or /> inside comments and the like, for paths where it matters whether there are several children), all paths of at most 99 parts (nested filters included), all options, all map orders.", "why_tests_cant": "Tests chain a few literal names. The wrapping of fragments depends on the number of children and changes what the same path means; the theorem covers every combination.", "anchors": ["result.go:Result.Get", "result.go:Result.GetWithOptions", "result.go:isMultiRootFragment"]}
{"id": "C61", "title": "Where Set and Delete write in documents of any layout", "statement": "Set and Delete compute the place of an element as if every tag below the top level were written the way the library writes tags itself (one blank before each attribute, double quotes, each attribute once with its last value, no other white space), and then cut the actual document at these places. So Set replaces the bytes from the computed begin of the content to its computed end by the value, Delete removes the bytes from the computed begin of the element to its computed end (and returns the document itself if nothing would be left), Set and Delete of an attribute replace the computed bytes of the start tag by the start tag with its attributes written anew, Set of a missing chain inserts it at the computed end of the content or replaces the computed bytes of an empty tag by the opened one; each of them panics exactly when the computed end is behind the end of the document. Hence the edit is right as soon as what precedes the element, its start tag and its content have the computed lengths and, for Set, its end tag contains no white space; what follows the element never matters. The same holds for the functions with options, and an element appended with -1 then goes right behind the last matching child.", "quantifier": "every valid document of the query class, whatever its layout, every path of names and indices that leads to an element, every value, all options, every order in which attribute maps are iterated", "why_tests_cant": "the misplacement is a sum over all tags before the element in an arbitrary document, and tests only show single shifts", "anchors": ["builder.go:findElementLocation", "builder.go:replaceElement", "builder.go:deleteElement", "builder.go:createInParent", "parser.go:parseElementContent"]}
{"id": "C62", "title": "How any text is read as a path, and which error each modification returns", "statement": "Every text is, as a path, exactly one of three things: a list of steps, no path, or one that makes every entry point panic. It is split at the dots that are not escaped by a backslash; a backslash makes the next byte ordinary and disappears, also at the end; empty parts and parts that begin with #( but are not a closed, non-empty filter are skipped; more than 100 parts, or a filter whose text is not a condition, make it no path; a filter that compares with a single quote character makes it panic, and of two such faults the first one counts. Two texts with the same steps give the same result in every query and modification. A text that is no path or has no steps gives Null in queries. Delete and DeleteWithOptions report a malformed document exactly when Valid says so; on a valid document an invalid path exactly for texts that are no path, have no steps or are a single attribute; never an invalid value. Set and SetWithOptions with a value other than nil, on an empty or valid document, report an invalid value if the value's type is unsupported or its text above 5 MiB; otherwise an invalid path if a negative position is used other than as a final -1, or if the step before a final -1 is not a name (or is one collected by #); malformed if the document has no element queries can see and the path does not begin with a name. Any other error of Set comes from an attribute of an element that does not exist, or from an append that would make the document larger than 10 MiB. Setting nil gives exactly what Delete gives.", "quantifier": "every text as path, every document, every value, all options, every iteration order of maps", "why_tests_cant": "the error tests use a handful of malformed paths; which of several faults decides, and that no other input gives an error, is a statement about all texts and documents", "anchors": ["path.go:splitPath", "path.go:parsePathInternal", "set.go:SetWithOptions", "set.go:DeleteBytesWithOptions", "builder.go:setElement", "builder.go:appendElement", "builder.go:deleteElement", "builder.go:createElementForAttribute"]}
{"id": "C63", "title": "Documented path features that have no effect: lists from paths of names, list modifiers, escapes, dots in filters, unregistered modifiers", "statement": "On a path of names, positions, attributes, first-match filters #(...), % and a final # the result of Get and GetWithOptions is never an Array, whatever the document, so Array() has at most one element even where the documentation iterates over items.item. On such a path any chain of up to 10 of the built-in modifiers reverse, sort, first, last and flatten gives exactly the result of the path without them. A modifier that is not registered (raw, keys and values are documented but not built in) at the end of a path of names makes Get find nothing in any document. A backslash before any byte but a dot or a backslash can be removed from a path without changing any query or modification, so it does not protect @, | or *. A dot inside a filter that is not escaped ends the part: what precedes it back to the previous dot is ignored, so book.#(rating>=4.5).title means book.5).title.", "quantifier": "every document, every path of the described form, every chain of list modifiers, all options, every iteration order of maps", "why_tests_cant": "the documented examples are not run by the tests; that a feature never has an effect is a statement about all documents", "anchors": ["get.go:executeQuery", "get.go:executeQueryWithOptions", "modifier.go:applyModifiers", "modifier.go:parseModifiers", "path.go:splitPath"]}
{"id": "C64", "title": "Tags inside CDATA sections are read as tags", "statement": "A CDATA section is not a section to Get: its beginning <![CDATA[ and the text up to the first tag in it are skipped, properly nested tags in it are elements of the enclosing element, found by every kind of path like elements outside, and the text behind them together with ]] is part of the text of the enclosing element. So a document with properly nested tags in CDATA sections, anywhere, is in the class of all theorems about queries (C04-C12, C32, C38, C39, C47, C51-C53, C55), with the elements inside the sections counted. Below <r>, a path finds the first match inside the section or behind it; the text of r is the text of the elements in the section, what is behind them in the section, ]] and what follows. Tags in a section that are not properly nested make Get lose elements outside the section, and Set writes into a section, in valid documents.", "quantifier": "every root element, every text before the first tag of the section, all properly nested content of the section and behind it, every element path, every iteration order of maps", "why_tests_cant": "the tests put plain text into CDATA sections; how the scanners for tags, content and text interact on arbitrary nested content of a section is a statement about all trees", "anchors": ["parser.go:parseElementContent", "parser.go:skipToNextElement", "parser.go:extractTextContent", "get.go:executeQuery"]}
{"id": "C65", "title": "Independent writes commute", "statement": "SetMany with writes to elements of which none is the same as or inside another gives the same document in whatever order the writes are listed: every write is done at its place, every element at a place apart from all of them is as before, and the result is a well-formed document of the same class. The writes may set the text of an element, give it other content (raw), set an attribute, create a chain of missing elements inside it, or append an element inside it. Any two elements of a document are the same, apart, or one inside the other. Nested places, two creations in one parent, and Set and Delete of one name do depend on the order.", "quantifier": "every editable document, every number of writes of the five kinds, all places, values and permutations, every iteration order of maps", "why_tests_cant": "the orders of n writes are n!, times all documents and places; SetMany's tests use one order each", "anchors": ["set.go:SetMany", "builder.go:setElement", "builder.go:findElementLocation"]}
{"id": "C66", "title": "What undoes a write", "statement": "Deleting the outermost element that a Set created gives the document from before, byte by byte, whether it was created inside an element with a body (by a path of any length), appended with -1 (deleted by its index), or as a new root. Setting an element raw to the content it has changes nothing, and doing so after a Set of a text undoes that Set. On a start tag in the layout the library writes, a new attribute is undone by Delete, and a changed one by setting the old value. A self-closing parent is not closed again, the layout of a start tag and the place of an element that was deleted and set again do not come back.", "quantifier": "every editable document, every place, every path of missing names, every value, every iteration order of maps", "why_tests_cant": "byte-exact restoration depends on the whole layout of the document, so it is a statement about all documents; tests compare single documents", "anchors": ["builder.go:setElement", "builder.go:createElement", "builder.go:deleteElement", "set.go:Delete"]}
{"id": "C67", "title": "What Get returns as Raw can be written elsewhere with SetRaw and says the same there", "statement": "Let any path without a modifier find an element in a well-formed document. Its Raw is content that SetRaw accepts: written to any element of another (or the same) document that has a body, that element has exactly this content; written to a missing path, the elements on the way are created and the last one has it. The result is valid, and Get with the path that was written to, if it is a path of names and positions or one of C89, finds (as the first result) an element of which every path gives the same answer as of the original, and which has the same text. A self-closing target is not filled: the content is put behind it.", "quantifier": "every well-formed source document (no ENTITY in its declarations), every path that finds an element in it with any options, every editable target document, every path of names, * and ** with or without positions that leads to a place in it or ends in missing names, all options for writing (indent without < where elements are created), every iteration order of maps; sizes and depth within the limits", "why_tests_cant": "the Raw of an element is rebuilt by the parser from the tags it saw, so that it is accepted and means the same elsewhere is a statement about all pairs of documents and places; tests copy single literals", "anchors": ["set.go:SetRaw", "set.go:validateRawXML", "parser.go:parseElementContent", "get.go:executeQuery", "builder.go:replaceElement"]}
{"id": "C68", "title": "Set and Delete follow wildcards and positions one level at a time and to one element only", "statement": "In Set and Delete, `*` and `**` both mean: any child, one level down; a position after it (or after a name) selects one of those that qualify, otherwise it is the first. Modifiers in a part are ignored. What Set and Delete do depends only on the element that the beginning of the path leads to and on what follows, not on how the way to it is written (names, wildcards, positions, or modifiers). A value replaces the content of that one element, Delete removes that one element, and no other byte changes. If the steps lead nowhere, or if the path contains a filter, `%`, `#` or an attribute that is not last, Delete changes nothing and reports no error - also where Get with the same path finds something.", "quantifier": "every document in the editable class (for equality of paths: every well-formed document of the query class), every path of names, wildcards and positions however spelled, every continuation, every value, all Options (for equality of paths under Set with an indentation: paths with the same number of steps; with an attribute at the end: nothing missing before it), every iteration order of maps", "why_tests_cant": "tests write through literal names; that two spellings of the way to an element have the same effect, and that recursive wildcards and filters have none of their query meaning in writes, quantifies over all documents, paths and continuations", "anchors": ["builder.go:findElementLocation", "builder.go:setElement", "builder.go:deleteElement", "builder.go:createElement", "path.go:parsePathInternal", "set.go:SetWithOptions", "set.go:DeleteBytesWithOptions"]}
{"id": "C69", "title": "Set at a path that leads nowhere writes an element for every remaining step, named or not, and does not check the result", "statement": "If the beginning of a path leads to an element and the next step leads nowhere in it, Set writes one element for every remaining step, nested in each other around the value, at the end of that element's content, and changes no other byte except that a self-closing tag is opened: a step that is a name gives an element of that name, an attribute that is not last is passed over, `#` with the field after it gives one element without a name, and every other step (filter, position, wildcard, `%`, `#`) gives an element without a name. A position that is too large writes into the first element that qualifies. If already the first step can lead to no element, all of this is written into the first root element. Set reports success in all these cases. As long as no other markup hides in the names, the result is valid exactly if all names are names of XML, the nesting limit is kept and the document is not too large; in particular it is invalid as soon as one step is not a name, so the next Set or Delete fails. If only names of XML remain and the path ends in an attribute, the elements are written with this attribute as the only one of the innermost, unless the document with the bare elements is above the size limit, which is an error. A final attribute behind a step that no element can satisfy is always refused.", "quantifier": "every document in the editable class, every place in it, every path of names, wildcards and positions to it, every continuation without negative positions, every value, all Options, every iteration order of maps", "why_tests_cant": "tests create elements at literal paths of names; what is written for every mixture of steps, and exactly when the result is valid, quantifies over all documents, paths, names and values", "anchors": ["builder.go:createElement", "builder.go:createInRoot", "builder.go:createInParent", "builder.go:buildElementPath", "builder.go:setElement", "builder.go:createElementForAttribute", "path.go:parsePathInternal", "validate.go:ValidBytes", "set.go:SetWithOptions"]}
{"id": "C70", "title": "The elements of one name below a path behave as a list under Set and Delete", "statement": "If a path of names leads to an element in which no child matching `x` is self-closing, then the texts of its children matching `x` are a list on which `Set(path.x.-1, s)` appends, `Set(path.x.j, s)` replaces entry j and `Delete(path.x.j)` removes entry j (or changes nothing when there is none). This holds for any number of such calls in any order: each gives the list the operations give, and the surrounding document, the name, the attributes, the own text and all other children of the element stay as they were. White space around a text is not part of it. All calls succeed as long as the document, plus what the calls can add, is not above 10 MiB. Get with `#` and with a position below 1000 reads that list as long as it is not empty; deleting position 0 as often as there are entries empties it. When it is empty, Get goes on to another parent of the same name although Delete does not, so that a loop which deletes while Get finds something may never end.", "quantifier": "every document in the editable class, every path of at most 98 names, every name of XML, every finite sequence of appends, replacements and removals with any texts (up to 5 MiB) and positions, every iteration order of maps", "why_tests_cant": "tests append, replace or delete once or a few times in literal documents; that every sequence of calls acts as on a list needs an invariant kept by each call on every document", "anchors": ["set.go:Set", "set.go:Delete", "builder.go:setElement", "builder.go:appendElement", "builder.go:deleteElement", "builder.go:findElementLocation", "get.go:Get"]}
{"id": "C71", "title": "The attributes of an element behave as a map under Set and Delete", "statement": "If a path of names and positions leads to an element that has no attribute twice, then `Set(path.@k, s)` puts the value s at k and `Delete(path.@k)` removes k, in the map from names to values that its attributes are, and every such call succeeds. This holds for any number of such calls in any order, as long as at most 100 names occur and the document stays below 10 MiB: the name and the content of the element, byte for byte, and the document around it stay as they were. The order of the calls leaves no trace: two sequences that give the same map, each with at least one Set, give the same document. Get at a path of names that leads there, with `@k` behind it, reads what the map has at k (for other paths see C94).", "quantifier": "every document in the editable class, every path of names and positions to an element, every finite sequence of writes and removals of attributes with any values (up to 1 MiB) over at most 100 names of XML, every iteration order of maps", "why_tests_cant": "tests write or delete one attribute of literal documents; that every sequence acts as on a map, and that no trace of its order remains although the attributes are kept in a Go map, quantifies over all sequences and iteration orders", "anchors": ["set.go:Set", "set.go:Delete", "builder.go:setElement", "builder.go:replaceAttribute", "builder.go:deleteElement", "builder.go:deleteAttribute", "get.go:Get"]}
{"id": "C72", "title": "Documents are nested dictionaries under Set, Delete and Get of paths of names", "statement": "A nested dictionary has entries with distinct names; each entry has labels, a text and a dictionary of its own. Written as a document, each entry is an element with its labels as attributes in alphabetical order. On the document of any such dictionary, Set of a path of names with a string makes the string the text of the entry at the path and empties the dictionary below it, adding the entry and the entries on the way at the end of their dictionaries when they are missing; Delete of a path of names removes the entry, if there is one and it is not the last of the document; Set and Delete of a path of names and an attribute put and remove a label. Every such call succeeds and its result is the document of the dictionary after the operation, byte for byte; so is the result of any sequence of such calls, starting with the empty document or another one, and of SetMany. Conversely every such dictionary with at most 99 levels and texts of at most 5 MiB is reached: setting the text and then the labels of each entry, entry by entry from the outside in, on the empty document, gives exactly its document, with single calls of Set or with one call of SetMany. Get at a path of names gives nothing if the dictionary has no such entry and otherwise an element with all the text in the entry (trimmed); with % the text of the entry itself, with @k its label k. An operation does not change what is at a path of which neither leads on to the other. Map of that element has, under each name, the entry of that name in its dictionary, and under % its text unless that is blank. With the options CaseSensitive = false and no Indent, SetWithOptions, DeleteBytesWithOptions and GetWithOptions do the same without regard to case: on the document of a dictionary in which no two names of one dictionary and no two labels of one entry agree up to case, a call acts on the entry and the label that agree up to case with its path, which keep their spelling; entries and labels that are missing are added in lower case; the result is again such a document, byte for byte, for any sequence of calls.", "quantifier": "every nested dictionary with names without prefix (up to 100 levels, 100 labels in an entry and 10 MiB as a document), every finite sequence of operations with any strings as values within the limits, every path of names (at most 100 parts in all; label names without a bar), every iteration order of maps; Map for dictionaries of at most 1000 entries; with options, every dictionary with names and labels distinct up to case", "why_tests_cant": "tests compare the outcome of a few calls on literal documents; that no sequence of calls ever leads away from what a dictionary would do quantifies over all documents and all sequences", "anchors": ["set.go:Set", "set.go:Delete", "set.go:SetMany", "builder.go:setElement", "builder.go:createElement", "builder.go:replaceAttribute", "builder.go:deleteElement", "builder.go:deleteAttribute", "get.go:Get", "result.go:Map", "set.go:SetWithOptions", "set.go:DeleteBytesWithOptions", "get.go:GetWithOptions"]}
{"id": "C73", "title": "Get finds the first element of a path whatever follows it", "statement": "When the first elements of the names of a path, level by level, lead to an element (or, below the top of the document, to the j-th element of the last name), Get of the path returns that element for every document that begins with the same bytes up to the end of the element: what follows can be nothing, the rest of a document, end tags that do not match, half a tag or any other bytes. The same holds for its own text (%); and for its attribute, if it has it, already when the document agrees up to the end of the start tag. GetWithOptions with any options finds the element, its own text, the j-th element and the attribute in the same way, where without regard to case the names of the path and of the document need only agree up to case; the attribute then needs a start tag in which no two attributes agree up to case. For Get, an element that is cut off inside its content (also behind a lone <) is found with what there is of its content. Counts, lists of results, attributes the first element does not have and queries that find nothing do depend on what follows.", "quantifier": "every readable beginning of a document, every element in it that a path of names leads to, every sequence of bytes after it (10 MiB in all), any options, every iteration order of maps", "why_tests_cant": "the bytes that follow are arbitrary; a test can try a few endings", "anchors": ["get.go:GetBytes", "get.go:executeQuery", "parser.go:parseElementContent", "parser.go:skipToNextElement", "get.go:GetWithOptions"]}
{"id": "C74", "title": "Reading removes exactly Unicode white space at the ends", "statement": "The text of an element read by Get is the decoded text that remains when the characters with the Unicode property White_Space (25 characters, among them the no-break space and the line separators) are removed from both ends, in UTF-8; nothing else is removed, not the zero width space, the byte order mark, or bytes that are not valid UTF-8. So a string written by Set comes back the same exactly if it neither begins nor ends with such a character.", "quantifier": "every byte sequence as text, valid UTF-8 or not; every readable document, path of names and string", "why_tests_cant": "the trimming works on bytes of up to three byte encodings from both ends, with any bytes before and after them", "anchors": ["parser.go:extractTextContent", "parser.go:extractDirectTextOnly", "get.go:executeQuery"]}
{"id": "C75", "title": "Edits do not depend on map iteration order", "statement": "Delete, DeleteBytes and their options version return the same bytes and the same error in any two runs, whatever order Go chooses at every single loop over an attribute map. So does DeleteMany, with orders that change from one Delete to the next. Two runs of Set at a path without an attribute return the same error or none, and documents that are equal or differ only in the order of the attributes of one start tag (that of a self-closing element opened to take new content). Every run of Set, also at an attribute of an element named by its path and missing or present, equals a run in which all loops use one order, so every other statement about Set holds for such runs too.", "quantifier": "every document of at most 10 MiB that is well formed with unambiguous tags and at most 100 attributes per element (for attributes, also without what reading rewrites to another length), every path, value and options, every pair of runs with any orders at every single loop", "why_tests_cant": "Go randomises map iteration anew at every loop; a test sees a handful of orders, and the builder searches re-serialised text, where an order could shift positions", "anchors": ["builder.go:findElementLocation", "builder.go:createInParent", "builder.go:createInRoot", "builder.go:replaceAttribute", "builder.go:deleteAttribute", "parser.go:parseElementContent"]}
{"id": "C76", "title": "Documents are ordered trees under Set and Delete of paths of names and indices", "statement": "An ordered tree has entries whose names may repeat; each entry has labels, a text and a tree of its own, and is reached by steps, each a name and a place among the entries of that name. Written as a document, each entry is an element with its labels as attributes in alphabetical order. On the document of any such tree: Set of the path of an entry with a string makes the string its text and empties the tree below it; Set of a path with a name that is missing below the entry the path leads to so far adds an entry of that name at the end, with the remaining names inside each other; Set with the index -1 adds an entry behind the last one of its name; Delete removes the entry unless it is the last of the document; Set and Delete of an attribute put and remove a label. Every such call succeeds and its result is the document of the tree after the operation, byte for byte; so is the result of any sequence of such calls and of SetMany. The trees such calls lead to from the empty document are exactly those in which entries of one name stand next to each other, within the limits (paths of at most 100 parts, texts of 5 MiB, labels of 1 MiB, documents of 10 MiB), and each of them is written by an explicit list of Set calls or one call of SetMany. Get at the path of an entry gives an element with all the text in the entry (trimmed).", "quantifier": "every ordered tree with names without prefix (up to 100 levels, 100 labels in an entry and 10 MiB as a document), every finite sequence of operations with any strings as values within the limits; for Get the first step without an index (or 0) and other indices below 1000, every iteration order of maps", "why_tests_cant": "tests compare a few calls on literal documents; the reachable documents are an infinite set, and that it is exactly the set of grouped trees needs an argument about all sequences of calls in both directions", "anchors": ["set.go:Set", "set.go:Delete", "set.go:SetMany", "builder.go:setElement", "builder.go:createElement", "builder.go:appendElement", "builder.go:replaceAttribute", "builder.go:deleteElement", "builder.go:deleteAttribute", "get.go:Get"]}
{"id": "C77", "title": "Steps that stand where they mean nothing", "statement": "A path may put steps where they have no meaning, and queries then answer by fixed rules, in every document and with any options. Whatever follows the own text (%), a count (#) or the fields that # collects is ignored: the answer is that of the path cut off there, modifiers included. Whatever follows an attribute is ignored too if the step before the attribute is a filter or a position (then for an attribute without modifiers), but below a name or a wildcard an attribute with anything after it gives Null. A position gives Null at the beginning of a path, after another position, a filter or a wildcard, and after the name that ** looks for; a negative position gives Null anywhere; ** gives Null if it is the last step or the next one is not a name or a wildcard. A step of digits with a hyphen among them that is no number (a date such as 2024-11-15) is the position 0, in queries and in modifications.", "quantifier": "every document, every option value, every path with any steps before and after the one in question, every registry of modifiers and iteration order of maps", "why_tests_cant": "tests use paths that mean something; that the rest of a path has no influence is a statement about all continuations and all documents", "anchors": ["get.go:Get", "get.go:GetWithOptions", "get.go:executeQuery", "get.go:handleRecursiveWildcard", "get.go:handleWildcardMatches", "path.go:parsePath", "path.go:isNumeric"]}
{"id": "C78", "title": "Every path without modifiers has one meaning, and Get returns it", "statement": "Any text without a bar is a query with exactly one meaning, and Get returns what it means on any document. The text is split at dots into at most 100 parts, parts that are empty or filters without an end are left out, and each remaining step is a name, a position, a filter, *, **, an attribute, the own text, a count or a # with the field that it collects; steps after which nothing is looked at end the path, and steps that stand where they cannot be satisfied make it find nothing. A filter compares what its own path means, found in the content of the element. A text that is no path (more than 100 parts, or a filter without a condition) finds nothing. The only texts without a meaning are those with a filter that compares with a single quote character, on which Get panics. Existence and string of the answer depend on what the document says only, not on how it is written nor on the iteration order of maps.", "quantifier": "every text without a bar as a path, filters nested to any depth; every document in the sense of Says; with a step ** (in the path or in a filter of it) fewer than 9999 elements, with both # and % in the path, or for the string of an own text, texts without /> that do not begin with > and comments without tags; every order of map iteration and every number parser", "why_tests_cant": "tests cover chosen combinations of steps; that no combination is left without a rule, and that the rule decides the answer in every document, quantifies over all texts", "anchors": ["get.go:Get", "get.go:executeQuery", "get.go:handleRecursiveWildcard", "filter.go:evaluateFilterOnMatch", "path.go:parsePath", "path.go:parsePathInternal", "filter.go:parseFilterCondition"]}
{"id": "C79", "title": "Every path leads Set and Delete to one place, and they change just that", "statement": "The steps of any path say in exactly one way where Set and Delete go, and they lead to at most one element of a document: a name or a wildcard goes one level down, to the first element that satisfies it or to the one that a position behind it says; a position that is no number (such as a date) is 0, one that exceeds 63 bits is the largest; a negative position, and any step that is neither a name nor a wildcard nor a position behind one, lead nowhere. Delete removes the element the path leads to, or the attribute of the element that the steps before the attribute lead to, and changes nothing if they lead nowhere. Set replaces the content of that element or the value of that attribute. If the path leads nowhere, Set goes to the element that the longest beginning of it leads to and writes the further steps inside each other at the end of its content, a step that is no name as an element without a name; if the first step is a name that no root element has, they are written as a further root element at the end of the document; if it is neither a name nor a wildcard, at the end of the first root element. If the steps before an attribute lead nowhere, Set of the attribute does what Set of the element with the empty string and then Set of the attribute do, except that it fails without a change if the document is too large in between. One of these cases applies to every path and document. No other byte changes, except that a self-closing tag may be opened and the attributes of a tag written anew.", "quantifier": "every list of steps and every path with these steps; every document of the grammar that the library does not rewrite, every context and element in it; every value, indentation and case option; every order of map iteration. Set with an attribute of an element that has to be created is C69, a final -1 in Set is C91, other negative positions are C62", "why_tests_cant": "tests edit through chosen paths; that no combination of steps goes anywhere else, and that nothing besides the place changes, quantifies over all paths and documents", "anchors": ["builder.go:findElementLocation", "builder.go:setElement", "builder.go:createElement", "builder.go:createInRoot", "builder.go:createInParent", "builder.go:deleteElement", "builder.go:deleteAttribute", "builder.go:replaceAttribute", "set.go:SetWithOptions", "set.go:DeleteBytesWithOptions", "builder.go:createElementForAttribute"]}
{"id": "C80", "title": "Every path without modifiers has one meaning under options, and GetWithOptions returns it", "statement": "Every text without a bar is a path with exactly one meaning under given options, unless it makes the path parser panic (and then GetWithOptions panics): a text that is no path asks for nothing, and otherwise its steps amount to moves and a goal or find nothing, as for Get (C78). GetWithOptions with options other than the default ones returns that meaning, with the names and attributes of the steps compared as CaseSensitive says and the paths in filters compared exactly; with the default options the meaning is that of Get. Existence and string of the answer depend on what the document says only.", "quantifier": "every text of a path without a bar; every well-formed document within the size limit; all options; every order of map iteration; every number parser. With ** fewer than 9999 elements, with #.%, or for the string of an own text, texts without /> that do not begin with > and comments without tags, with attributes up to case no two attributes of an element that differ only in case", "why_tests_cant": "tests use well-formed paths; the meaning of arbitrary step sequences under options quantifies over all texts, options and documents", "anchors": ["get.go:GetWithOptions", "get.go:executeQueryWithOptions", "get.go:parsePathWithOptions", "path.go:splitPath", "filter.go:parseFilterCondition"]}
{"id": "C81", "title": "A query depends on the registry only through the modifiers its path calls", "statement": "Registering, replacing or unregistering a modifier - successfully or not - changes no answer of Get, GetMany, GetWithOptions, Result.Get or Result.GetWithOptions whose path does not call that modifier; a path calls the names that stand as @name after a bar in one of its dot-separated parts, with white space around allowed. A path without a bar does not depend on the registry at all.", "quantifier": "all documents (any bytes), all paths (any bytes), all options, all results, all pairs of registries, every order of map iteration, every number parser", "why_tests_cant": "compares all pairs of registries on all documents and paths; a lookup under a wrong name (a default, a truncated name, the modifier of a neighbouring step) only shows for the registries a test happens to build", "anchors": ["modifier.go:RegisterModifier", "modifier.go:UnregisterModifier", "modifier.go:GetModifier", "modifier.go:applyModifiers", "path.go:parseModifiers", "get.go:Get", "get.go:GetWithOptions", "result.go:Get"]}
{"id": "C82", "title": "A path through *, ** or #(...)# collects what the rest of the path finds in each element", "statement": "Let a path p of names, positions and first-match filters end in * in an all-match filter #(...)#, or in ** with a name or * behind it, and let q start with a step into the content. If the results r of Get(xml, p).Array() find anything with r.Get(q), then Get(xml, p.q).Array() is exactly what they find, one after the other in the order of the elements: it describes the same things, with the same types and the same strings. With ** this is said of fewer than 1000 elements and at most 1000 results, where collecting stops. If Get(xml, p) does not exist, Get(xml, p.q) is Null. If none of the elements finds anything, Get(xml, p.q) may still find something, below a later element than the one Get(xml, p) stops at; and q must not start with a name followed by a position, # or #.field, which Result.Get reads in another way. With options the same holds of GetWithOptions(xml, p, opts), r.GetWithOptions(q, opts) and GetWithOptions(xml, p.q, opts).", "quantifier": "every document in the query class, every such p of moves, every q of any moves and any goal (nested filters included), every order of map iteration; p.q of at most 100 parts, contents of the elements 29 bytes below the size limit; with ** fewer than 9999 elements, with #.%, or for the strings of own texts, texts without /> that do not begin with >; all options other than the default ones, for attributes without regard to case no two attributes of an element that differ in case only", "why_tests_cant": "relates three different entry points (Get, Array, Result.Get) over all documents and all pairs of paths; the code paths for the collected continuation and for Result.Get share no code above executeQuery and treat the content differently (re-wrapping)", "anchors": ["get.go:handleWildcardMatches", "get.go:processAllMatches", "get.go:executeQuery", "result.go:Get", "result.go:Array", "get.go:handleRecursiveWildcard"]}
{"id": "C83", "title": "Every path has one meaning on a result, and Result.Get returns it", "statement": "Any text without a bar has exactly one meaning as a path on an element, unless it is one of the texts that make the path parser panic (then Result.Get panics too, or finds nothing if the path has 100 parts), and r.Get(path), r.GetWithOptions(path, opts) return exactly the answer of that meaning. With at most one child element the path is followed as on a document that is the content of the element; with several it is followed from an element around that content, so that a path that begins with a name or a wildcard finds what it would find inside a longer path, the empty path finds the element itself, a leading #, #.x, % or filter is about the element itself, and a path of 100 parts finds nothing. Two results that are the same element agree in existence and string on every path.", "quantifier": "every element result, every text without | as a path (no other restriction: steps in any position, unclosed or malformed filters, numbers of any size, up to and beyond 100 parts), every options value, every order of map iteration, every number parser; content 29 bytes below the size limit and without < in comments or CDATA; with ** fewer than 9998 elements inside; with #.%, or for the string of an own text, texts without /> that do not begin with >; CaseSensitive=false with @: no attributes that differ only in case", "why_tests_cant": "quantifies over all texts as paths on all elements; the wrapping in _xmldot_root happens only for contents with two roots and shows only for particular leading steps, and the 100-part limit is off by one only there", "anchors": ["result.go:Get", "result.go:GetWithOptions", "get.go:Get", "get.go:executeQuery", "path.go:parsePath"]}
{"id": "C84", "title": "Ordinary valid documents are read as written", "statement": "Every document that Valid accepts is in the class that the query statements speak about (there is one reading of it, and Get of every path without a bar returns the meaning of the path in that reading), provided that processing instructions and DOCTYPE stand before the first tag, comments, CDATA sections and other declarations contain no <, and no attribute value, closing tag or processing instruction is very long (174762 bytes for a value, 1 MiB for the others). In particular every valid document of at most 174762 bytes without <! and with <? at most at its beginning. If moreover the tags are written neatly - one blank before an attribute, no other white space in tags, no special characters in attribute values, no attribute twice - it is in the class that the statements about Set and Delete speak about. Outside, valid documents are misread: comments with tags end or hide elements, tags in CDATA are found, and Set may write in the wrong place.", "quantifier": "every sequence of bytes that Valid accepts; the conditions are about the bytes only (for Get of a path as in C78: fewer than 9999 elements with **, no /> in texts with #.%, no filter that makes the parser panic)", "why_tests_cant": "quantifies over all valid documents; connects the validator, the tag parser and the editing functions, which scan the bytes independently of each other", "anchors": ["validate.go:Valid", "parser.go:parseElementContent", "parser.go:parseAttributes", "get.go:Get", "builder.go:findElementLocation"]}
{"id": "C85", "title": "The limit on recursive operations holds for one search, not for a query", "statement": "Each recursive search that a ** starts makes at most 10000 calls. Every ** in a path starts a search with a counter of its own, so nothing limits a query: on a document of n <= 100 nested elements <a>, Get and GetWithOptions (whatever the options) with the path **.a.**.a. ... .z with k <= 49 times ** return a non-existing result after at least n over k calls of the query functions; 700 bytes of XML and a path of 246 bytes make it 98913082887808032681188722800. In the other direction, on a document in which every element is read as written, Get with any path without filter makes fewer calls than (number of elements + 2) to the power of (number of ** + 1), so without ** at most one more than there are elements; and Get and GetWithOptions with any path at all, filters included, fewer than (number of elements + 2) to the power of (number of the bytes * and ( in the path + 1).", "quantifier": "all documents, all paths, options, map orders and registries (bounds); all options, n <= 100 and k <= 49 (blowup); all documents, targets and depths (one search)", "why_tests_cant": "The bound is about every document and path; the blowup cannot be run to its end, and a test that stops at a time limit shows nothing about the number of calls.", "anchors": ["get.go:handleRecursiveWildcard", "get.go:recursiveSearchWithContext", "get.go:executeQuery", "get.go:MaxRecursiveOperations", "get.go:handleRecursiveWildcardWithOptions", "get.go:executeQueryWithOptions", "filter.go:evaluateFilterWithDepth"]}
{"id": "C86", "title": "Two documented limits never apply", "statement": "The documentation says that Get ignores what is nested deeper than 100 elements, and that filters inside more than ten filters are not evaluated (they match nothing). Neither holds: with n elements inside each other, Get(a) and then k times Get(a) on the result reaches an element for every k below n and Null from n on; the string of the outermost element contains the text of the innermost one however deep it is; and a path of k filters inside each other (up to 86, what fits a path) finds something just when there are more than k levels.", "quantifier": "for every number of levels n up to a million, every number of steps k, every number of filters k up to 86 and every map order", "why_tests_cant": "A test tries one depth and usually asserts only that nothing panics; that no depth is cut off, and that the result changes exactly at the true depth, is a statement about all n and k.", "anchors": ["parser.go:parseElementContent", "filter.go:evaluateFilterOnMatch", "filter.go:evaluateFilterWithDepth", "get.go:Get", "result.go:Get"]}
{"id": "C87", "title": "Delete keeps documents valid until the last element is gone", "statement": "On a valid document written in the usual layout, Delete (with any options) at any path that does not panic either refuses the path with ErrInvalidPath and returns the document, or returns a document that is valid and in the usual layout again, so that it can be edited further; the exceptions are that no root element is left, in which case the result is not valid (only comments, processing instructions and white space remain), and that an attribute was removed and the tag written anew makes the document larger than 10 MiB. Without @ in the path the document never becomes larger. The same holds for DeleteMany with any list of paths: it returns either an error and the document it was given, or such a document.", "quantifier": "for every editable document, every path, every list of paths, all options and every map order", "why_tests_cant": "Tests delete chosen elements from chosen documents; that no path whatever (wildcards, positions, filters, modifiers, attributes, unfinished text) and no sequence of paths breaks a document is a statement about all of them.", "anchors": ["set.go:DeleteBytesWithOptions", "set.go:DeleteManyBytes", "builder.go:deleteElement", "builder.go:deleteAttribute"]}
{"id": "C88", "title": "Documents built with Set and Delete stay valid", "statement": "Begin with the empty document, or with a valid document in the usual layout none of whose root elements is written self-closing, and call Set, SetRaw and Delete any number of times in any order: Set of an element at a path of XML names, or of a further element of that name (path with -1), or of an element that is there at any path that leads to it (names, wildcards, positions), with any options and a value that may stand there (strings, numbers and booleans always; RawXML and SetRaw if their XML is in the usual layout and not nested too deep); Set of an attribute at a path of names, or of an element that is there at any path that leads to it, with any options and a value without markup; Delete at any path with any options. Whether the calls succeed or fail, the document at hand is then valid and in the usual layout, so that it can be edited further, unless it is larger than 10 MiB or Delete has taken its last element. The same holds for SetMany, which returns either an error and the document it was given, or such a document. (An attribute needs room: the element has it already or has fewer than 100. An indent contains no <. Setting a self-closing root element is the exception: its text is written behind it and the result is not valid; inside an element the result is valid. SetRaw also takes XML that is not well-formed, e.g. with names that are none, and then the result is not valid.)", "quantifier": "for every editable document without self-closing root elements and for the empty one, every series of calls, all names, all values that may stand there, all options with an indent without <, every order at every iteration of a map", "why_tests_cant": "Tests run chosen series of edits; that no series at all breaks a document needs an invariant that every call preserves, including calls that fail and documents that were emptied in between.", "anchors": ["set.go:SetBytesWithOptions", "set.go:SetRaw", "set.go:SetManyBytes", "set.go:DeleteBytesWithOptions", "builder.go:setElement", "builder.go:createElement", "builder.go:appendElement", "builder.go:createElementForAttribute"]}
{"id": "C89", "title": "What Set writes is the first thing Get finds", "statement": "In a valid document in the usual layout, take a path of names and * that may have positions below 1000 after names other than the first, and no modifiers; with any options. The element at which Set and Delete work with this path is the first of the results that GetWithOptions finds with the same path and options (the Result itself, or the first of its array). So after Set with a value without markup, the first result is an element with that value as its text, without leading and trailing white space: whether the element was there (not self-closing), or was created with others for the names at the end of the path, inside the deepest element the path leads to or as a further root. After Set of an attribute at such a path the first result is the attribute with exactly that value also if its element, and others for the names at the end of the path, are created for it (without regard to case: in a document where no element has two attributes whose names differ only in case). The restrictions are needed: ** is one level for Set and any number for Get, a position after * is none for Get, a position after the first name counts other elements, and text for a self-closing element is written behind it.", "quantifier": "for every editable document, every such path and every element it leads to or that is created for it, all values without markup, all options with an indent without <, every map order", "why_tests_cant": "Reading and writing follow paths with two separate implementations; tests compare them for chosen documents and paths. Only an argument over all documents and paths shows that they agree where they do, and which paths have to be left out.", "anchors": ["set.go:SetBytesWithOptions", "builder.go:setElement", "builder.go:findElementLocation", "builder.go:createElement", "builder.go:replaceAttribute", "get.go:GetWithOptions", "get.go:executeQueryWithOptions", "builder.go:createElementForAttribute"]}
{"id": "C90", "title": "Writes at places apart do not disturb each other, nor reads elsewhere, whatever paths lead there", "statement": "In a valid document in the usual layout, take any number of calls of SetWithOptions, each with its own options and with a path of any kind that leads to an element (names, * and **, positions, with or without regard to case), where no element is inside another. Each call gives an element that is not self-closing a text, or gives an element an attribute, or creates in it elements for names it does not have, or appends an element to it (-1), or gives it markup as content, or removes an attribute or a child of it (a Set of nil, that is, Delete). Then every order of the calls leads to the same document (if it does not become too long): each element has what was written to it, every other element outside is at its place unchanged, and the paths still lead to the same places. With default options one call of SetMany does it, with the pairs in any order. GetWithOptions with a path as in C89 leading to an element outside finds first what it found before. Of two writes of text with one path and options the second wins and the first leaves no trace, also where the first created the element.", "quantifier": "for every editable document, all such series of writes, all their orders, all options with an indent without <, all values (markup: within the grammar), every map order in every call", "why_tests_cant": "The calls are independent only because each one finds its place by scanning the text anew and rewrites only there; tests compare a few orders of a few calls. The number of orders, paths and documents is unbounded.", "anchors": ["set.go:SetBytesWithOptions", "set.go:SetManyBytes", "builder.go:setElement", "builder.go:findElementLocation", "builder.go:createElement", "builder.go:replaceAttribute", "get.go:GetWithOptions", "builder.go:deleteElement"]}
{"id": "C91", "title": "Appending with -1 at any path", "statement": "SetWithOptions with a path that ends in a name and -1: if the steps before the name (of any kind: names with or without modifiers, wildcards, positions) lead to an element in the sense of C79, exactly one element of that name with the value is inserted in it, directly after its last child of that name (with the comparison of the options), or at the end of its content if it has none; on a new line with as many units of the indentation as the path has steps before the name, unless it comes first; a self-closing element is opened, with its attributes sorted. All other bytes stay. A result above 10 MiB is refused and the document returned, except when the element was self-closing. With the name as the only step the same happens at the top level, without a new line. If the steps before the name lead nowhere, -1 makes no difference: the result is that of the path without it. Afterwards the path with the number of children of that name from before instead of -1 leads to the new element: GetWithOptions with it finds first the text that was written (as in C89), and DeleteWithOptions with it removes the element, which without indentation gives the document from before if the element was not self-closing, and otherwise leaves the line break and the indentation.", "quantifier": "every path with these steps; every document of the grammar that the library does not rewrite, every element in it; every value (for what is said about reading and deleting: without markup), every indentation, both kinds of comparison, every order of map iteration", "why_tests_cant": "tests append through a few paths of names; that any path finds the same parent as Set does, and that the place of insertion, computed by scanning the content of the parent, is right for all contents, quantifies over all documents and paths", "anchors": ["builder.go:appendElement", "builder.go:appendRootElement", "builder.go:findLastMatchPosition", "builder.go:setElement", "set.go:SetWithOptions", "set.go:DeleteBytesWithOptions", "get.go:GetWithOptions"]}
{"id": "C92", "title": "What undoes a write at any path", "statement": "With any options and any path whose steps lead somewhere in the sense of C79: deleting the outermost of the elements that SetWithOptions created gives the document from before, byte by byte, if no indentation is set and the parent was not self-closing; otherwise exactly the line break (and the opened tag of the parent) remain. The same for a new element at the top level. Setting an element raw to the content it has changes nothing, and doing so after a Set of a text undoes that Set. On a start tag in the layout the library writes, a new attribute is undone by DeleteWithOptions with the same path, and a changed one by setting the old value, also when its name is compared without regard to case (if no other attribute of the element has a name that differs only in case). An element without attributes that is the last thing in its parent and the only one of its name there comes back, after Delete, by setting its content raw with the same path.", "quantifier": "every path with these steps, every list of missing names behind it; every document of the grammar that the library does not rewrite, every element in it; every value without markup, every indentation, both kinds of comparison, every order of map iteration", "why_tests_cant": "byte-exact restoration depends on the whole layout of the document and on the path finding the same place twice, so it is a statement about all documents and paths; tests compare single documents", "anchors": ["builder.go:setElement", "builder.go:createElement", "builder.go:deleteElement", "builder.go:replaceAttribute", "builder.go:deleteAttribute", "set.go:SetWithOptions", "set.go:DeleteBytesWithOptions"]}
{"id": "C93", "title": "The elements of one name in any element are a list under Set and Delete, with any paths and options", "statement": "Take any element in which no child matching the name `x` is self-closing, and the list of the texts of its children matching `x` (with options that compare without regard to case: of all spellings of `x`). SetWithOptions of a string, with a path that leads to the element (by names, `*`, `**` and positions, in the sense of C79) and then goes on with `x.-1`, appends to that list; with `x.j` it replaces entry j; DeleteWithOptions with `x.j` removes entry j, or changes nothing when there is none. Any number of such calls, each with its own path, its own indentation and its own order of maps, does to the list what the operations do, and leaves the surrounding document, the name, the attributes and the other children of the element as they were; without indentation its own text as well. White space around a text is not part of it. All calls succeed as long as the document, plus what the calls can add, is not above 10 MiB. GetWithOptions with such a path and a position below 1000 finds that entry first, if it leads Get where it leads Set (C89). Deleting position 0 as often as there are entries removes all of them.", "quantifier": "every series of calls, every path that leads to the element; every document of the grammar that the library does not rewrite, every element in it; every name, every text, every indentation without `<`, both kinds of comparison, every order of map iteration", "why_tests_cant": "that a series of edits through different paths and options amounts to list operations is a statement about all series; tests run a few fixed ones", "anchors": ["builder.go:setElement", "builder.go:createElement", "builder.go:deleteElement", "set.go:SetWithOptions", "set.go:DeleteBytesWithOptions", "get.go:GetWithOptions"]}
{"id": "C94", "title": "The attributes of any element are a map under Set and Delete, with any paths and options", "statement": "Take any element and the map from its attribute names to their values. SetWithOptions of a string, with a path that leads to the element (by names, `*`, `**` and positions, in the sense of C79) and ends in `@k`, gives the value to `k`; DeleteWithOptions with such a path removes `k`. With options that compare exactly this is put and remove on the map. Without regard to case, Set gives the value to every spelling of `k` that is there, or to the lower-case one if there is none, and Delete removes every spelling; so seen through the same comparison it is a map again: each spelling of `k` finds the new value and no other, other names find what they found. Any number of such calls, each with its own path, options and order of maps, does to the map what the operations do; all succeed, and the name and content of the element and the document around it stay byte for byte, as long as at most 100 names occur and the document is not above 10 MiB. Two series of calls that give the same map, each with at least one Set, give the same document whatever their paths and options are. GetWithOptions with such a path finds the value first, if it leads Get where it leads Set (C89; without regard to case: where no element has two attribute names that differ only in case).", "quantifier": "every series of calls, every path that leads to the element; every document of the grammar that the library does not rewrite, every element in it that has no attribute twice; all names of XML, all values whose escaped form is at most 1 MiB, both kinds of comparison in any mixture, every order of map iteration", "why_tests_cant": "that series of edits with mixed options amount to operations on a map, and that the document depends on the final map only, are statements about all series; tests run a few fixed ones", "anchors": ["builder.go:deleteAttribute", "builder.go:replaceAttribute", "set.go:SetWithOptions", "set.go:DeleteBytesWithOptions", "get.go:GetWithOptions"]}
{"id": "C95", "title": "All the children of any element are a list under Set and Delete, with any paths and options", "statement": "Take any element and the list of its children: for each its name, its attributes, its text and the elements in it. SetWithOptions of a string with a path that leads to the element (by names, `*`, `**` and positions, in the sense of C79) and goes on with a name, `*` or `**`, with a position or without, gives the text to the entry asked for: the one that matches and has as many matching entries before it as the position says; its name and attributes stay, what was in it is gone. DeleteWithOptions with such a path removes that entry. Set with `x.-1` adds an entry with the text behind the last one that matches `x`, or at the end if there is none, and Set with a name that matches no entry adds one at the end; its name is `x`, in lower case if the options compare without regard to case. Any number of such calls, each with its own path, options and order of maps, with and without regard to case in any mixture, does to the list what the operations do, in this order; the element keeps its name and attributes (and its own text, unless an entry is added with indentation) and the document around it stays. All calls succeed as long as the document, plus what the calls can add, is not above 10 MiB. GetWithOptions with such a path finds the text of the entry first, if it leads Get where it leads Set (C89). Deleting `*` as often as there are children removes all of them and no text of the element.", "quantifier": "every series of calls, every path that leads to the element; every document of the grammar that the library does not rewrite, every element in it; every XML name, every text of at most 5 MiB, every indentation without `<`, every order of map iteration; only entries with an end tag are given a text", "why_tests_cant": "A test tries a few operations on one document; which child a path means depends on all the children before it, on the comparison and on what earlier calls left, and only a proof covers every series of calls with every mixture of paths and options.", "anchors": ["builder.go:setElement", "builder.go:deleteElement", "builder.go:appendElement", "builder.go:findElementLocation", "set.go:SetWithOptions", "set.go:DeleteBytesWithOptions"]}
{"id": "C96", "title": "Set and Delete are functions on what a document says", "statement": "What a document says is the tree of its elements with their names, attributes and texts, comments and other markup; it does not include the order of the attributes of an element, their quotes, the kinds of blanks between them, or white space in the tags of root elements. What the document says after a call is a function of what it said before, of the operation and of the options, not of how the document is written. SetWithOptions, with steps that lead to an element (names, `*`, `**`, positions) and then names, writes what the value stands for (a text for strings, numbers and booleans, or well-formed markup given as it is): from level to level into the first element of the name, and where a name is missing new elements at the end of the level, each on a line of its own if there is an indentation. With `x.-1` it adds an element with that content behind the last one that matches `x`, or at the end. DeleteWithOptions removes the element that the steps lead to, with all that is in it, and changes nothing if they lead nowhere. With `@k` at the end, Set and Delete change the attribute as in a map (C94); Set at the attribute of an element that is not there writes the element first, empty and without attributes, as if for the path before `@k`. All of them succeed (only Set with -1 or at an attribute of a new element fails, and changes nothing, and only because the document would be above 10 MiB), and everything else that the document says stays. So two documents that say the same say the same after any series of the same operations, even if the paths are spelled differently, the markup is written differently, and the attributes are met in different orders, and then GetWithOptions answers alike on both. SetMany, and DeleteMany for different paths, give what the calls give one after the other, or fail and return the document as it was, and then one of the calls fails or a document between them is above 10 MiB. The Raw of any element that GetWithOptions finds in such a document (with a path without `|`) is markup that can be written in this way, and what is written then says what the result says: so the content of elements can be copied and moved, within a document and between documents.", "quantifier": "every series of calls, every path as described, every document of the grammar that the library does not rewrite in which every element has an end tag and no attribute twice; every text or well-formed markup of at most 5 MiB (markup of the same grammar as the document) (values of attributes 1 MiB) and every indentation without `<`; at most 100 levels and 100 names of attributes of an element that gets one; a root element is deleted only if another one remains; every order of map iteration; copies as deep as 100 levels allow", "why_tests_cant": "A test compares two spellings of one document after a few calls; that nothing but what the document says decides what it says afterwards is a statement about all documents, all ways to write them and all series of calls, and only a proof reaches it.", "anchors": ["builder.go:setElement", "builder.go:deleteElement", "builder.go:createElement", "builder.go:appendElement", "builder.go:replaceAttribute", "builder.go:findElementLocation", "set.go:SetWithOptions", "set.go:DeleteBytesWithOptions", "get.go:GetWithOptions", "set.go:SetManyBytes", "set.go:DeleteManyBytes"]}
{"id": "C97", "title": "Nil and empty byte slices", "statement": "SetBytes and SetBytesWithOptions refuse a nil slice: it comes back as nil with ErrMalformedXML, whatever the path, the value and the options, and nothing is created. DeleteBytes and DeleteBytesWithOptions do the same. SetManyBytes gives nil back without an error when there are no paths and no values, with ErrInvalidPath when there are not as many values as paths, and with ErrMalformedXML otherwise. DeleteManyBytes gives nil back without an error when there are no paths, and with ErrMalformedXML otherwise. On a slice that is not nil, empty or not, the byte-slice functions return what the string functions return, and never nil. In particular an empty slice is a document to write into, and a series of edits never turns a document into nil.", "quantifier": "every path, value, list of paths and values, options, document and iteration order of maps", "why_tests_cant": "The tests try a nil slice with one path and value; that a document never becomes nil within a series of edits, and that the string functions and the byte-slice functions agree, is about all documents and all calls.", "anchors": ["set.go:SetBytesWithOptions", "set.go:DeleteBytesWithOptions", "set.go:SetManyBytes", "set.go:DeleteManyBytes", "set.go:SetWithOptions", "set.go:Delete", "set.go:SetMany", "set.go:DeleteMany"]}
{"id": "C98", "title": "Set does not keep to the limits on attributes, and what it writes past them is misread", "statement": "In a document of C79, Set of an attribute with a name of XML and a value of at most 5 MiB as written reports success, whatever the options and the order of maps, and however many attributes the element has. If no name occurs twice in the element, the document that comes back is valid exactly if the attribute was there already or the element had fewer than 100 attributes, the value is at most 1 MiB as written, and the document at most 10 MiB. In particular Set of one more attribute in an element with 100 attributes succeeds, ValidateWithError reports \"too many attributes (maximum 100)\" for what it returns (unless it is over 10 MiB), and every further Set and Delete on it is refused with ErrMalformedXML, also the Delete of that attribute. What it returns is not read back as written: if the document is one element with text, of the 101 attributes the one whose name is last in byte order (the new one or not) is not found by Get, and the text of the element begins with it.", "quantifier": "every document of C79, element in it, path of names leading to it, attribute name, value, options and iteration order of maps", "why_tests_cant": "The tests for the limit parse documents with too many attributes; none writes past the limit with Set, and the claim is about every element, name and value.", "anchors": ["set.go:SetBytesWithOptions", "builder.go:replaceAttribute", "validate.go:parseAttributesValidating", "set.go:DeleteBytesWithOptions", "parser.go:parseAttributes"]}
{"id": "C99", "title": "Setting or deleting one attribute rewrites the others, and can make a valid document invalid", "statement": "In every valid document that begins with a tag, whatever follows the tag, Set of an attribute of that tag, and Delete of one that is there, report success and return the document with that tag written anew: all attributes sorted by name, each value unescaped and escaped again, the rest of the document unchanged. So if another attribute of the tag is longer than 1 MiB when written that way (such as 174763 apostrophes between double quotes, each of which becomes &apos;), the document returned is not valid, although neither the value set nor the one deleted has anything to do with it.", "quantifier": "every valid document beginning with a tag, every name of XML for the attribute, value up to 5 MiB as written, options and iteration order of maps", "why_tests_cant": "The tests set attributes in small tags; a value has to be near the token limit, in a form that grows when escaped, and untouched by the call.", "anchors": ["builder.go:replaceAttribute", "builder.go:deleteAttribute", "parser.go:escapeXML", "validate.go:parseAttributesValidating"]}
{"id": "C100", "title": "Get and GetWithOptions read a long attribute of an inner element as empty", "statement": "Let a document begin with the start tag of an element, directly followed by the start tag (self-closing or not) of an inner element that has one attribute. Let the value u of that attribute, escaped anew with the five predefined entities, be longer than 1048576 bytes, and let u hold no white space, no slash and no equals sign. Then Get with the path outer.inner.@attribute returns an existing attribute result whose value is empty, although the value as written may be within the limit and the document may pass Valid. GetWithOptions does the same for every choice of options; without regard to case the names of the path need only agree with those of the document up to case. If a document begins with that inner start tag itself, Get with inner.@attribute returns u, and so does GetWithOptions with any options.", "quantifier": "All environments with any order of map iteration, any options, all names of the two elements and of the attribute that a path can name, all attributes of the outer element that the parser accepts, all values u as described, any bytes after the start tag of the inner element, total length up to 10 MiB.", "why_tests_cant": "The loss depends on how much a value grows when its quotes and ampersands are escaped, for values of hundreds of kilobytes, and on whether the element is nested.", "anchors": ["parser.go:parseElementContent", "parser.go:parseAttributes", "parser.go:readUntil", "parser.go:escapeXML", "get.go:executeQuery", "get.go:executeQueryWithOptions"]}
