# Formal model of netascode/xmldot: design

The Go source is in `/repo` (pinned commit). The model and the proofs are in
`lean/Verif`. `properties.jsonl` states the properties; `MANIFEST.json` says which
theorem carries which property.

## 1. Trusted base

* The Lean 4.33.0 kernel.
* Axioms: only `propext`, `Classical.choice`, `Quot.sound`. No axiom of our own, no `sorry`,
  no `native_decide`, no `bv_decide`. Concrete witnesses use `decide +kernel`, which is
  checked by the kernel itself.
* The translation Go -> Lean, done by hand from the text. Every model definition cites file
  and lines and says where it simplifies.
* The Go semantics assumed for the standard library functions that are used: they are
  restated as Lean functions in `Verif/Model/GoLib.lean` (`strings.TrimSpace`,
  `strings.NewReplacer`, `strings.Split`, `strconv.Atoi`, `strings.EqualFold` on ASCII, UTF-8
  decoding of `range`). `strconv.ParseFloat`, `sort.Slice`, `fmt %g`, `encoding/xml`
  are *parameters*: theorems hold for every function in that place (with the stated contract). The contracts: `SortContract`
  (a permutation, ordered if the comparison is a strict weak order) and, for the order and writing theorems C32 and C47, `Oblivious` (the sorter
  looks at the elements only through the comparison), and for the theorems on decimal numbers `ReadsNumerals` in `Spec/Float.lean` (ParseFloat gives a nearest
  float64 for a numeral without exponent; `parse64` is such a function). Theorems that speak of `@pretty` as an arbitrary function assume that it returns its argument or changes only the raw
  text; for the modelled `@pretty`, with the decoder and the encoder of encoding/xml as parameters (`XmlCodec`), this is proved (C59).
* Slices, strings and maps are values. The code converts strings to byte slices without copying (get.go:2269-2271, `unsafe`); it assigns through an index only to slices and maps it has made itself
  (get.go:820, modifier.go:106, 240, 463, 551-557, parser.go:213, 217, path.go:153, 509, result.go:333, 563, 629, 690-704, set.go:398), so no write is seen through another slice.

## 2. Shape of the model

* Bytes are `List UInt8`. A Go string and a `[]byte` are both such a list (the code never
  mutates a shared byte slice).
* The parser state `xmlParser{data,pos,dataLen}` is the *remaining suffix* of the data: the parser
  never looks backwards. A position is `data.length - suffix.length`.
* Integers: `int` is `Int`/`Nat`; the sizes involved are below 2^31 because documents are limited
  to 10 MiB, so there is no overflow. `Atoi` models saturation at 64 bits.
* Go map iteration is a parameter: an `Env` carries a function that may permute the attribute
  list differently at every element; theorems quantify over all of them.
* Runtime panics are explicit: slicing out of range gives `Outcome.panic`.
* Loops are structural or well-founded recursion, hence total: termination of the modelled
  functions is part of what Lean accepts.
* Concurrency (path cache, modifier registry): state machines over the atomic steps delimited by the locks;
  theorems quantify over all schedules.

## 3. What is modelled, per file

| file | modelled | not modelled |
|---|---|---|
| parser.go | all | - |
| path.go | all of parsePath, split, names, matching, namespaces, index intents, cache | - |
| validate.go | all, with line/column tracking and error messages | - |
| filter.go | all (parseFilter, which nothing calls any more, only for its test expectations) | - |
| internal/pattern | all | - |
| get.go | all query functions, both copies (plain and WithOptions) | - |
| result.go | accessors, String, Array, ForEach, Get, Map | Float via parameter |
| modifier.go | all: applyModifiers, registry, the seven modifiers | encoding/xml under `@pretty`: parameter |
| builder.go | all | - |
| set.go | all | - |
| options.go, errors.go | all | error texts (those of ValidateError are modelled) |

## 4. Plan per property

Documents are described by a grammar of forests (`Spec/Tree.lean`): text, comments, CDATA, processing
instructions, DOCTYPE, empty tags and nodes, with every byte of layout kept, so that `render` gives the exact document.
Classes of documents used in the hypotheses (all decidable, all with examples checked beside the theorems):

* *Legal*: the grammar accepted by the validator (C02 says `valid` = legal, both directions).
* *Loose* and *Tame* / `Says xml i`: at most 10 MiB, properly nested (`Forest.Loose`), and without the constructs on which scanning for tags is
  ambiguous (tags inside CDATA sections unless they are properly nested, C64; tags inside comments unless they are properly nested and written as the code writes them with at most one
  attribute each, processing instructions inside elements unless they are a single word like `<?page-break?>`; `Tame`). It need not be legal: any bytes may be in names as long as the tag can be
  read, anything may stand behind the name in a closing tag, `--` may stand in comments, text may stand outside the root, the depth is free, and the document may end inside
  elements (`Draft`: a forest, or a forest followed by an opening tag that is never closed and more of the same). `i` is what the document says: names,
  attribute values and texts, without layout. All query theorems (C04-C12, C32, C38, C39, C47, C51-C53, C55) are about this class. Every legal tame document
  belongs to it (`Forest.Legal.loose`).
* *Sound*: legal, tame, at most 10 MiB, with an element; nothing is asked of the layout (C61).
* *Editable*: sound, and in each element below the first level the start tag is as long as the code would write it: one blank before an attribute, each name once,
  values escaped as the code escapes, no blank before `>`, no white space in end tags - or other deviations that leave the length alone, such as single quotes or
  a tab instead of the blank (`Forest.Even`). Set and Delete compute offsets in re-serialised text, so they are right only there; what they do in every other
  layout is C61, with negative witnesses.

Paths are given by their parts: `PlainName` (a part read as an element name), steps `(name, index)`, etc. (`Spec/Query.lean`, `Spec/Edit.lean`).

| id | plan |
|---|---|
| C01 | induction on the string |
| C02 | grammar as an inductive forest with `render`; validator = grammar by induction on suffix length (sound) and on the forest (complete) |
| C03 | invariant of `advance` along the validator; `Spec/Fault` says what a correct beginning (`Begun`) and a fault after it (`Fault`, with place and message) are; `Lemmas/Fault` shows that the validator reports exactly that, in both directions |
| C04-C08, C10 | refinement: parser on `render f` yields the forest (up to attribute order), query = tree query |
| C09 | refinement of the bounded search + bound invariant |
| C11, C12 | list specification of filter steps; numeric lemmas |
| C13 | DP rows = language membership, induction over the table; counter arithmetic |
| C14, C15 | induction over names; counting lemma for split; every entry point in `Props/PathRefused.lean` |
| C16 | transition system, invariant over reachable states |
| C17-C20, C22, C23, C28, C29, C46 | location function on `render f` = position in the tree; then splice lemma |
| C21, C24-C26, C42, C43 | direct from the definitions of the entry points, stated against independent folds |
| C27 | `Outcome.panic` unreachable for the classes; counterexamples elsewhere |
| C30, C31 | simulation between both copies / lower-casing lemma |
| C32 | relation "equal up to attribute order" preserved by every query step. `C32_visits` shows that the visits are told apart: reversing the order at one kind of visit alone changes `Raw`, or which of two attributes is taken |
| C33-C36 | list lemmas, scanner invariant, histories |
| C37-C39 | accessor laws; chaining through the refinement |
| C40 | scanner skips a prolog: suffix lemma |
| C41 | direct specification of prefix/local splitting |
| C44 | stack machine versus grammar; `C44_any_*` (`Props/CopyAny.lean`) give the effect for names, `*` and `**` with or without positions (the steps that Set follows) and any options, from the edit theorems of C79 with a raw value; reading it back is C89 and needs its `Ahead` |
| C45 | length invariants |
| C47 | relation "same names, attributes and texts" between two documents preserved by every query step |
| C48, C49 | the location function with options; splice lemma; read back with the same options |
| C50 | formatting then parsing of numbers, on top of C17 and C49; at any path on top of C89 (`Props/TypedAny.lean`, attributes of created elements in `Props/TypedAttr.lean`) |
| C51 | a path is a list of moves and a goal (`Spec/Ask.lean`); the meaning `ask` is defined by recursion on the moves, the spelling of a path by a relation; induction on the moves, and on the spelling for paths inside filters |
| C53 | the class of the query theorems contains drafts; a draft and its repaired form say the same, so C47 applies |
| C54 | one invariant of all functions of both query engines, with the predicate on single results as a parameter (`Lemmas/Shape.lean`); instantiated for any document and for legal tame ones |
| C55 | the meaning `askBy` under options (`Spec/AskBy.lean`), parameterised by CaseSensitive; the same induction as C51 for the second engine; for CaseSensitive and no fields `askBy` is `ask` |
| C56 | a measure `wt` (length after decoding and escaping again), subadditive and not increased by taking parts; one pass over an element adds at most 13 per `=` and 4; then an invariant of both engines (`Lemmas/Size.lean`, `Lemmas/SizeQuery.lean`); for documents with few `=` and room below 10 MiB the bound gives the absence of the limit (`Props/Roomy.lean`) |
| C57 | the grammar of conditions `Condition`/`BadQuote` (`Spec/Filter.lean`) and its equivalence with the condition parser (`Lemmas/Condition.lean`); then induction over the parts before the filter; all other calls by the paths being indistinguishable after parsing (`Props/ConditionAll.lean`) |
| C58 | both engines see a document only through `topElems`; two documents of equal length with the same outermost elements have the same answers (`Lemmas/Excess.lean`) |
| C59 | the modifier as a function of a token list and an abstract encoder; equal keys of clean attributes split uniquely at the first `=` and the last `:` (`Props/Pretty.lean`) |
| C60 | the number of top-level elements of canonical content is what `isMultiRootFragment` counts (`Lemmas/Roots.lean`); then C51/C55 on the content or on the content in its wrapper |
| C61 | `Forest.redo` is the content as the code writes it (up to attribute order, `Twin`), so the location found is that of the element in the rewritten document (`Lemmas/Place.lean`: `findLoc_place`), counted in the original one |
| C62 | the reading of a text as a path (`Spec/Reading.lean`: `Parts`, `Idle`, `Rejected`, `StrayQuote`, `PathSteps`) is shown equal to the path parser part by part (`Lemmas/Reading.lean`); then each function of the builder is searched for the branches that return an error (`Lemmas/Errors.lean`) |
| C63 | the evaluator is compared with itself on the segments without their modifiers (`exec_one`, `execOpt_one`): no segment of the described kind can produce an array, and a modifier that is the identity outside arrays changes nothing; escapes and dots are decided on the level of `splitPath` |
| C64 | the beginning of a CDATA section is a piece of its own in the grammar (`Misc.mark`), followed by the content and the text `]]>`; every scanner passes it in a state that the next `<` or `>` resets, so the whole query theory holds with it |
| C65 | two places of one document that are apart can be taken out together (`Lemmas/Commute.lean`: `places_apart`), so two writes in either order meet; then induction over the permutation |
| C66 | the result of the write is the same document with the new element plugged in, which `Delete` takes out again; attributes in library layout are determined by their values (`neat_unique`) |
| C67 | the Raw of an element found is the text of a forest in library layout (the invariant of C54, `Lemmas/Copy.lean`), hence content for `C44_set`/`C44_created`; the steps that Set follows are shown to be moves that Get follows (`ask_steps_top`); `C67_any*` copy from what any path finds to any place that Set follows a path to, with any options on both sides (`CopiedTo`, the reading back, needs `Ahead` as in C89) |
| C68 | a path of names, wildcards and positions (`Spec/Hop.lean`) is shown to be followed by Set and Delete place by place, in the same way whatever asked for the place (`goto`, `findLoc_goto` in `Lemmas/Hops.lean`), so two ways of writing the way to an element give the same result for whatever follows; filters, `%`, `#` and attributes inside a path are shown to be satisfied by no element (`Lemmas/HopsNone.lean`) |
| C69 | the elements written for the remaining steps are read off the parts of the path (`Spec/Slots.lean`) and the builder is shown to write exactly these (`build_slots`, `setElement_slots`, `setElement_root` in `Lemmas/Slots.lean`); an attribute of created elements is the round trip through the intermediate document (`Lemmas/SlotsAttr.lean`); exact validity follows from C03's account of how a document may begin and where it fails (`Lemmas/SlotsValid.lean`) |
| C70 | the list is read off the tree (`Spec/Group.lean`); each call is one of C28, C18, C22 applied to a child of the element, found by its number among the matching children (`nth_named`), and leaves the invariant `Group` in the same surroundings (`group_step`); sequences by induction |
| C71 | C29 keeps the invariant `Labels` (`Spec/Labels.lean`) in the same surroundings (`labels_step`); a tag the library wrote is determined by its map (`canonical_eq`), so the order of calls cannot be seen |
| C72 | a dictionary is a document of the editable class (`dict_editable`); the element at a path found in it is reached by `Leads` with the same surroundings whatever the entry becomes (`dict_leads`); C13, C19, C17, C29 for the single calls; `canonical_eq` identifies the rewritten tag with the labels of the entry; C72_build by induction over the dictionary with the rest of the document as a `Place`; without regard to case the path in the spelling of the dictionary (`Spec/DictFold`) leads to the same entry (`dict_leadsF`), C48 and C49 for the single calls |
| C76 | as C72, with entries found by their number among the entries of a name (`grove_leads`); `grove_push` is C28 with the last child of a name found in the list (`push_place`); the trees that can be reached keep `Shaped` under every operation (`groveOp_shaped`) and are built entry by entry (`plant_run`) |
| C77 | segments: two rests that agree in what is looked at give the same (`Alike`, `execQ_shut`, `execQ_attr_kept`), and a list of segments that finds nothing in any content makes every list ending in it find nothing (`Dead`, `dead_pre`); the same for the engine with options in `Lemmas/AstrayOpt` |
| C78 | the steps of a text (`PathSteps`, C44/C57) are given roles and the roles are put together into moves and a goal or into nothing (`plan` in `Spec/Sense.lean`); segments with these roles are those of C51 followed by a rest that is not looked at (`kept_segs`, `exec_left`), or find nothing (`lost_dead`, with `Dead` of C77); filters by induction over the meaning (`sense_parsed` in `Lemmas/SensePath.lean`), existence by induction over the length of the text and uniqueness over the meaning (`sense_total`, `sense_only`); `C78_any_*` (and those of C51, C80, C82, C83, `Props/OwnText.lean`): the own texts in an answer come from elements inside the content (`Lemmas/OwnQuiet.lean`), so their strings are known when its texts are read as written |
| C79 | the steps of a path say where they lead (`Trail` in `Spec/Trail.lean`); the segments are shown to lead there (`trail_segs`), findElementLocation to find the element (`leadTo_found`) or nothing (`nowhere_none`), and the beginnings of the segments that createElement tries to be those of beginnings of the steps (`fuse_prefix`); the place is unique by counting elements (`reach_unique`), and every path falls under one case (`C79_cases`, `C79_apart`) |
| C80 | C78 under options: `SenseBy` (`Spec/SenseBy.lean`) gives the steps the answer `askBy` (C55) of the same plan; what the plan gives up is dead in the options engine too (`lost_deadO`), what is left over is not looked at (`exec_leftO`), and filters keep their meaning |
| C81 | `Spec/Registry.lean`: `Calls part n` - between two bars of the part, or behind the last one, stands `@n` with white space around; `PathCalls path n` - some part of the path calls `n`. Two registries that agree on the called names give equal outcomes (`Lemmas/Registry.lean` goes through both engines branch by branch, for any bytes); the path in a filter has no bar, so filters never look anything up |
| C82 | From C51 (the meaning of the whole path) and C60 (the meaning on a result, `C60_loud`): `ask_gather` finds the elements that `*` or `#(…)#` collects and says what is made of the answers below them; equality of results is by what they describe (`Is`), as Raw of a nested result is written anew by the code; `Props/CollectBy.lean` repeats this from C55 for options; `Props/CollectDeep.lean` does both for `**`, whose elements and results stop at 1000 (`fill`), so the statement asks for fewer |
| C83 | C78/C80 on a result: `SenseOn` (`Spec/SenseOn.lean`) answers the steps in the content, or - with several children - the steps after a step into an element around it; that the code's rewritten path text `_xmldot_root.` + path is read as these steps follows from the reading of path texts (`wrapped_parts`, `wrapped_steps`) |
| C84 | `Spec/Ordinary.lean`: `Ordinary` and `NeatTags` are conditions on which byte sequences occur in the document. From the grammar (C02) by induction over the forest: no piece of markup that the readers mistake (`Misc.Inner`, `Forest.Tame`) can occur (`forest_tame`), and all tags are as long as the library writes them (`forest_neat`) |
| C85 | `Model/Work` counts the calls of executeQuery and recursiveSearchWithContext along `Model/Get`. Upper bound: a function of contents is `Within` a power of the number of descendants; sums over disjoint parts of the document stay within the power (`pow_super`), and a search raises it by one (`recSearchW_le`, `execQW_le`); a filter raises it by one and by what its own path does (`execQW_all`), which together is at most the number of `*` and `(` in the path (`parsePath_marks`). Lower bound: on nested elements every search starts one for each depth below (`recSearch_nested`), so the numbers add up as in Pascal's triangle (`sum_choose`, `digging_work`). Since bounds from above hold for a count that forgets calls, too, `C85_counts_*` give the number itself for a small document and every kind of step |
| C86 | `chase` iterates Result.Get; the invariant is that the raw text of the result `Writes` the remaining nested elements, which also bounds its length (`writes_nested`), so the wrapping in Result.Get never meets the size limit. Nested filters: `tested_parse` is computed for each of the 86 depths, and evaluation is by induction on the nesting. That `p.depth` is 0 at every call of parseElementContent, and that `depth` is 0 at every call of evaluateFilterWithDepth, is read off the code (parser.go:250-259, filter.go:360-363) and built into the model: the two checks are left out there. |
| C87 | The cases of C79 for Delete, each with the forest that is left: `c.plug .nil` (`editable_swap`) or the element with the remaining attributes (`retag_less`: their names and values come from the old tag, so they are legal and fit). `bare_invalid`: the validator's loop on a legal forest without elements ends with no root seen. `Left` is the invariant of the loop of DeleteMany, and gives C75 for DeleteMany, too. |
| C88 | `set_keptB`, `append_keptB`, `setAttr_keptB`: the cases of C48, C50 and C49 (options) with the forest each of them leaves; `RootsOpen` (no `<x/>` at the top) is carried along, because text behind a self-closing root is the one way in which Set at a path of names breaks a document. `Kept` = `Left` of C87 and `RootsOpen`; it holds for the empty document, too, so `EditCalls` (any series of Set and Delete, with an order of its own at every iteration of a map, by C75) and SetMany are inductions. `Thinned` (added to C87) says what Delete leaves, for `RootsOpen`. `Lemmas/SeriesMore`: content that has markup (`Fitting`: a forest that may stand at that depth), for `-1` (`append_as_set`: without a parent it is Set) and any path to an element that is there (C79). `retagBy_fits` (`Lemmas/SeriesAttr`): attributes written anew fit if there is room for one more. |
| C89 | Get's moves (C55, with options) against the hops of Set (C79): `Ahead` (`Spec/First`) is stated on the steps as written, `ahead_plan` gives roles, moves and hops side by side (`Keeps1`), and `spot_first` shows by induction that the first item of `askBy` is at the spot of the hops. The document after Set is again a forest with the path leading to the new element (`trail_more`, `reach_down`, `chainFCtx_reach`), so the first theorem applies to it; `retag_caseUnique` keeps C55's condition on attributes. An attribute of a new element is Set in two steps (`C79_attribute_missing`, `created_place` in `Props/FirstAttr.lean`). |
| C90 | As C65, with the steps of C79 instead of names with positions: `Write` (`Spec/Apart`) carries path, options, steps, place and the element before and after. `places_apart_reach` (`Lemmas/Apart`) says that a change at one place leaves every reach of another place apart from it as it is, with and without regard to case; `ranAny_perm` exchanges neighbours. The kinds of writes come from C79; the name of a created element has to be absent only in its parent (`deepest_of_count`). Reads follow by C89 applied before and after. Removing attributes and children and writing markup are further kinds (`Props/ApartMore`), from C79_delete and C79_delete_attribute. |
| C91 | As C48 with the steps of C79: `appendElement_here` (`Props/AppendAny`) describes appendElement at any place that findElementLocation finds, `trail_split` and `findLoc_goto` say that it finds the place the steps lead to. `nowhere_snoc`: what leads nowhere does so with a further name. `appended_here`: the result stays in the class, and `trail_snoc_nth` with `reach_down` leads to the new element; reading and deleting are C89_place and C79_delete there. C90_append makes it one of the writes of C90. |
| C92 | From C79 (what Set and Delete do at the place the steps lead to), the closure of the class of editable documents under these edits (`editable_createdB`, `editable_newRootB`, `editable_retag`) and `trail_more` with `chainFCtx_reach`, which lead to the created element. `C90_last_wins` gives the way back for text. `C92_witness` also shows what does not come back: a self-closing tag, the spelling of a name, a line break. |
| C93 | The induction of C70 over a series of calls, with one step taken from C91 (append), C79 (replace, delete, delete nowhere). A call is a record of path, options, operation and map order (`ListCall`); `ListCall.Meant` only asks that its path leads to the element and ends in the right two steps, so each call of a series may take another way. The list is that of `Info.namedBy`, independent of the path. `C93_witness` runs three calls with different paths and indentations and shows why members must not be self-closing. |
| C94 | The induction of C71 over a series of calls (`LabelCall`: path, options, operation, map order), with one step from C79 on attributes. `MapOp.onBy` says what an operation does under either comparison; it is not computable (it asks whether some spelling is there), which is why the cases show the document rather than the map. `C94_seen` shows that through the same comparison it is put and remove. `C94_order` uses that a tag the library wrote is determined by its map (`canonical_eq`). |
| C95 | The induction of C93 with all children in the list (`Forest.children`: name, attributes, text, elements inside, whether there is an end tag). `AtChild` says which entry the last steps ask for, in terms of the list alone; `ChildCall.AllMeant` asks each call to fit the list the calls before it leave. The comparison belongs to the call, so a series may mix both. Steps from C79 (replace, delete, create) and C91 (append); `Child.whole` is in the list because a text for a self-closing entry lands behind it (C93_witness). |
| C96 | `DocOp.on` is an interpreter of edits on `Info` (Spec/Meaning.lean), with no bytes and no code in it: `Info.alter` turns the element some hops lead to, `Info.write` writes along names and creates what is missing, `Info.add` is -1. What is written is itself an `Info`, and `StoredAs` says which values stand for it: texts (`stored_text`), or `.raw` of any fragment of the grammar. `alter_reach` ties it to contexts: what is done in the hole of `Ctx.plug` is what `alter` does. `doc_write` splits the path by C79_cases (there, partly there, not at all); `inside_there` says that names that are there act as hops. `Forest.Regular` (end tags, no attribute twice) is needed because `Info` does not tell `<a/>` from `<a></a>`, and Set does. `DocOp.attach` (an attribute of an element that is not there) is the composition of a write of nothing and a label; Props/Attach.lean has C79_attribute_missing without the document in between, and the look-up of what has just been written (`inside_spot`). `C96_copy` follows the Raw of results through the parser (`closed_regular`, like `closed_copy` of C67): its tags are end tags too, so it is `StoredAs` again. |
| C97 | Model/Slices.lean writes the byte-slice functions of set.go out again with `none` for nil, as the Go code has them (the test for nil, `return xml`, the early return for no paths), and the string functions as the calls of them that they are. `C97_slices` and `C97_strings` connect them with the one definition on bytes that the other claims use. |
| C98 | The result is C79_set_attribute's; that it is valid is `retagBy_fits` (Lemmas/SeriesAttr.lean), that it is not is a `TagFault` of C70 inside the opening tag: `excess_fault` finds the first attribute past the 100th or with a value over 1 MiB, `begun_ctx` puts the document before it into the state the fault needs. The quote character `"` of the attributes comes from `Attr.Neat`, which RetagBy gives of every attribute after the edit. C98_lost puts the result into C58_leak: attributes are written sorted by name, so the 101st is the last name. |
| C99 | Outside the class of C79 (`Forest.Tame` demands `AttrsFit`, values that still fit when escaped anew): `first_loc` locates the first tag of any document directly from the parser, with no assumption on what follows; the new attributes are RetagBy's, and `excess_fault` of C98 makes the result invalid. |
| C100 | The content handed on by `contentLoop` holds the attribute escaped anew (`contentLoop_self`, a single attribute so the map order does not matter); `parseAttrsN_long` reads it as empty and `attrs_rest` shows that the rest of the value is taken for no attribute, which is where the condition on white space, `/` and `=` is used. `inner_elems` states what the code reads, and C100_options uses it for both ways of comparing names. More than one attribute on the inner element is not covered. |
| C12, C33, C37, C50 on decimals | rounding to a nearest float64 is monotone (`nearest_mono`); a float64 is near every number (`near`, from the 53 highest bits of the number in units of 2^-1074), so two multiples of 10^-d below 10^15 * 10^-d stay apart (`apart`); numerals with different numbers of decimals are separated by the largest multiple of the finer grid (`rounds_lt`) |
| C73 | reading content copies a document up to any place in it, whatever follows (`contentLoop_ctx` in `Lemmas/Prefix.lean`), so the first content reached by names is a copy up to the place; the loop over one level meets the elements before the place, then the element (`topElems_forest_go`); with options the same walk without regard to case (`Lemmas/PrefixFold.lean`) |
| C74 | each length function finds exactly the encodings of the 25 characters at its end (`Lemmas/White.lean`); the later bytes of an encoding begin none (`whites_sync`), so removing from the left cannot eat into what the right end removes |
| C52 | the segments of a path with modifiers are those of the plain path with names on the last one; each branch of the query is compared with and without them (`Lemmas/Mods.lean`); `SameButMods` (`Spec/ModsMid.lean`) says where modifiers are not looked at, and both engines are shown to agree on two paths that differ only there (`Lemmas/ModsMid.lean`); `AppliedEnd` says where the engine with options applies modifiers at the end (`Lemmas/ModsOpt.lean`: every branch with and without them); after `*` or `#(…)#` the plain answers are single results, so that the answer with modifiers is a function of the plain answer (`Lemmas/ModsList.lean`, hypothesis `Fruits` in `Spec/Each.lean`) |

Deviations between the claim and the code (the claim is false of the code) are proved as negations with a
concrete document, next to the theorem giving the class of documents for which the claim was proved. They are listed in
section 6 as found.

## 5. Layout of the Lean project

* `Model/`: the translation. `Bytes` (literals), `GoLib` (standard library), `Parser`, `Path` (with filter conditions), `Pattern`, `Result`,
  `Get` (with filter evaluation), `Work` and `WorkOpt` (the number of calls of a query), `GetOpt` (the WithOptions copies), `Fresh` and `FreshEdit` (queries, Set and Delete with a new map order at every loop), `Spare` (Set and Delete on slices with spare capacity), `Fluent` (Result methods, Map), `Modifier`, `Validate`, `Builder`, `Set`, `Cache`.
* `Spec/`: the vocabulary of the statements. It does not use the parser, query, validation or builder functions of the model;
  it shares with the model the types, `PlainName`-style character classes and small byte functions (`trimSpace`, `unescapeXML`, `nameMatches`), each of which has
  its own property (C01 for `unescapeXML`, C41 for names, C74 for `trimSpace`) or is a restated library function.
* `Lemmas/`: proofs relating the two.
* `Props/`: one theorem or more per property, named `Cnn_...`, with examples and witnesses.
* `Check/`: expectations copied from the test files of /repo (see section 7). Tests of the translation, not claims.
* `seeded/LOG.jsonl` (outside lean/): wrong programs tried and the theorems that rejected them.

Simplifications that matter for reading the theorems:

* The order oracle `Ord` is a function of the place (remaining input) and the attributes; Go may choose a new order at
  each iteration over the same map. Theorems quantify over all oracles; `C32` states that what is observable does not depend on it. `Model/Fresh` is the
  query engine once more with a new order at every loop: `C32_fresh_same` says that it is the same engine if all orders are one, and `C32_fresh` and
  `C47_get_fresh` that on documents of the class the new orders do not change the answer either. `Model/FreshEdit` does the same for Set and Delete:
  `C75_set_one`, `C75_set_attr` and `C75_delete_one` say that every such run is a run with one order.
  `C32_visits` and `C75_visits` show that the visits are told apart: reversing the order at one of them alone can be seen in the answer.
* The modifier registry is fixed during one query.
* A slice is its content: reading past `len` but within `cap` is modelled as a panic. `Model/Spare` is the builder once more with bytes behind the end of each slice: Delete does not depend on them
  (`C27_capacity_delete`), and Set does the same with any of them whenever it does not panic without (`C27_capacity`). Where the model panics, Go may read on instead if the capacity allows (`C27_capacity_matters`).

## 6. Deviations found

Where the code does not do what one expects. Each is proved as a theorem on a concrete document (names in brackets), or visible in the model.

Set and Delete:

* A blank before `/>` or `>`, blanks around `=`, single quotes around a double quote, entities or duplicate attributes in nested tags shift the bytes replaced (by exactly how much: C61): Set(`<a><b /><c>v</c></a>`, "a.c", "x") =
  `<a><b /><cxv</c></a>` [`C18_shifted`]. A large shift makes Set and Delete panic [`C27_set_grows`, `C27_delete_grows`]; whether it does may depend on the capacity of the slice that a string is converted to [`C27_capacity_matters`]; so does markup in `Options.Indent` when elements are created for an attribute [`C27_set_indent`].
* The same in comments: Set(`<a><!-- <b /> --><c>v</c></a>`, "a.c", "x") = `<a><!-- <b /> --><cxv</c></a>`; after an end tag in a comment the value goes into the
  comment, after a lone `<` over a tag [`C18_comments`].
* A processing instruction of more than one word inside an element is read as a tag and written back shorter: Set(`<a><?p q?><c>v</c></a>`, "a.c", "x") =
  `<a><?p q?>xc>v</c></a>`; a quote in it hides elements from Get [`C18_instructions`].
* White space in the end tag of the target: Set(`<a>x</a >`, "a", "y") = `<a>y/a >` [`C18_end_tag`].
* On an empty tag the value is written behind the tag [`C18_self_closing`, `C17_self_closing`], at top level that is not valid [`C20_root_self_closing`].
* There are valid documents in which the parser sees no element: after Valid(`<![CDATA[<!--]]><a/>`) = true, Set at "*" returns a malformed-document error [examples of C62].
* docs/path-syntax.md and docs/migration.md describe features the code does not have [C63]: `items.item` is iterated over as an array (it is the first match only); `nums.n|@sort`, `|@reverse`, `|@last`, `|@flatten` on a path of names (they do nothing); `@raw`, `@keys`, `@values` (not registered, the result is Null); `data.\@special` and `data.option\|default` (the backslash is dropped before the part is classified); `#(rating>=4.5)` (split at the dot). They also say that the String of an element preserves white space (it is trimmed), that `items.*` is the first match (it is the Array of all), and that the String of `root|@pretty` and `root|@ugly` is the formatted document (it is the text of the element). The programs in examples/ print, by their READMEs, lists for `blog.posts.post.title|@sort` and a value for the path `soap:Body.m:GetStockPrice.m:Currency`, which does not start at the root element (Null) [end of `Check/Docs`].
* README.md says that Set removes the white space of the document (it is kept), that two filters without a match give an empty Array (Null), and that `catalog.book.*.%` reads all books (the first one); docs/error-handling.md says that empty documents are malformed (for Set they are not) [end of `Check/Readme`].
* When the first parent has no element of the name left, Get takes one from the next parent and Delete changes nothing, so "delete while Get finds one" need not end [`C70_empty`].
* An index, text, count or filter part that finds nothing creates an element without a name [`C19_index_creates_nameless`, `C19_first_step_odd`, `C69_create`, `C69_nameless`].
* Names of new elements and attributes are not checked, so a path can inject markup [`C19_names_unchecked`, `C29_names_unchecked`]; a value of type
  []byte is written unescaped also into attributes and can add further ones [`C29_raw`].
* Get returns to later elements when the first match has no such child, Set and Delete do not [`C17_no_return`, `C23_no_return`]. So an attribute
  deleted from the first element may still be found on a later one [`C29_later_remains`].
* Deleting the only element of a document is a no-op [`C22_whole`].
* DeleteMany removes duplicate paths first, which is observable [`C24_dedup_observable`].
* Index 1000 and above: Get finds nothing, Set and Delete do [`C06_beyond`, `C17_beyond`].
* The size of what Set writes is not limited, and a document above 10 MiB can no longer be read, changed or made smaller [`C42_outgrown`].
* Append (`.-1`) looks for the group also under other prefixes, while the new element gets the name as given [`C28_prefix`]; other negative indices, and -1 before the end of the path, are refused [`C28_negative`]; the size of the result is not
  checked when the parent is an empty tag.
* SetRaw: `<?-` is treated like a comment; only exact-case `<!DOCTYPE` and `<!ENTITY` are rejected; a `/>` inside quotes and an unterminated last
  end tag slip through [`C44_hole_*`]; a line break after the tag name is refused.
  A fragment can even close the target and add elements beside it, with a valid document as the result [`C44_injection`]. The check recommended in
  docs/security.md (`Valid` on `<root>` + fragment + `</root>`) does not prevent a broken document [`C44_precaution_fails`]; it is enough when the
  fragment also has no end tag of the name used for the check [`C44_precaution`, `C44_checked`].
* SetWithOptions: new names are written in lower case when CaseSensitive is false [`C48_lower`]; attributes equal up to case are all overwritten [`C48_attributes_alike`];
  the indentation of a new chain starts at depth 0 whatever the parent and end tags get no line of their own [`C48_layout`]; the
  indentation string is not checked and can break the document [`C48_indent_unchecked`, `C49_indent_markup`].

Get:

* A filter whose value is a single quote character makes Get panic [`C27_lone_quote`]; this is the only way to make it panic.
* `>` in text is dropped; CDATA text is dropped; but what is behind a `>` inside a comment or CDATA section is read as text, and so is its end `--` or
  `]]` [`C04_leak`, `C04_leak_witness`], so the text of elements in comments is read as text although the elements are not found [`C04_leak_element`,
  `C04_comment_witness`]; tags in comments and CDATA are read as markup [C64, `C64_witness`]; `<!-->` is a complete comment for the parser; a processing
  instruction ends at the first `>` [C40 witnesses].
* An attribute query reads from the first match that has the attribute [`C05_not_first`]; count and index disagree with several parents [`C06_disagree`];
  field extraction stays in the first parent and uses exact names [`C10_first_parent`].
* Raw depends on map order when an inner element has two attributes; with more than 100 attributes even values do [`C32_order_matters`].
* A result of more than 1000 elements is possible with two wildcards [C45].
* The limit of 10000 recursive operations is for each search: every `**` starts searches with new counters, so a path with several of them can take forever on a small document, contrary to docs/security.md
  [`C85_blowup`, `C85_witness`].
* get.go:27 and docs/security.md say that elements nested deeper than 100 are ignored by Get, and that filters inside more than ten filters do not match. Neither check can fire [`C86_depth`, `C86_filter`, `C86_text`].
* GetWithOptions with non-default options ignores modifiers on many paths, and filters stay case-sensitive [C30, C31].
* Fluent Get on a fragment root uses exact names [`C41_fragment_exact`]; chaining looks below the first match only [`C38_first_only`], and the count of direct children
  depends on how many there are [`C38_count_wrapped`]. Map is cut at 1000 children [C39].
* `*.#.field` and `a.0.#.field` are always an empty array [`C51_fields_lost`]; `#` after anything but a name finds nothing [`C51_count_names_only`]; `a.b.0.%` is null,
  while `a.0.%` is not [`C51_text_of_indexed`].
* With options other than the default ones `**.a.#.field` and `*.#.field` are null, although Get collects the first and gives an empty array for the second
  [`C55_fields_lost`, `C55_engines_differ`].
* Modifiers are silently ignored on `a.0|@m`, `a.0.@k|@m`, `a.0.%|@m`, `a.#|@m` right below the document and after `**.name` [`C52_forgotten`], applied twice in
  `*.b|@m` [`C52_twice`], and applied per element in `*.b.c|@m` [`C52_each`]. With options that are not the default ones they are also ignored on `a.b|@m`, `a.b.@k|@m`, `a.b.#|@m` [`C52_middle_options`]. On a result, whether `a.0|@m` is ignored depends on the number of children [`C60_modifiers_children`].
* Entities declared in a DOCTYPE stay references in String() (`&xxe;`; docs/security.md says the text is empty), and Raw can be longer than the document [`C56_entity`, `C56_longer`].
* Conditions: line feeds and tabulators are allowed around the condition and inside an existence test, but not inside a comparison; `#(n%'a==b')` is rejected, as `==` is looked for before `%`, quotes or not; a path in a condition needs its dots escaped, `#(b.c==1)` is an ignored part and a name [`C57_rejected`, `C57_ignored`]. A bar in a condition, also inside quotes, makes the filter vanish: `r.i.#(n=='a|b').n` is `r.i.n` [`C57_bar`].
* Steps that mean nothing where they stand are not errors: whatever follows `%`, a count or collected fields is ignored, also below an attribute after a filter or a position (`r.a.1.@k.b` is `r.a.1.@k`) while `r.a.@k.b` is Null; `r.*.1`, `**.a.1` and a last `**` are Null in every document; the step `2024-11-15` is the position 0, so `Set("r.a.2024-11-15")` overwrites the first `a` [C77].
* The documentation of Get says that excess attributes are ignored and long tokens truncated. Instead the excess attributes become text of the element, a self-closing tag with more than 100 attributes swallows its following siblings, and the rest of an attribute value over 1 MiB is read as attributes and content [`C58_leak`, `C58_swallow`, `C58_injected`].
* The filter nesting limit can never be reached (the depth argument is always 0); `splitPath` splits at dots inside a filter unless escaped.
* Accessors: invalid UTF-8 is collapsed where text is decoded rune by rune [C37].

Valid:

* Duplicate attributes are accepted; no white space is required between attributes.
* Only `DOCTYPE` and `doctype` in exactly these cases are recognised.

Others:

* `@sort` gives no order when a value is NaN.
* `@pretty` removes the prefix of every element name, so `<p:a/>` and `<q:a/>` look the same afterwards [`C59_prefixes`]; an attribute whose namespace contains `=` can be
  taken for a repeated declaration and dropped [`C59_lost`].
* `Result.Get` on an element with several children wraps its content; `Get("#(…)")` then tests the element itself instead of its children, `Get("#")` is 1 and
  `Get("%")` its own text, all of which differ from an element with one child [`C60_own`, `C60_filter`, `C60_witness`].

## 7. Agreement with the tests in the repository

The test files of /repo were read as text. Every expectation that could be taken out literally - document, path, options and value
given as literals (directly or in a table), and the expected string, document, error or validity - was compared with the compiled model:
1231 comparisons, no disagreement, leaving out what the tests themselves skip as not implemented. The 671 among them with short ASCII documents
are in `Verif/Check` and are evaluated by the kernel on every build. `Check/Readme` does the same for the examples of README.md and docs/error-handling.md, `Check/Docs` for docs/path-syntax.md, docs/migration.md, docs/security.md, doc.go and the programs in examples/. This says nothing about other inputs; it is evidence for the hand translation.
