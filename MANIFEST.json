{
 "claims": [
  {
   "property": "C01",
   "status": "proved",
   "theorems": [
    "Verif.Props.C01_escape_inert",
    "Verif.Props.C01_unescape_escape",
    "Verif.Props.C01_unescape_decodes",
    "Verif.Props.C01_escape_decodes"
   ],
   "note": "Escaping and unescaping as functions; the value read back through Set/Get is C17."
  },
  {
   "property": "C02",
   "status": "proved",
   "theorems": [
    "Verif.Props.C02_valid_iff_document",
    "Verif.Props.C02_nested"
   ],
   "note": "Exact equivalence with an independent grammar. White space is not required between attributes and duplicate attributes are accepted by the code, so the grammar allows both."
  },
  {
   "property": "C03",
   "status": "proved",
   "theorems": [
    "Verif.Props.C03_agree",
    "Verif.Props.C03_position",
    "Verif.Props.C03_report",
    "Verif.Props.C03_reported",
    "Verif.Props.C03_viable",
    "Verif.Props.C03_text"
   ],
   "note": "Spec/Fault states the faults with place and message; both directions."
  },
  {
   "property": "C04",
   "status": "proved",
   "theorems": [
    "Verif.Props.C04_get_element",
    "Verif.Props.C04_leak",
    "Verif.Props.C04_leak_witness",
    "Verif.Props.C04_leak_element",
    "Verif.Props.C04_comment_witness"
   ],
   "note": "documents of class Says (DESIGN section 4); plain-name prefix path"
  },
  {
   "property": "C05",
   "status": "proved",
   "theorems": [
    "Verif.Props.C05_get_attribute",
    "Verif.Props.C05_get_attribute_unique",
    "Verif.Props.C05_attrVal_last",
    "Verif.Props.C05_not_first"
   ],
   "note": "documents of class Says (DESIGN section 4); plain-name prefix path; counterexample to the naive first-element reading included"
  },
  {
   "property": "C06",
   "status": "proved",
   "theorems": [
    "Verif.Props.C06_count",
    "Verif.Props.C06_count_value",
    "Verif.Props.C06_index",
    "Verif.Props.C06_agree",
    "Verif.Props.C06_disagree",
    "Verif.Props.C06_beyond"
   ],
   "note": "documents of class Says (DESIGN section 4); plain-name prefix path; disagreement with several parents exhibited"
  },
  {
   "property": "C07",
   "status": "proved",
   "theorems": [
    "Verif.Props.C07_direct_text",
    "Verif.Props.C07_gt_needed"
   ],
   "note": "documents of class Says (DESIGN section 4); plain-name prefix path; texts without '/>' and not beginning with '>' (counterexample exhibited)"
  },
  {
   "property": "C08",
   "status": "proved",
   "theorems": [
    "Verif.Props.C08_wildcard"
   ],
   "note": "documents of class Says (DESIGN section 4); plain-name prefix path"
  },
  {
   "property": "C09",
   "status": "proved",
   "theorems": [
    "Verif.Props.C09_recursive",
    "Verif.Props.C09_recursive_attr",
    "Verif.Props.C09_recursive_prefix"
   ],
   "note": "documents of class Says (DESIGN section 4); plain-name prefix path"
  },
  {
   "property": "C10",
   "status": "proved",
   "theorems": [
    "Verif.Props.C10_field",
    "Verif.Props.C10_field_attr",
    "Verif.Props.C10_field_text",
    "Verif.Props.C10_first_parent"
   ],
   "note": "documents of class Says (DESIGN section 4); plain-name prefix path; field names that are identifiers"
  },
  {
   "property": "C100",
   "status": "proved",
   "theorems": [
    "Verif.Props.C100_options",
    "Verif.Props.C100_nested",
    "Verif.Props.C100_top",
    "Verif.Props.C100_top_options",
    "Verif.Props.C100_witness"
   ],
   "note": "Proved for all inputs as stated (Verif/Props/Inner.lean). C100_options is the general form, C100_nested the form for Get, C100_top and C100_top_options the element on its own."
  },
  {
   "property": "C11",
   "status": "proved",
   "theorems": [
    "Verif.Props.C11_filter_all",
    "Verif.Props.C11_filter_first",
    "Verif.Props.C11_missing",
    "Verif.Props.C11_missing_child"
   ],
   "note": "documents of class Says (DESIGN section 4); plain-name prefix path; tested path is an attribute or plain names"
  },
  {
   "property": "C12",
   "status": "proved",
   "theorems": [
    "Verif.Props.C12_decimal",
    "Verif.Props.C12_decimal_long",
    "Verif.Props.C12_select",
    "Verif.Props.C12_digits",
    "Verif.Props.C12_equal_text",
    "Verif.Props.C12_numeric",
    "Verif.Props.C12_complementary",
    "Verif.Props.C12_not_numeric"
   ],
   "note": "parseFloat is abstract in C12_numeric and C12_complementary; C12_decimal, C12_decimal_long and C12_select assume that it rounds numerals to a nearest float64 (ReadsNumerals), which parse64_reads shows satisfiable."
  },
  {
   "property": "C13",
   "status": "proved",
   "theorems": [
    "Verif.Props.C13_stopped",
    "Verif.Props.C13_matched",
    "Verif.Props.C13_stopped_not_matched"
   ],
   "note": "Language membership defined on tokens, independent of the dynamic program."
  },
  {
   "property": "C14",
   "status": "proved",
   "theorems": [
    "Verif.Props.C14_split_join",
    "Verif.Props.C14_parse_join"
   ],
   "note": "All name lists except [\"\"] (its path is the empty string)."
  },
  {
   "property": "C15",
   "status": "proved",
   "theorems": [
    "Verif.Props.C15_long_get",
    "Verif.Props.C15_long_set",
    "Verif.Props.C15_long_delete",
    "Verif.Props.C15_empty_get",
    "Verif.Props.C15_empty_set",
    "Verif.Props.C15_segments",
    "Verif.Props.C15_get_options",
    "Verif.Props.C15_get_many",
    "Verif.Props.C15_delete",
    "Verif.Props.C15_set_empty",
    "Verif.Props.C15_raw",
    "Verif.Props.C15_sharp"
   ],
   "note": "Long paths, dot-only paths, and the bound on segments, for Get with and without options, GetMany, Set (the empty document too), Delete and SetRaw; 100 parts are accepted (C15_sharp). Refused: 100 or more separating dots, or nothing but dots."
  },
  {
   "property": "C16",
   "status": "proved",
   "theorems": [
    "Verif.Props.C16_transparent",
    "Verif.Props.C16_bounded",
    "Verif.Props.C16_not_shared",
    "Verif.Props.C16_progress"
   ],
   "note": ""
  },
  {
   "property": "C17",
   "status": "proved",
   "theorems": [
    "Verif.Props.C17_set_get",
    "Verif.Props.C17_self_closing",
    "Verif.Props.C17_no_return",
    "Verif.Props.C17_steps",
    "Verif.Props.C17_steps_created",
    "Verif.Props.C17_index_at_top",
    "Verif.Props.C17_beyond"
   ],
   "note": "for documents in the editable layout (Spec/Edit.lean) and paths of names and indices; witnesses show what fails outside"
  },
  {
   "property": "C18",
   "status": "proved",
   "theorems": [
    "Verif.Props.C18_set_existing",
    "Verif.Props.C18_values",
    "Verif.Props.C18_place",
    "Verif.Props.C18_self_closing",
    "Verif.Props.C18_quotes",
    "Verif.Props.C18_shifted",
    "Verif.Props.C18_end_tag",
    "Verif.Props.C18_comments",
    "Verif.Props.C18_instructions"
   ],
   "note": "for documents in the editable layout (Spec/Edit.lean) and paths of names and indices; witnesses show what fails outside"
  },
  {
   "property": "C19",
   "status": "proved",
   "theorems": [
    "Verif.Props.C19_set_missing",
    "Verif.Props.C19_new_root",
    "Verif.Props.C19_empty",
    "Verif.Props.C19_empty_attrs",
    "Verif.Props.C19_inner_attr",
    "Verif.Props.C19_cases",
    "Verif.Props.C19_index_creates_nameless",
    "Verif.Props.C19_names_unchecked",
    "Verif.Props.C19_first_step_odd"
   ],
   "note": "for documents in the editable layout (Spec/Edit.lean) and paths of names and indices; C19_empty_attrs for attribute parts inside the path; witnesses show what fails outside"
  },
  {
   "property": "C20",
   "status": "proved",
   "theorems": [
    "Verif.Props.C20_no_markup",
    "Verif.Props.C20_set_valid",
    "Verif.Props.C20_set_existing",
    "Verif.Props.C20_root_self_closing"
   ],
   "note": "for documents in the editable layout (Spec/Edit.lean) and paths of names and indices; witnesses show what fails outside"
  },
  {
   "property": "C21",
   "status": "proved",
   "theorems": [
    "Verif.Props.C21_set_nil"
   ],
   "note": "All documents, paths, options."
  },
  {
   "property": "C22",
   "status": "proved",
   "theorems": [
    "Verif.Props.C22_delete",
    "Verif.Props.C22_removed",
    "Verif.Props.C22_gone",
    "Verif.Props.C22_whole"
   ],
   "note": "for documents in the editable layout (Spec/Edit.lean) and paths of names and indices; witnesses show what fails outside"
  },
  {
   "property": "C23",
   "status": "proved",
   "theorems": [
    "Verif.Props.C23_delete_missing",
    "Verif.Props.C23_delete_not_existing",
    "Verif.Props.C23_no_return"
   ],
   "note": "for documents in the editable layout (Spec/Edit.lean) and paths of names and indices; witnesses show what fails outside"
  },
  {
   "property": "C24",
   "status": "proved",
   "theorems": [
    "Verif.Props.C24_setMany_ok",
    "Verif.Props.C24_setMany_err",
    "Verif.Props.C24_deleteMany_ok",
    "Verif.Props.C24_deleteMany_err",
    "Verif.Props.C24_dedup_observable"
   ],
   "note": "Exact characterisation of success and failure; C24_dedup_observable shows that removing repetitions is observable."
  },
  {
   "property": "C25",
   "status": "proved",
   "theorems": [
    "Verif.Props.C25_set",
    "Verif.Props.C25_delete",
    "Verif.Props.C25_setRaw",
    "Verif.Props.C25_setMany",
    "Verif.Props.C25_deleteMany"
   ],
   "note": "Every modifying entry point."
  },
  {
   "property": "C26",
   "status": "proved",
   "theorems": [
    "Verif.Props.C26_set",
    "Verif.Props.C26_delete",
    "Verif.Props.C26_setRaw",
    "Verif.Props.C26_setMany",
    "Verif.Props.C26_deleteMany"
   ],
   "note": "Every modifying entry point."
  },
  {
   "property": "C27",
   "status": "proved",
   "theorems": [
    "Verif.Props.C27_get_path",
    "Verif.Props.C27_get",
    "Verif.Props.C27_get_quotes",
    "Verif.Props.C27_getWithOptions",
    "Verif.Props.C27_getMany",
    "Verif.Props.C27_filter_path",
    "Verif.Props.C27_lone_quote",
    "Verif.Props.C27_lone_quote_example",
    "Verif.Props.C27_valid",
    "Verif.Props.C27_delete",
    "Verif.Props.C27_set",
    "Verif.Props.C27_set_attribute",
    "Verif.Props.C27_set_grows",
    "Verif.Props.C27_delete_grows",
    "Verif.Props.C27_set_last",
    "Verif.Props.C27_set_there",
    "Verif.Props.C27_set_blind",
    "Verif.Props.C27_set_indent",
    "Verif.Props.C27_capacity_delete",
    "Verif.Props.C27_capacity",
    "Verif.Props.C27_capacity_many",
    "Verif.Props.C27_capacity_deleteMany",
    "Verif.Props.C27_capacity_raw",
    "Verif.Props.C27_capacity_none",
    "Verif.Props.C27_capacity_grows",
    "Verif.Props.C27_capacity_matters"
   ],
   "note": "Get/GetWithOptions/GetMany: panic exactly for paths with a lone-quote filter value, independent of the document. Valid is total. Set/Delete: no panic on documents whose nested attributes are compact, except creation of an attribute on a missing element that could exist (for editable documents its exact result is C69_attribute_new). The unrestricted claim is false: C27_lone_quote, C27_set_grows, C27_set_indent, C27_delete_grows. C27_capacity*: spare capacity of slices does not change any result that is not a panic."
  },
  {
   "property": "C28",
   "status": "proved",
   "theorems": [
    "Verif.Props.C28_place",
    "Verif.Props.C28_append",
    "Verif.Props.C28_bytes",
    "Verif.Props.C28_append_root",
    "Verif.Props.C28_append_empty",
    "Verif.Props.C28_append_missing",
    "Verif.Props.C28_append_get",
    "Verif.Props.C28_prefix",
    "Verif.Props.C28_negative"
   ],
   "note": "Place, bytes, missing parents, root level and empty documents proved for all canonical documents and step paths; counting and reading back for paths of names. Witnesses for namespace prefixes and for other negative indices."
  },
  {
   "property": "C29",
   "status": "proved",
   "theorems": [
    "Verif.Props.C29_set",
    "Verif.Props.C29_delete",
    "Verif.Props.C29_set_get",
    "Verif.Props.C29_delete_get",
    "Verif.Props.C29_create",
    "Verif.Props.C29_create_large",
    "Verif.Props.C29_delete_missing",
    "Verif.Props.C29_later_remains",
    "Verif.Props.C29_raw",
    "Verif.Props.C29_names_unchecked",
    "Verif.Props.C29_attr_alone_delete",
    "Verif.Props.C29_attr_alone_set",
    "Verif.Props.C29_steps"
   ],
   "note": "Editable layout. C29_set/C29_delete: exactly the start tag is rewritten (attributes sorted, escaped), every other byte kept; C29_set_get/C29_delete_get: read-back, all other attributes and elements unaffected; C29_create: missing elements are created first. Witnesses: raw byte values can add attributes (C29_raw), names are unchecked (C29_names_unchecked), a deleted attribute may still be found on a later element (C29_later_remains)."
  },
  {
   "property": "C30",
   "status": "proved",
   "theorems": [
    "Verif.Props.C30_get_default",
    "Verif.Props.C30_set_default",
    "Verif.Props.C30_set_others",
    "Verif.Props.C30_get_cs",
    "Verif.Props.C30_modifiers_dropped",
    "Verif.Props.C30_any_field",
    "Verif.Props.C30_wildcard_field"
   ],
   "note": ""
  },
  {
   "property": "C31",
   "status": "proved",
   "theorems": [
    "Verif.Props.C31_path_case",
    "Verif.Props.C31_get_element",
    "Verif.Props.C31_filter_case",
    "Verif.Props.C31_attribute_order"
   ],
   "note": ""
  },
  {
   "property": "C32",
   "status": "proved",
   "theorems": [
    "Verif.Props.C32_fresh_same",
    "Verif.Props.C32_fresh_same_options",
    "Verif.Props.C32_fresh",
    "Verif.Props.C32_fresh_options",
    "Verif.Props.C32_fresh_raw",
    "Verif.Props.C32_get",
    "Verif.Props.C32_observed",
    "Verif.Props.C32_builtin",
    "Verif.Props.C32_raw",
    "Verif.Props.C32_order_matters",
    "Verif.Props.C32_visits",
    "Verif.Props.C32_visits_options"
   ],
   "note": "Alike = equal up to Raw. Outside the class the value of an attribute can depend on the order (C32_order_matters). C32_fresh: the orders may change from loop to loop (Model/Fresh). C32_visits: reversing the order at one visit alone can be seen."
  },
  {
   "property": "C33",
   "status": "proved",
   "theorems": [
    "Verif.Props.C33_sort_decimal",
    "Verif.Props.C33_sort_nan",
    "Verif.Props.C33_reverse",
    "Verif.Props.C33_reverse_twice",
    "Verif.Props.C33_first",
    "Verif.Props.C33_last",
    "Verif.Props.C33_flatten",
    "Verif.Props.C33_sort_perm",
    "Verif.Props.C33_sort_numeric",
    "Verif.Props.C33_sort_string",
    "Verif.Props.C33_identity",
    "Verif.Props.C33_empty"
   ],
   "note": "C33_sort_decimal assumes ParseFloat rounds to nearest."
  },
  {
   "property": "C34",
   "status": "proved",
   "theorems": [
    "Verif.Props.C34_compact",
    "Verif.Props.C34_pieces",
    "Verif.Props.C34_idempotent",
    "Verif.Props.C34_ugly",
    "Verif.Props.C34_ugly_idempotent"
   ],
   "note": ""
  },
  {
   "property": "C35",
   "status": "proved",
   "theorems": [
    "Verif.Props.C35_chain",
    "Verif.Props.C35_too_long",
    "Verif.Props.C35_unknown"
   ],
   "note": ""
  },
  {
   "property": "C36",
   "status": "proved",
   "theorems": [
    "Verif.Props.C36_builtin",
    "Verif.Props.C36_custom",
    "Verif.Props.C36_empty",
    "Verif.Props.C36_errors",
    "Verif.Props.C36_start"
   ],
   "note": ""
  },
  {
   "property": "C37",
   "status": "proved",
   "theorems": [
    "Verif.Props.C37_float_decimal",
    "Verif.Props.C37_array",
    "Verif.Props.C37_array_empty",
    "Verif.Props.C37_forEach",
    "Verif.Props.C37_forEach_all",
    "Verif.Props.C37_string_array",
    "Verif.Props.C37_string_any",
    "Verif.Props.C37_wellFormed",
    "Verif.Props.C37_string_unambiguous",
    "Verif.Props.C37_string_single",
    "Verif.Props.C37_string_invalid",
    "Verif.Props.C37_int",
    "Verif.Props.C37_int_count",
    "Verif.Props.C37_default",
    "Verif.Props.C37_bool",
    "Verif.Props.C37_value",
    "Verif.Props.C37_truth",
    "Verif.Props.C37_number",
    "Verif.Props.C37_count",
    "Verif.Props.C37_float"
   ],
   "note": "C37_float_decimal assumes ParseFloat rounds to nearest."
  },
  {
   "property": "C38",
   "status": "proved",
   "theorems": [
    "Verif.Props.C38_chain",
    "Verif.Props.C38_agree",
    "Verif.Props.C38_first_only",
    "Verif.Props.C38_attribute",
    "Verif.Props.C38_count",
    "Verif.Props.C38_count_wrapped",
    "Verif.Props.C38_many",
    "Verif.Props.C38_default_options",
    "Verif.Props.C38_array",
    "Verif.Props.C38_chain_fold",
    "Verif.Props.C38_roomy"
   ],
   "note": "Element, attribute, count and case-insensitive chains; sizes of the re-serialised content are hypotheses. The converse of C38_agree is false (C38_first_only); counting direct children depends on how many there are (C38_count_wrapped). C38_roomy: from the size of the document alone."
  },
  {
   "property": "C39",
   "status": "proved",
   "theorems": [
    "Verif.Props.C39_children",
    "Verif.Props.C39_text",
    "Verif.Props.C39_fold",
    "Verif.Props.C39_fold_text",
    "Verif.Props.C39_any",
    "Verif.Props.C39_again",
    "Verif.Props.C39_options",
    "Verif.Props.C39_array",
    "Verif.Props.C39_roomy"
   ],
   "note": "Children per key among the first 1000, own text (class without /> in text), for every result that is an element; case folding with strings.ToLower as a parameter. C39_roomy: from the size of the document alone."
  },
  {
   "property": "C40",
   "status": "proved",
   "theorems": [
    "Verif.Props.C40_get",
    "Verif.Props.C40_get_options",
    "Verif.Props.C40_get_many",
    "Verif.Props.C40_example_prolog",
    "Verif.Props.C40_cdata",
    "Verif.Props.C40_pi_gt"
   ],
   "note": ""
  },
  {
   "property": "C41",
   "status": "proved",
   "theorems": [
    "Verif.Props.C41_prefixed",
    "Verif.Props.C41_unprefixed",
    "Verif.Props.C41_leading_colon",
    "Verif.Props.C41_segment",
    "Verif.Props.C41_fragment_exact"
   ],
   "note": "Segment matching. C41_fragment_exact: operations on the first path segment compare whole names (deviation)."
  },
  {
   "property": "C42",
   "status": "proved",
   "theorems": [
    "Verif.Props.C42_get",
    "Verif.Props.C42_getWithOptions",
    "Verif.Props.C42_set",
    "Verif.Props.C42_delete",
    "Verif.Props.C42_setMany",
    "Verif.Props.C42_deleteMany",
    "Verif.Props.C42_valid",
    "Verif.Props.C42_value",
    "Verif.Props.C42_outgrown"
   ],
   "note": "Document and value limits."
  },
  {
   "property": "C43",
   "status": "proved",
   "theorems": [
    "Verif.Props.C43_getMany",
    "Verif.Props.C43_getMany_panic",
    "Verif.Props.C43_result_getMany"
   ],
   "note": "Also for Result.GetMany, and panics."
  },
  {
   "property": "C44",
   "status": "proved",
   "theorems": [
    "Verif.Props.C44_tokens",
    "Verif.Props.C44_accepted",
    "Verif.Props.C44_refused",
    "Verif.Props.C44_error",
    "Verif.Props.C44_wellformed",
    "Verif.Props.C44_layout",
    "Verif.Props.C44_set",
    "Verif.Props.C44_created",
    "Verif.Props.C44_hole_quotes",
    "Verif.Props.C44_hole_end",
    "Verif.Props.C44_hole_case",
    "Verif.Props.C44_refuses_newline",
    "Verif.Props.C44_injection",
    "Verif.Props.C44_precaution_fails",
    "Verif.Props.C44_precaution",
    "Verif.Props.C44_checked",
    "Verif.Props.C44_any_raw",
    "Verif.Props.C44_any_set",
    "Verif.Props.C44_any_create",
    "Verif.Props.C44_any_top"
   ],
   "note": "Accepted fragments are characterised exactly as balanced token sequences; tokens end at the first >, so the barrier has the holes shown by C44_hole_*. The injection and the failure of the documented precaution are witnesses (C44_injection, C44_precaution_fails). C44_any_*: the effect on the document for names, * and ** with or without positions and any options; that Get then finds it first is for the paths of C89 (Ahead)."
  },
  {
   "property": "C45",
   "status": "proved",
   "theorems": [
    "Verif.Props.C45_bound",
    "Verif.Props.C45_single",
    "Verif.Props.C45_reached",
    "Verif.Props.C45_two"
   ],
   "note": ""
  },
  {
   "property": "C46",
   "status": "proved",
   "theorems": [
    "Verif.Props.C46_last_wins",
    "Verif.Props.C46_other_reads",
    "Verif.Props.C46_order"
   ],
   "note": "for documents in the editable layout (Spec/Edit.lean) and paths of names and indices; witnesses show what fails outside"
  },
  {
   "property": "C47",
   "status": "proved",
   "theorems": [
    "Verif.Props.C47_get_fresh",
    "Verif.Props.C47_getWithOptions_fresh",
    "Verif.Props.C47_get",
    "Verif.Props.C47_getWithOptions"
   ],
   "note": "Includes the two-run comparison behind C32; case-insensitive options need attribute names unique up to case. The _fresh theorems let the order change at every loop."
  },
  {
   "property": "C48",
   "status": "proved",
   "theorems": [
    "Verif.Props.C48_fields",
    "Verif.Props.C48_default",
    "Verif.Props.C48_set_existing",
    "Verif.Props.C48_place",
    "Verif.Props.C48_delete",
    "Verif.Props.C48_delete_missing",
    "Verif.Props.C48_set_missing",
    "Verif.Props.C48_new_root",
    "Verif.Props.C48_set_attr",
    "Verif.Props.C48_delete_attr",
    "Verif.Props.C48_append",
    "Verif.Props.C48_append_root",
    "Verif.Props.C48_append_place",
    "Verif.Props.C48_attributes_alike",
    "Verif.Props.C48_lower",
    "Verif.Props.C48_layout",
    "Verif.Props.C48_indent_unchecked"
   ],
   "note": "Documents of the editable layout class; creating an attribute on a missing element with options is C49_create_attr."
  },
  {
   "property": "C49",
   "status": "proved",
   "theorems": [
    "Verif.Props.C49_set_valid",
    "Verif.Props.C49_set_get",
    "Verif.Props.C49_create_attr",
    "Verif.Props.C49_other_options",
    "Verif.Props.C49_removed",
    "Verif.Props.C49_delete_get",
    "Verif.Props.C49_other_reads",
    "Verif.Props.C49_two_cases",
    "Verif.Props.C49_indent_markup"
   ],
   "note": "Round trip for every option value; the result must not exceed the size limit. Witnesses: other options do not find a folded name, an indentation containing '<' breaks validity, two names equal up to case."
  },
  {
   "property": "C50",
   "status": "proved",
   "theorems": [
    "Verif.Props.C50_set_float",
    "Verif.Props.C50_as_text",
    "Verif.Props.C50_set_int",
    "Verif.Props.C50_set_bool",
    "Verif.Props.C50_attr_int",
    "Verif.Props.C50_no_mix",
    "Verif.Props.C50_any_set",
    "Verif.Props.C50_any_create",
    "Verif.Props.C50_any_top",
    "Verif.Props.C50_any_attribute",
    "Verif.Props.C50_any_attribute_create",
    "Verif.Props.C50_any_attribute_top",
    "Verif.Props.C50_any_attribute_witness"
   ],
   "note": "Elements with any options (C50_set_int, C50_set_bool, C50_set_float), attributes of existing elements (C50_attr_int), and both at any path of C89 (C50_any_*: wildcards, positions, created elements and their attributes, without regard to case); the value is any 64-bit integer. The text of %g is taken as given: that it reads back as the same float64 is the guarantee of strconv."
  },
  {
   "property": "C51",
   "status": "proved",
   "theorems": [
    "Verif.Props.C51_get",
    "Verif.Props.C51_string",
    "Verif.Props.C51_count_names_only",
    "Verif.Props.C51_fields_lost",
    "Verif.Props.C51_text_of_indexed",
    "Verif.Props.C51_any_string"
   ],
   "note": "Every combination of steps; the meaning ask is defined on what the document says, the spelling by a relation. Restriction: with ** fewer than 9999 elements; own texts in #.% without >. C51_any_string: strings, own texts included."
  },
  {
   "property": "C52",
   "status": "proved",
   "theorems": [
    "Verif.Props.C52_apply",
    "Verif.Props.C52_meaning",
    "Verif.Props.C52_forgotten",
    "Verif.Props.C52_builtins_keep",
    "Verif.Props.C52_forgotten_cases",
    "Verif.Props.C52_twice",
    "Verif.Props.C52_each",
    "Verif.Props.C52_no_fields",
    "Verif.Props.C52_middle",
    "Verif.Props.C52_middle_options",
    "Verif.Props.C52_middle_cases",
    "Verif.Props.C52_apply_options",
    "Verif.Props.C52_apply_options_cases",
    "Verif.Props.C52_list",
    "Verif.Props.C52_builtins_fruits",
    "Verif.Props.C52_list_instance"
   ],
   "note": "C52_apply: pipeline of the registry's modifiers on the answer of the plain path, any bytes as document; C52_meaning: combined with C51; C52_forgotten: the paths that ignore modifiers; C52_list: after a step that collects the modifiers are applied to each result, and once more to all of them if just one part follows; C52_builtins_fruits: the built-in modifiers satisfy its hypothesis; C52_twice, C52_each, C52_no_fields: concrete cases; C52_middle, C52_middle_options: modifiers that are not looked at, in the middle of a path and at its end under options; C52_apply_options: those that are looked at under options are applied to the answer of the plain path."
  },
  {
   "property": "C53",
   "status": "proved",
   "theorems": [
    "Verif.Props.C53_repaired",
    "Verif.Props.C53_repaired_options",
    "Verif.Props.C53_open_element",
    "Verif.Props.C53_witness",
    "Verif.Props.C53_missing_inside"
   ],
   "note": "For every Draft that is Loose and Tame. C53_missing_inside: closing tags missing inside closed elements are not covered; two computed cases."
  },
  {
   "property": "C54",
   "status": "proved",
   "theorems": [
    "Verif.Props.C54_get",
    "Verif.Props.C54_get_options",
    "Verif.Props.C54_well_formed",
    "Verif.Props.C54_well_formed_options",
    "Verif.Props.C54_valid",
    "Verif.Props.C54_modifiers",
    "Verif.Props.C54_witness",
    "Verif.Props.C54_malformed",
    "Verif.Props.C54_ugly"
   ],
   "note": "Any document and path (C54_get, C54_get_options); well-formed Raw on valid tame documents (C54_well_formed, C54_valid). Paths with modifiers: under the hypothesis that the registered modifiers keep the shape, proved for the list modifiers."
  },
  {
   "property": "C55",
   "status": "proved",
   "theorems": [
    "Verif.Props.C55_get",
    "Verif.Props.C55_attr",
    "Verif.Props.C55_same",
    "Verif.Props.C55_fields_lost",
    "Verif.Props.C55_engines_differ",
    "Verif.Props.C55_either_case"
   ],
   "note": "C55_get for all paths and options; C55_same relates it to C51; C55_fields_lost and C55_engines_differ show where the two engines disagree. Attributes up to case need elements without two attributes alike (C31_attribute_order shows why)."
  },
  {
   "property": "C56",
   "status": "proved",
   "theorems": [
    "Verif.Props.C56_get",
    "Verif.Props.C56_options",
    "Verif.Props.C56_any",
    "Verif.Props.C56_entity",
    "Verif.Props.C56_longer",
    "Verif.Props.C56_roomy"
   ],
   "note": "bound for all byte strings and paths, both engines; witnesses for entities and for Raw longer than the document; C56_roomy: when every result can be queried again"
  },
  {
   "property": "C57",
   "status": "proved",
   "theorems": [
    "Verif.Props.C57_bar",
    "Verif.Props.C57_bar_witness",
    "Verif.Props.C57_unique",
    "Verif.Props.C57_rejected",
    "Verif.Props.C57_rejected_options",
    "Verif.Props.C57_rejected_set",
    "Verif.Props.C57_panics",
    "Verif.Props.C57_same",
    "Verif.Props.C57_ignored",
    "Verif.Props.C57_same_all",
    "Verif.Props.C57_ignored_all",
    "Verif.Props.C57_bar_all",
    "Verif.Props.C57_rejected_all",
    "Verif.Props.C57_panics_all",
    "Verif.Props.C57_all_witness"
   ],
   "note": "The condition grammar is Spec/Filter.lean (Condition, BadQuote); Lemmas/Condition.lean proves that the parser accepts exactly it (condition_iff, badQuote_iff). C11, C12, C51 and C55 use the same grammar, so they hold of every condition text. A filter with a bar in its condition is ignored (C57_bar). The _all theorems: every call, Set and Delete and any options included."
  },
  {
   "property": "C58",
   "status": "proved",
   "theorems": [
    "Verif.Props.C58_attributes",
    "Verif.Props.C58_attributes_options",
    "Verif.Props.C58_leak",
    "Verif.Props.C58_instruction",
    "Verif.Props.C58_value",
    "Verif.Props.C58_injected",
    "Verif.Props.C58_swallow"
   ],
   "note": "For tags directly behind the prolog; for tags inside an element C58_swallow is a witness. The documents concerned are rejected by Valid (C03) and by Set and Delete (C26), not by Get."
  },
  {
   "property": "C59",
   "status": "proved",
   "theorems": [
    "Verif.Props.C59_attributes",
    "Verif.Props.C59_attributes_any",
    "Verif.Props.C59_lost",
    "Verif.Props.C59_meaning",
    "Verif.Props.C59_no_raw",
    "Verif.Props.C59_shape",
    "Verif.Props.C59_values",
    "Verif.Props.C59_prefixes",
    "Verif.Props.C59_order",
    "Verif.Props.C59_keep",
    "Verif.Props.C59_witness"
   ],
   "note": "encoding/xml is a parameter (XmlCodec): theorems are about what the modifier does between decoder and encoder."
  },
  {
   "property": "C60",
   "status": "proved",
   "theorems": [
    "Verif.Props.C60_get",
    "Verif.Props.C60_options",
    "Verif.Props.C60_array",
    "Verif.Props.C60_inside",
    "Verif.Props.C60_options_inside",
    "Verif.Props.C60_anywhere",
    "Verif.Props.C60_loud",
    "Verif.Props.C60_calm_needed",
    "Verif.Props.C60_own",
    "Verif.Props.C60_filter",
    "Verif.Props.C60_agree",
    "Verif.Props.C60_witness",
    "Verif.Props.C60_modifiers",
    "Verif.Props.C60_modifiers_meaning",
    "Verif.Props.C60_modifiers_children",
    "Verif.Props.C60_anywhere_options",
    "Verif.Props.C60_loud_options",
    "Verif.Props.C60_agree_options"
   ],
   "note": "The content of the element is at most 10485731 bytes long; with ** it has fewer than 9998 elements; texts of #.% contain no />; tags in comments are excluded where they matter (C60_calm_needed). C60_modifiers: modifiers at the end of chained paths, on elements of any content. C60_agree_options, C60_loud_options: with options (attributes without regard to case: no two that differ in case only)."
  },
  {
   "property": "C61",
   "status": "proved",
   "theorems": [
    "Verif.Props.C61_set",
    "Verif.Props.C61_delete",
    "Verif.Props.C61_set_attribute",
    "Verif.Props.C61_delete_attribute",
    "Verif.Props.C61_create",
    "Verif.Props.C61_options",
    "Verif.Props.C61_options_attribute",
    "Verif.Props.C61_options_create",
    "Verif.Props.C61_set_right",
    "Verif.Props.C61_delete_right",
    "Verif.Props.C61_append",
    "Verif.Props.C61_editable",
    "Verif.Props.C61_example"
   ],
   "note": "Sound documents: legal, tame, at most 10 MiB; no condition on the layout. Paths of names and indices leading to an element, optionally followed by an attribute or by missing names; with any options in C61_options*."
  },
  {
   "property": "C62",
   "status": "proved",
   "theorems": [
    "Verif.Props.C62_readings",
    "Verif.Props.C62_panics",
    "Verif.Props.C62_nothing",
    "Verif.Props.C62_same",
    "Verif.Props.C62_delete_malformed",
    "Verif.Props.C62_delete_path",
    "Verif.Props.C62_delete_value",
    "Verif.Props.C62_set_path",
    "Verif.Props.C62_set_value",
    "Verif.Props.C62_set_panics",
    "Verif.Props.C62_set_error",
    "Verif.Props.C62_set_nothing",
    "Verif.Props.C62_set_path_iff",
    "Verif.Props.C62_set_malformed_iff",
    "Verif.Props.C62_set_nil"
   ],
   "note": "Spec/Reading.lean says how any text splits into parts, which parts are idle, rejected or make the parser panic, and what a step is; C62_readings: every text is a path of steps in exactly one way, or no path, or one that panics. Delete: exact conditions for each error (iff). Set: exact conditions for invalid value by type and size, for invalid path and for malformed on paths that do not end in an attribute (iff); for paths that end in an attribute of a missing element the two possible errors and a necessary condition (C62_set_error); the size bound of appends is a necessary condition only."
  },
  {
   "property": "C63",
   "status": "proved",
   "theorems": [
    "Verif.Props.C63_single",
    "Verif.Props.C63_modifiers",
    "Verif.Props.C63_unknown",
    "Verif.Props.C63_escape",
    "Verif.Props.C63_dot"
   ],
   "note": "for every document and every path of the described form; the built-in modifiers are the registry of the code"
  },
  {
   "property": "C64",
   "status": "proved",
   "theorems": [
    "Verif.Props.C64_render",
    "Verif.Props.C64_class",
    "Verif.Props.C64_found",
    "Verif.Props.C64_text",
    "Verif.Props.C64_witness"
   ],
   "note": "CDATA sections with properly nested tags are in the class of all query theorems; exact elements and text; witnesses for the rest."
  },
  {
   "property": "C65",
   "status": "proved",
   "theorems": [
    "Verif.Props.C65_set_many",
    "Verif.Props.C65_places",
    "Verif.Props.C65_text",
    "Verif.Props.C65_content",
    "Verif.Props.C65_attribute",
    "Verif.Props.C65_create",
    "Verif.Props.C65_append",
    "Verif.Props.C65_two",
    "Verif.Props.C65_dependent"
   ],
   "note": "SetMany over any permutation of independent writes; the five kinds of writes each shown to be one"
  },
  {
   "property": "C66",
   "status": "proved",
   "theorems": [
    "Verif.Props.C66_created",
    "Verif.Props.C66_appended",
    "Verif.Props.C66_new_root",
    "Verif.Props.C66_set_back",
    "Verif.Props.C66_attribute",
    "Verif.Props.C66_not_undone"
   ],
   "note": "Byte-exact restoration, with witnesses for what does not come back"
  },
  {
   "property": "C67",
   "status": "proved",
   "theorems": [
    "Verif.Props.C67_copy",
    "Verif.Props.C67_created",
    "Verif.Props.C67_same",
    "Verif.Props.C67_witness",
    "Verif.Props.C67_any",
    "Verif.Props.C67_any_create",
    "Verif.Props.C67_any_top",
    "Verif.Props.C67_any_witness"
   ],
   "note": "raw_content: the Raw is the text of a forest in library layout (shape invariant of C54); C44_set/C44_created write it; the path written to asks for the element written; C67_any*: names, * and ** with or without positions in the path written to, any options on both sides; reading back is for the paths of C89 (Ahead)"
  },
  {
   "property": "C68",
   "status": "proved",
   "theorems": [
    "Verif.Props.C68_delete",
    "Verif.Props.C68_set",
    "Verif.Props.C68_set_value",
    "Verif.Props.C68_delete_value",
    "Verif.Props.C68_delete_nowhere",
    "Verif.Props.C68_delete_blind",
    "Verif.Props.C68_somewhere",
    "Verif.Props.C68_filter_witness"
   ],
   "note": "Creation of an attribute on an element that is missing is not covered by C68_set."
  },
  {
   "property": "C69",
   "status": "proved",
   "theorems": [
    "Verif.Props.C69_slots",
    "Verif.Props.C69_create",
    "Verif.Props.C69_position",
    "Verif.Props.C69_root",
    "Verif.Props.C69_attribute",
    "Verif.Props.C69_attribute_new",
    "Verif.Props.C69_valid",
    "Verif.Props.C69_nameless",
    "Verif.Props.C69_witness",
    "Verif.Props.C69_hidden_witness"
   ],
   "note": "exact output of Set where the path leads nowhere, and exactly when it is valid; exact output for attributes of elements that are created for them"
  },
  {
   "property": "C70",
   "status": "proved",
   "theorems": [
    "Verif.Props.C70_step",
    "Verif.Props.C70_run",
    "Verif.Props.C70_room",
    "Verif.Props.C70_read",
    "Verif.Props.C70_fill",
    "Verif.Props.C70_clear",
    "Verif.Props.C70_oneTag",
    "Verif.Props.C70_empty"
   ],
   "note": "any sequence of appends, replacements and removals acts as on a list; members written as one tag and empty first groups are shown by cases"
  },
  {
   "property": "C71",
   "status": "proved",
   "theorems": [
    "Verif.Props.C71_step",
    "Verif.Props.C71_run",
    "Verif.Props.C71_order",
    "Verif.Props.C71_read",
    "Verif.Props.C71_prefix"
   ],
   "note": "any sequence of writes and removals acts as on a map, and its order leaves no trace"
  },
  {
   "property": "C72",
   "status": "proved",
   "theorems": [
    "Verif.Props.C72_step",
    "Verif.Props.C72_run",
    "Verif.Props.C72_setMany",
    "Verif.Props.C72_read",
    "Verif.Props.C72_text",
    "Verif.Props.C72_label",
    "Verif.Props.C72_law",
    "Verif.Props.C72_twice",
    "Verif.Props.C72_prefix",
    "Verif.Props.C72_build",
    "Verif.Props.C72_build_many",
    "Verif.Props.C72_map",
    "Verif.Props.C72_fold_step",
    "Verif.Props.C72_fold_run",
    "Verif.Props.C72_fold_read",
    "Verif.Props.C72_fold_parts",
    "Verif.Props.C72_fold_witness",
    "Verif.Props.C72_fold_example",
    "Verif.Props.C72_fold_alike"
   ],
   "note": "Byte-exact simulation of nested ordered dictionaries (Spec/Dict); every dictionary within the limits is built from the empty document (C72_build, C72_build_many); Map of an entry. Delete on an empty document is outside (it is refused, C25); C72_twice and C72_prefix show why names must be distinct and without prefix. C72_fold_*: the same without regard to case (CaseSensitive = false, no Indent); with CaseSensitive = true and no Indent the options change nothing (C48_default, C30)."
  },
  {
   "property": "C73",
   "status": "proved",
   "theorems": [
    "Verif.Props.C73_element",
    "Verif.Props.C73_text",
    "Verif.Props.C73_index",
    "Verif.Props.C73_attribute",
    "Verif.Props.C73_document",
    "Verif.Props.C73_unfinished",
    "Verif.Props.C73_limits",
    "Verif.Props.C73_inside",
    "Verif.Props.C73_element_options",
    "Verif.Props.C73_text_options",
    "Verif.Props.C73_index_options",
    "Verif.Props.C73_attribute_options",
    "Verif.Props.C73_options_witness"
   ],
   "note": "No hypothesis about the bytes after the element. The _options theorems are the same for GetWithOptions, with or without regard to case; without, an attribute is found if no two attributes of the tag are alike. C73_limits: queries for which the bytes matter; C73_inside: documents cut off inside the element."
  },
  {
   "property": "C74",
   "status": "proved",
   "theorems": [
    "Verif.Props.C74_trim",
    "Verif.Props.C74_text",
    "Verif.Props.C74_set"
   ],
   "note": "C74_trim characterises trimming for arbitrary bytes by the characters of Unicode; C74_text and C74_set are its effect on Get and Set."
  },
  {
   "property": "C75",
   "status": "proved",
   "theorems": [
    "Verif.Props.C75_same_delete",
    "Verif.Props.C75_same_set",
    "Verif.Props.C75_delete",
    "Verif.Props.C75_delete_one",
    "Verif.Props.C75_set",
    "Verif.Props.C75_set_one",
    "Verif.Props.C75_set_attr",
    "Verif.Props.C75_set_empty",
    "Verif.Props.C75_opened",
    "Verif.Props.C75_delete_many",
    "Verif.Props.C75_set_attr_empty",
    "Verif.Props.C75_same_set_many",
    "Verif.Props.C75_same_raw",
    "Verif.Props.C75_set_attr_there",
    "Verif.Props.C75_visits"
   ],
   "note": "Set and Delete with a new map order at every loop: Delete is the same bytes; Set differs at most in the order of the attributes of one start tag, and equals a run with one order. Attribute paths are covered for names (C75_set_attr); C75_same_set and C75_same_delete tie the functions to those of the other theorems. C75_visits: reversing the order at one visit alone can be seen."
  },
  {
   "property": "C76",
   "status": "proved",
   "theorems": [
    "Verif.Props.C76_step",
    "Verif.Props.C76_run",
    "Verif.Props.C76_reached",
    "Verif.Props.C76_build",
    "Verif.Props.C76_grouped",
    "Verif.Props.C76_setMany",
    "Verif.Props.C76_build_many",
    "Verif.Props.C76_read",
    "Verif.Props.C76_apart",
    "Verif.Props.C76_apart_put"
   ],
   "note": "trees with simple names; every sequence of calls, and exactly the trees that can be reached; that documents with entries of one name apart cannot be reached but can be edited is C76_apart and C76_apart_put"
  },
  {
   "property": "C77",
   "status": "proved",
   "theorems": [
    "Verif.Props.C77_rest_ignored",
    "Verif.Props.C77_attribute_kept",
    "Verif.Props.C77_attribute_lost",
    "Verif.Props.C77_position",
    "Verif.Props.C77_position_deep",
    "Verif.Props.C77_negative",
    "Verif.Props.C77_deep",
    "Verif.Props.C77_hyphens",
    "Verif.Props.C77_witness",
    "Verif.Props.C77_rest_ignored_options",
    "Verif.Props.C77_attribute_kept_options",
    "Verif.Props.C77_attribute_lost_options",
    "Verif.Props.C77_position_options",
    "Verif.Props.C77_position_deep_options",
    "Verif.Props.C77_negative_options",
    "Verif.Props.C77_deep_options",
    "Verif.Props.C77_options_witness"
   ],
   "note": "Get and GetWithOptions with any options: rest ignored after %, count and fields; attribute with rest kept after a filter or a position, lost below a name or wildcard; misplaced and negative positions and ** give Null; digits-and-hyphens steps are the position 0 in Get, GetWithOptions, Set and Delete"
  },
  {
   "property": "C78",
   "status": "proved",
   "theorems": [
    "Verif.Props.C78_get",
    "Verif.Props.C78_string",
    "Verif.Props.C78_meaning",
    "Verif.Props.C78_panic",
    "Verif.Props.C78_same_document",
    "Verif.Props.C78_witness",
    "Verif.Props.C78_any_string",
    "Verif.Props.C78_any_same_document",
    "Verif.Props.C78_own_text_witness"
   ],
   "note": "Sense gives the meaning of a text as a path by its steps; C78_meaning: exactly one for every text without a bar unless the parser panics; C78_get: Get returns it. Subsumes C51 and C77 for Get without options. The bounds on ** (9999 elements) and on texts collected by #.% are those of C51. C78_any_*: strings, own texts included."
  },
  {
   "property": "C79",
   "status": "proved",
   "theorems": [
    "Verif.Props.C79_trail",
    "Verif.Props.C79_one_place",
    "Verif.Props.C79_set",
    "Verif.Props.C79_delete",
    "Verif.Props.C79_delete_nowhere",
    "Verif.Props.C79_set_attribute",
    "Verif.Props.C79_delete_attribute",
    "Verif.Props.C79_delete_attribute_nowhere",
    "Verif.Props.C79_create",
    "Verif.Props.C79_create_top",
    "Verif.Props.C79_create_root",
    "Verif.Props.C79_cases",
    "Verif.Props.C79_apart",
    "Verif.Props.C79_attribute_missing",
    "Verif.Props.C79_witness"
   ],
   "note": "Editable documents (Sound for what leaves the document alone or appends to it); attributes of elements to be created: C79_attribute_missing, byte for byte C69_attribute, C69_attribute_new; final -1: C91"
  },
  {
   "property": "C80",
   "status": "proved",
   "theorems": [
    "Verif.Props.C80_get",
    "Verif.Props.C80_default",
    "Verif.Props.C80_meaning",
    "Verif.Props.C80_panic",
    "Verif.Props.C80_string",
    "Verif.Props.C80_same_document",
    "Verif.Props.C80_witness",
    "Verif.Props.C80_any_string",
    "Verif.Props.C80_any_same_document"
   ],
   "note": "For all texts without a bar; paths with modifiers are C52, C57 and C60. C80_any_*: strings, own texts included."
  },
  {
   "property": "C81",
   "status": "proved",
   "theorems": [
    "Verif.Props.C81_get",
    "Verif.Props.C81_options",
    "Verif.Props.C81_result",
    "Verif.Props.C81_result_options",
    "Verif.Props.C81_plain",
    "Verif.Props.C81_getMany",
    "Verif.Props.C81_register",
    "Verif.Props.C81_called_witness"
   ],
   "note": "C81_get, C81_options, C81_result, C81_result_options, C81_getMany: equal registries on the called names give equal answers; C81_register: the registry functions; C81_plain: no bar; C81_called_witness: a called name does matter."
  },
  {
   "property": "C82",
   "status": "proved",
   "theorems": [
    "Verif.Props.C82_collect",
    "Verif.Props.C82_same",
    "Verif.Props.C82_witness",
    "Verif.Props.C82_options",
    "Verif.Props.C82_options_witness",
    "Verif.Props.C82_deep",
    "Verif.Props.C82_deep_options",
    "Verif.Props.C82_deep_witness",
    "Verif.Props.C82_any_same"
   ],
   "note": "C82_collect: the law; C82_options: with options; C82_same: results that describe the same things have the same types and strings; C82_witness: why something has to be found and why positions after the first name are excluded. C82_deep, C82_deep_options: the law for **, below its limit of 1000. C82_any_same: own texts included."
  },
  {
   "property": "C83",
   "status": "proved",
   "theorems": [
    "Verif.Props.C83_get",
    "Verif.Props.C83_options",
    "Verif.Props.C83_meaning",
    "Verif.Props.C83_panic",
    "Verif.Props.C83_same",
    "Verif.Props.C83_inside",
    "Verif.Props.C83_witness",
    "Verif.Props.C83_any_string",
    "Verif.Props.C83_any_string_options",
    "Verif.Props.C83_any_same",
    "Verif.Props.C83_any_same_options"
   ],
   "note": "All of the statement. The condition Calm (no < in comments, CDATA) is needed: C60_calm_needed. C83_any_*: strings, own texts included, also with options."
  },
  {
   "property": "C84",
   "status": "proved",
   "theorems": [
    "Verif.Props.C84_sound",
    "Verif.Props.C84_says",
    "Verif.Props.C84_plain",
    "Verif.Props.C84_editable",
    "Verif.Props.C84_bare",
    "Verif.Props.C84_get",
    "Verif.Props.C84_witness",
    "Verif.Props.C84_neat_needed"
   ],
   "note": "All of the statement."
  },
  {
   "property": "C85",
   "status": "proved",
   "theorems": [
    "Verif.Props.C85_search",
    "Verif.Props.C85_bound",
    "Verif.Props.C85_linear",
    "Verif.Props.C85_every",
    "Verif.Props.C85_blowup",
    "Verif.Props.C85_every_options",
    "Verif.Props.C85_blowup_options",
    "Verif.Props.C85_witness",
    "Verif.Props.C85_counts_names",
    "Verif.Props.C85_counts_wildcard",
    "Verif.Props.C85_counts_search",
    "Verif.Props.C85_counts_position",
    "Verif.Props.C85_counts_filter",
    "Verif.Props.C85_counts_options"
   ],
   "note": "Calls of executeQuery, executeQueryWithOptions and their recursive searches are counted by Model/Work and Model/WorkOpt, which follow Model/Get and Model/GetOpt; reading bytes, comparing names and building results are not counted. C85_counts_* state the count itself for a small document and every kind of step."
  },
  {
   "property": "C86",
   "status": "proved",
   "theorems": [
    "Verif.Props.C86_depth",
    "Verif.Props.C86_filter",
    "Verif.Props.C86_text",
    "Verif.Props.C86_witness"
   ],
   "note": "C86_depth: chained Get through n nested elements is cut off nowhere. C86_filter: k nested filters, up to 86, find something just when k < n. C86_text: the innermost text is in the string of the outermost element."
  },
  {
   "property": "C87",
   "status": "proved",
   "theorems": [
    "Verif.Props.C87_delete",
    "Verif.Props.C87_many",
    "Verif.Props.C87_witness"
   ],
   "note": "C87_delete for one path, C87_many for lists; that only a document without an element is invalid is part of Left (bare_invalid). Documents outside the editable layout: C61 (Delete may cut at the wrong place there)."
  },
  {
   "property": "C88",
   "status": "proved",
   "theorems": [
    "Verif.Props.C88_set",
    "Verif.Props.C88_value",
    "Verif.Props.C88_append",
    "Verif.Props.C88_there",
    "Verif.Props.C88_set_attribute",
    "Verif.Props.C88_calls",
    "Verif.Props.C88_valid",
    "Verif.Props.C88_many",
    "Verif.Props.C88_raw",
    "Verif.Props.C88_witness",
    "Verif.Props.C88_witness_more"
   ],
   "note": "Editable layout with RootsOpen, or the empty document. C88_calls: invariant Kept over any series of calls (EditCall: set, append, there, attr, attrThere, delete); C88_valid: valid unless too large or without element; C88_many: SetMany; C88_raw: SetRaw; C88_set, C88_append, C88_there, C88_set_attribute: one call; C88_value: values without < may stand anywhere. Attributes need room (fewer than 100, or the attribute is there). Witnesses: a self-closing root; raw XML that is not well-formed."
  },
  {
   "property": "C89",
   "status": "proved",
   "theorems": [
    "Verif.Props.C89_place",
    "Verif.Props.C89_set",
    "Verif.Props.C89_create",
    "Verif.Props.C89_create_top",
    "Verif.Props.C89_attribute",
    "Verif.Props.C89_witness",
    "Verif.Props.C89_attribute_create",
    "Verif.Props.C89_attribute_top",
    "Verif.Props.C89_attribute_create_witness"
   ],
   "note": "Reading and writing with the same path meet at the same element: C89_place for what is there, C89_set, C89_create, C89_create_top, C89_attribute, C89_attribute_create and C89_attribute_top for what Set leaves; C89_witness for the paths left out."
  },
  {
   "property": "C90",
   "status": "proved",
   "theorems": [
    "Verif.Props.C90_any_order",
    "Verif.Props.C90_set_many",
    "Verif.Props.C90_reads",
    "Verif.Props.C90_text",
    "Verif.Props.C90_attribute",
    "Verif.Props.C90_create",
    "Verif.Props.C90_append",
    "Verif.Props.C90_last_wins",
    "Verif.Props.C90_last_wins_create",
    "Verif.Props.C90_witness",
    "Verif.Props.C90_markup",
    "Verif.Props.C90_delete_attribute",
    "Verif.Props.C90_delete_child",
    "Verif.Props.C90_delete_nth",
    "Verif.Props.C90_less_witness"
   ],
   "note": "For documents in the usual layout (Editable). The kinds of writes are given by C90_text, C90_markup, C90_attribute, C90_create, C90_append, C90_delete_attribute, C90_delete_child and C90_delete_nth; DoesAny is what C90_any_order needs of them."
  },
  {
   "property": "C91",
   "status": "proved",
   "theorems": [
    "Verif.Props.C91_append",
    "Verif.Props.C91_append_root",
    "Verif.Props.C91_append_missing",
    "Verif.Props.C91_there",
    "Verif.Props.C91_get",
    "Verif.Props.C91_undo_line",
    "Verif.Props.C91_undo",
    "Verif.Props.C91_witness"
   ],
   "note": "For documents in the usual layout (Editable; at the top level Sound). Other negative positions and steps that are no name before -1 are errors (C62)."
  },
  {
   "property": "C92",
   "status": "proved",
   "theorems": [
    "Verif.Props.C92_created_line",
    "Verif.Props.C92_created",
    "Verif.Props.C92_new_root",
    "Verif.Props.C92_set_back",
    "Verif.Props.C92_attribute",
    "Verif.Props.C92_deleted",
    "Verif.Props.C92_witness"
   ],
   "note": "C66 at any path, with any options."
  },
  {
   "property": "C93",
   "status": "proved",
   "theorems": [
    "Verif.Props.C93_step",
    "Verif.Props.C93_run",
    "Verif.Props.C93_room",
    "Verif.Props.C93_read",
    "Verif.Props.C93_clear",
    "Verif.Props.C93_witness"
   ],
   "note": "C70 at any path, with any options."
  },
  {
   "property": "C94",
   "status": "proved",
   "theorems": [
    "Verif.Props.C94_step",
    "Verif.Props.C94_run",
    "Verif.Props.C94_order",
    "Verif.Props.C94_read",
    "Verif.Props.C94_witness",
    "Verif.Props.C94_exact",
    "Verif.Props.C94_seen"
   ],
   "note": "C71 at any path, with any options."
  },
  {
   "property": "C95",
   "status": "proved",
   "theorems": [
    "Verif.Props.C95_step",
    "Verif.Props.C95_run",
    "Verif.Props.C95_room",
    "Verif.Props.C95_read",
    "Verif.Props.C95_clear",
    "Verif.Props.C95_witness"
   ],
   "note": "C93 for all the children of an element at once, with the steps *, ** and names, new names, and a comparison of its own in each call."
  },
  {
   "property": "C96",
   "status": "proved",
   "theorems": [
    "Verif.Props.C96_step",
    "Verif.Props.C96_run",
    "Verif.Props.C96_same",
    "Verif.Props.C96_set_many",
    "Verif.Props.C96_delete_many",
    "Verif.Props.C96_copy",
    "Verif.Props.C96_move_witness",
    "Verif.Props.C96_witness",
    "Verif.Props.C96_many_witness"
   ],
   "note": "One function on documents for all edits of C79, C91 and C94, by texts and by well-formed markup, and for SetMany and DeleteMany; the paths, values, options and orders of maps may differ from call to call."
  },
  {
   "property": "C97",
   "status": "proved",
   "theorems": [
    "Verif.Props.C97_slices",
    "Verif.Props.C97_strings",
    "Verif.Props.C97_nil",
    "Verif.Props.C97_nil_many",
    "Verif.Props.C97_never",
    "Verif.Props.C97_witness"
   ],
   "note": "Byte-slice functions with nil, and the string functions as calls of them"
  },
  {
   "property": "C98",
   "status": "proved",
   "theorems": [
    "Verif.Props.C98_valid",
    "Verif.Props.C98_attribute",
    "Verif.Props.C98_stuck",
    "Verif.Props.C98_lost",
    "Verif.Props.C98_witness",
    "Verif.Props.C98_lost_witness"
   ],
   "note": "Set of an attribute past the limits of the parser: exact condition for the result to be valid, the message, that no further edit is possible, and how the result is read"
  },
  {
   "property": "C99",
   "status": "proved",
   "theorems": [
    "Verif.Props.C99_set",
    "Verif.Props.C99_delete",
    "Verif.Props.C99_outgrown",
    "Verif.Props.C99_witness"
   ],
   "note": "Set and Delete of an attribute of the first tag of any valid document, and attributes that outgrow the limit by it"
  }
 ]
}
