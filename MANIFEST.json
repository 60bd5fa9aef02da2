{"claims": [
{"property": "C01", "status": "proved", "theorems": ["Scheme.C01_conforms", "Scheme.C01_preprocessor_may_give_null", "Scheme.C01_required_null_dropped", "Scheme.C01_key_order_hides_required"], "note": "C01_conforms: every field type, any nesting, recursive schemas (placeholders), any candidate, inbound native or serialized and outbound native. Conformance is the inductive Spec/Conforms.lean. Needs only that conversion to a zone yields a datetime of that zone (ZoneLaw). The exceptions in the statement are exhibited by the three other theorems."},
{"property": "C02", "status": "proved", "theorems": ["Scheme.C02_idempotent", "Scheme.C02_union_fails", "Scheme.C02_ignored_null_default_fails", "Scheme.C02_ignored_null_required_fails", "Scheme.C02_ignored_value_fails", "Scheme.C02_text_constant_fails", "Scheme.C02_datetime_constant_fails", "Scheme.C02_preprocessor_fails", "Scheme.C02_object_fails"], "note": "For every schema (recursive ones included) satisfying Settled everywhere, every candidate, flag and depth: a result of inbound processing is a fixed point of native inbound processing at the same depth. Law assumed: astimezone returns the zone asked for, str.lower is idempotent on non-ASCII and yields no separators. Each excluded combination has a counterexample theorem."},
{"property": "C03", "status": "proved", "theorems": ["Scheme.C03_serialize_unserialize", "Scheme.C03_round_trip", "Scheme.C03_union_fails", "Scheme.C03_default_fails", "Scheme.C03_datetime_in_date_fails", "Scheme.C03_microseconds_fail", "Scheme.C03_keys_collapse"], "note": "For every schema, value and depth where every (field, value) pair visited by the outbound call satisfies Faithful: unserialize(serialize(v)) = w iff native inbound processing of v gives w; corollary: accepted values come back exactly. Law assumed: astimezone returns the zone asked for. Excluded combinations have counterexample theorems (C03_*_fails, C03_microseconds_fail, C03_keys_collapse)."},
{"property": "C04", "status": "proved", "theorems": ["Scheme.C04_null_accepted", "Scheme.C04_null_rejected", "Scheme.C04_null_rejected_root", "Scheme.C04_ignored_as_null"], "note": "all field types, phases and modes"},
{"property": "C05", "status": "proved", "theorems": ["Scheme.C05_structure_accepts_iff", "Scheme.C05_key_set", "Scheme.C05_required_key_dropped_counterexample", "Scheme.C05_not_a_structure"], "note": "exact characterisation of acceptance and of the result for every structure without preprocessor; C05_required_key_dropped_counterexample shows the one way a required key may be missing from an accepted result (required + ignore_null + None)"},
{"property": "C06", "status": "proved", "theorems": ["Scheme.C06_structure_fails_iff"], "note": "failure iff some member fails, a required member is missing or an undeclared key is given in strict mode"},
{"property": "C07", "status": "proved", "theorems": ["Scheme.C07_map_report", "Scheme.C07_sequence_report", "Scheme.C07_structure_report", "Scheme.C07_tuple_report"], "note": "the complete error report of sequences, tuples, maps and structures: one error per failing part, in order"},
{"property": "C08", "status": "proved", "theorems": ["Scheme.C08_locations", "Scheme.C08_subset_locations", "Scheme.C08_identity", "Scheme.C08_union_identity", "Scheme.C08_discriminator_identity", "Scheme.C08_object_identity"], "note": "For every schema, value, phase, flag, ancestry and depth: the error raised satisfies Located, an inductive description of the whole error tree (own errors at the field's path, nested ones one step deeper, required/unknown at the structure). C08_identity gives the outermost identity; the two deviations are exhibited (C08_discriminator_identity, C08_object_identity)."},
{"property": "C09", "status": "proved", "theorems": ["Scheme.C09_sequence_accepts_iff", "Scheme.C09_min_length", "Scheme.C09_max_length", "Scheme.C09_not_a_list", "Scheme.C09_duplicate", "Scheme.C09_unhashable_counterexample"], "note": "C09_unhashable_counterexample: unique sequences raise TypeError on unhashable items"},
{"property": "C10", "status": "proved", "theorems": ["Scheme.C10_tuple_accepts_iff", "Scheme.C10_length", "Scheme.C10_not_a_tuple"], "note": ""},
{"property": "C11", "status": "proved", "theorems": ["Scheme.C11_map_accepts_iff", "Scheme.C11_map_entries", "Scheme.C11_collapsing_keys", "Scheme.C11_invalidkeys", "Scheme.C11_not_a_map"], "note": "C11_collapsing_keys: distinct given keys may be processed to one key, the last wins"},
{"property": "C12", "status": "proved", "theorems": ["Scheme.C12_union_first", "Scheme.C12_union_none", "Scheme.C12_validation_error_is_final"], "note": ""},
{"property": "C13", "status": "proved", "theorems": ["Scheme.C13_dispatch", "Scheme.C13_required", "Scheme.C13_unrecognized", "Scheme.C13_discriminator_error", "Scheme.C13_identity_in_result"], "note": "structures without preprocessor, as in C05; the raw error of the discriminator passes through unwrapped"},
{"property": "C14", "status": "proved", "theorems": ["Scheme.C14_partial", "Scheme.C14_partial_complete", "Scheme.C14_partial_poly"], "note": "partial processing equals processing against the structure reduced to the given members"},
{"property": "C15", "status": "proved", "theorems": ["Scheme.C15_native_iff", "Scheme.C15_serialize", "Scheme.C15_text", "Scheme.C15_bool_rejected", "Scheme.C15_type_rejected", "Scheme.C15_minimum", "Scheme.C15_maximum", "Scheme.C15_read"], "note": "Native: exact acceptance (C15_accept and relatives). Serialized: C15_read is an equivalence with the specification IntOf of Spec/IntText.lean, which covers texts, bytes, floats, decimals and integers; so 2.9 and Decimal(\"2.9\") are read as 2."},
{"property": "C16", "status": "proved", "theorems": ["Scheme.C16_native_iff", "Scheme.C16_text_iff", "Scheme.C16_bad_text", "Scheme.C16_serialize", "Scheme.C16_round_trip", "Scheme.C16_bounds", "Scheme.C16_unpadded_counterexample", "Scheme.C16_datetime_counterexample"], "note": "grammar iff for all texts, round trip for four-digit years; C16_unpadded_counterexample: years below 1000 are written unpadded where strftime does not pad and do not read back; C16_datetime_counterexample: a datetime is accepted as a date and raises TypeError against bounds"},
{"property": "C17", "status": "proved", "theorems": ["Scheme.C17_native_iff", "Scheme.C17_text_iff", "Scheme.C17_bad_text", "Scheme.C17_serialize", "Scheme.C17_round_trip", "Scheme.C17_bounds"], "note": ""},
{"property": "C18", "status": "proved", "theorems": ["Scheme.C18_native_iff", "Scheme.C18_zone", "Scheme.C18_text", "Scheme.C18_bad_text", "Scheme.C18_serialize", "Scheme.C18_round_trip", "Scheme.C18_round_trip_micro", "Scheme.C18_bounds"], "note": "zone conversion is a parameter; ZoneLaw says that a converted datetime carries the requested zone, and the round trips assume that converting this value to UTC and back restores it (false only for wall clocks skipped by a DST change)"},
{"property": "C19", "status": "proved", "theorems": ["Scheme.C19_native_iff", "Scheme.C19_text", "Scheme.C19_serialize", "Scheme.C19_round_trip", "Scheme.C19_type_rejected", "Scheme.C19_bounds", "Scheme.C19_nan_counterexample", "Scheme.C19_read"], "note": "C19_read is an equivalence with DecOf of Spec/DecRead.lean; what Decimal() makes of floats and triples is a parameter of the environment. Signalling NaNs and NaN payloads are not distinguished. C19_nan_counterexample: a NaN against bounds raises InvalidOperation."},
{"property": "C20", "status": "proved", "theorems": ["Scheme.C20_native_iff", "Scheme.C20_serialize", "Scheme.C20_round_trip", "Scheme.C20_lengths", "Scheme.C20_type_rejected", "Scheme.C20_malformed_counterexample"], "note": "C20_malformed_counterexample: malformed base64 raises binascii.Error"},
{"property": "C21", "status": "proved", "theorems": ["Scheme.C21_iff", "Scheme.C21_no_outer_whitespace", "Scheme.C21_blank", "Scheme.C21_nonempty", "Scheme.C21_nonempty_counterexample", "Scheme.C21_type_rejected", "Scheme.C21_bounds"], "note": "C21_iff/_no_outer_whitespace/_bounds hold as stated; C21_nonempty_counterexample: nonempty=True with min_length=0 accepts ''"},
{"property": "C22", "status": "proved", "theorems": ["Scheme.C22_iff", "Scheme.C22_newline_counterexample", "Scheme.C22_rejected"], "note": "exact language given by C22_iff; C22_newline_counterexample: `$` also accepts one trailing newline"},
{"property": "C23", "status": "proved", "theorems": ["Scheme.C23_iff", "Scheme.C23_rejected", "Scheme.C23_newline_counterexample"], "note": "exact language given by C23_iff; C23_newline_counterexample: `$` also accepts one trailing newline"},
{"property": "C24", "status": "proved", "theorems": ["Scheme.C24_iff", "Scheme.C24_rejected", "Scheme.C24_redefine_append", "Scheme.C24_redefine_replace", "Scheme.C24_redefine_total"], "note": ""},
{"property": "C25", "status": "proved", "theorems": ["Scheme.C25_native", "Scheme.C25_serialized", "Scheme.C25_result", "Scheme.C25_text_counterexample", "Scheme.C25_structural_counterexample", "Scheme.C25_enumeration_counterexample"], "note": "true for leaf fields outbound/inbound on native values; counterexamples for Text constants with outer white space, for structural fields (constant ignored) and for Enumeration (KeyError)"},
{"property": "C26", "status": "proved", "theorems": ["Scheme.C26_every_exception_has_a_cause", "Scheme.C26_tidy_schema", "Scheme.C26_other_exceptions_occur"], "note": "Complete list of non-StructuralError causes (Spec/Causes.lean), proved exhaustive by induction on recursion depth for every schema, value, phase and user environment; schemas meeting the stated restrictions raise StructuralError or RecursionError only; witnesses show the listed causes really occur."},
{"property": "C27", "status": "proved", "theorems": ["Scheme.C27_more_stack", "Scheme.C27_schema_nesting", "Scheme.C27_schema_nesting_no_overflow", "Scheme.C27_value_nesting", "Scheme.C27_value_nesting_no_overflow", "Scheme.C27_default_diverges", "Scheme.C27_union_diverges"], "note": "Result is independent of available stack once it is not RecursionError; enough stack exists for any non-recursive schema and, for recursive schemas without defaults and preprocessors, any value; witnesses show recursive default and self-referring union diverge."},
{"property": "C28", "status": "proved", "theorems": ["Scheme.C28_placeholder"], "note": "full history theorem over any number of placeholders and holders of every kind; field objects are abstract; cloning assumed to succeed (see C53)."},
{"property": "C29", "status": "proved", "theorems": ["Scheme.C29_round_trip", "Scheme.C29_describes", "Scheme.C29_once", "Scheme.C29_described", "Scheme.C29_recursive", "Scheme.C29_lost", "Scheme.C29_default_lost", "Scheme.C29_default_serialized", "Scheme.C29_default_null", "Scheme.C29_datetime_bounds", "Scheme.C29_member_fieldtype", "Scheme.C29_aspect_cls", "Scheme.C29_undefined", "Scheme.C29_stated", "Scheme.C29_kept", "Scheme.C29_underscore", "Scheme.C29_nothing_set"], "note": "Round trip for every describable schema (C29_round_trip), existence of the description (C29_describes) and its converse (C29_described, C29_recursive). C29_once: the dict is spent by the first reconstruct. C29_lost, C29_default_*, C29_datetime_bounds, C29_member_fieldtype, C29_aspect_cls, C29_undefined exhibit what is lost or fails outside the conditions."},
{"property": "C30", "status": "proved", "theorems": ["Scheme.C30_part", "Scheme.C30_members", "Scheme.C30_succeeds", "Scheme.C30_again", "Scheme.C30_union_again", "Scheme.C30_falsy_identity"], "note": "All extraction results characterized (C30_part, C30_members), success iff shape (C30_succeeds), idempotence (C30_again) without unions/extractors/falsy identities; both failing cases exhibited. Screening parameters are modelled but the success theorem is for none."},
{"property": "C31", "status": "proved", "theorems": ["Scheme.C31_roundtrip", "Scheme.C31_union", "Scheme.C31_none_dropped", "Scheme.C31_discriminator"], "note": "Round trip by induction on call depth for every union-free schema with inverse handlers; union instantiation always raises; None members and boxed discriminators exhibited as exceptions."},
{"property": "C32", "status": "proved", "theorems": ["Scheme.C32_registered", "Scheme.C32_captured", "Scheme.C32_attributes", "Scheme.C32_poly_attributes", "Scheme.C32_completed", "Scheme.C32_value", "Scheme.C32_key", "Scheme.C32_taken_over"], "note": "ElementMeta and Element modelled for any program of class statements with one base each; registration, capture of schemas and attributes characterised exactly; that defaults are shared objects is the subject of C94."},
{"property": "C33", "status": "proved", "theorems": ["Scheme.C33_screen", "Scheme.C33_filter_gone", "Scheme.C33_filter_leaf", "Scheme.C33_filter_no_params", "Scheme.C33_missing"], "note": "Exact decision theorems for screen and for filter of leaves (C33_screen, C33_filter_leaf, C33_filter_no_params) and, for all fields, None iff the field itself fails (C33_filter_gone)."},
{"property": "C34", "status": "proved", "theorems": ["Scheme.C34_structure", "Scheme.C34_rest_passes", "Scheme.C34_nested_all", "Scheme.C34_none_left", "Scheme.C34_own_errors", "Scheme.C34_cannot_filter"], "note": "C34_structure characterizes the result of filtering a structure member by member; the three deviations are separate theorems (C34_nested_all, C34_none_left, C34_cannot_filter). filter reads only described attributes of the modelled fields."},
{"property": "C35", "status": "proved", "theorems": ["Scheme.C35_unchanged", "Scheme.C35_replaced", "Scheme.C35_behaves", "Scheme.C35_process", "Scheme.C35_poly", "Scheme.C35_own_errors", "Scheme.C35_only_recursion"], "note": "By induction on call depth, for every transformer that is a function of the field (object identity appears only as the same/new outcome)."},
{"property": "C36", "status": "proved", "theorems": ["Scheme.C36_insert", "Scheme.C36_stored", "Scheme.C36_insert_errors", "Scheme.C36_remove", "Scheme.C36_merge_prefer", "Scheme.C36_merge_until", "Scheme.C36_merge_stops", "Scheme.C36_extend", "Scheme.C36_replace"], "note": "Exact lookup equations on the key/field mapping; merge without prefer characterized exactly (C36_merge_until) with the lost-entries witness C36_merge_stops. Plain structures; arguments are dicts (distinct keys). C36 is about the mapping as a value; C95 is about field objects shared between structures."},
{"property": "C37", "status": "proved", "theorems": ["Scheme.C37_defaults", "Scheme.C37_total", "Scheme.C37_poly", "Scheme.C37_identity"], "note": "Exact membership, order, success and failure; polymorphic case reduces to the plain one per identity. Identity lookups are for hashable identities (unhashable raise TypeError)."},
{"property": "C38", "status": "proved", "theorems": ["Scheme.C38_unchanged", "Scheme.C38_reference", "Scheme.C38_reference_number", "Scheme.C38_numbers", "Scheme.C38_reference_container", "Scheme.C38_members", "Scheme.C38_members_total", "Scheme.C38_entries", "Scheme.C38_items", "Scheme.C38_union", "Scheme.C38_evaluated_again", "Scheme.C38_enumeration", "Scheme.C38_slots", "Scheme.C38_other_type", "Scheme.C38_native_refused"], "note": "VarFree describes native values without variables independently of the model; C38_unchanged shows they come back unchanged up to member order; references, dropped members (exact characterisation for structures and maps), sequences, numbers (C38_numbers), and the deviations (unions, re-evaluation of parameter values, plain/Object fields) have their own theorems. The template engine is an arbitrary parameter."},
{"property": "C39", "status": "proved", "theorems": ["Scheme.C39_escaped", "Scheme.C39_roundtrip", "Scheme.C39_reserved", "Scheme.C39_empty", "Scheme.C39_scalars"], "note": "Escaping, unescaping and the simple-value reader are modelled character by character; round trip is an equivalence."},
{"property": "C40", "status": "proved", "theorems": ["Scheme.C40_roundtrip", "Scheme.C40_tuple", "Scheme.C40_terminates", "Scheme.C40_marker", "Scheme.C40_comma", "Scheme.C40_backslash", "Scheme.C40_brace", "Scheme.C40_single_empty"], "note": "The regular expression substitution loop is modelled with its marker table; the round trip holds for every value satisfying the independent predicate Writable, and termination holds for every text. Keys must be texts (other keys are outside the model). The exclusions are shown necessary by concrete counterexamples."},
{"property": "C41", "status": "proved", "theorems": ["Scheme.C41_roundtrip", "Scheme.C41_not_mapping", "Scheme.C41_not_text", "Scheme.C41_foreign", "Scheme.C41_unescaped", "Scheme.C41_written"], "note": "UTF-8, quote_plus, unquote_plus, urlencode and parse_qsl are modelled byte by byte; the decoder's treatment of ill-formed UTF-8 is simplified (one replacement character per byte), which the round trip never meets."},
{"property": "C42", "status": "proved", "theorems": ["Scheme.C42_roundtrip", "Scheme.C42_no_columns", "Scheme.C42_unknown_column", "Scheme.C42_refused", "Scheme.C42_nul", "Scheme.C42_foreign", "Scheme.C42_written", "Scheme.C42_unix", "Scheme.C42_extra_cells", "Scheme.C42_short_row", "Scheme.C42_blank_line"], "note": "The csv module's writer and reader state machine (CPython, default field size limit) are modelled for the dialect used; float cells need that float(str(x)) gives x."},
{"property": "C43", "status": "proved", "theorems": ["Scheme.C43_roundtrip", "Scheme.C43_empty_text", "Scheme.C43_leaf_text", "Scheme.C43_carriage", "Scheme.C43_union", "Scheme.C43_poly", "Scheme.C43_tuple", "Scheme.C43_sequence", "Scheme.C43_falsy"], "note": "writer, escaping, reader (for the documents the format writes) and both directions of the value mapping are modelled; round trip by induction over the tree and over the value; deviations proved as separate theorems; C43_falsy covers values that count as false"},
{"property": "C44", "status": "proved", "theorems": ["Scheme.C44_round_trip", "Scheme.C44_injective", "Scheme.C44_quoting", "Scheme.C44_refused", "Scheme.C44_number_text", "Scheme.C44_datetime_lost", "Scheme.C44_float_lost", "Scheme.C44_lost", "Scheme.C44_flow", "Scheme.C44_block"], "note": "Round trip for all values of the class Yaml.Carries (Spec/Yaml.lean) through a conservative YAML reader written as specification; quoting exact; refused values; the texts that are not carried are exhibited (C44_lost, C44_number_text, C44_datetime_lost). Floats: what float() makes of a text is a parameter (Yaml.Floats), and a float is carried if its text is digits, a point, digits and perhaps a signed exponent, and is read back as that float; deviation proved (C44_float_lost): a float whose text has no point, such as 1e+16 or inf, is written bare and is a text to YAML 1.1. Lines made by TextWrapper for texts over 100 characters are outside."},
{"property": "C45", "status": "proved", "theorems": ["Scheme.C45_mirror", "Scheme.C45_pair", "Scheme.C45_attributes", "Scheme.C45_forced", "Scheme.C45_first", "Scheme.C45_cached", "Scheme.C45_cached_total", "Scheme.C45_nested_errors_lost", "Scheme.C45_error_value", "Scheme.C45_unserialize", "Scheme.C45_unserialize_structural"], "note": "mirror characterised node by node against a separate relation (C45_mirror), pair, caching over any history of operations (C45_first, C45_cached, C45_cached_total, C45_forced); deviations exhibited (C45_nested_errors_lost, C45_error_value, C45_unserialize_structural)."},
{"property": "C46", "status": "proved", "theorems": ["Scheme.C46_lookup", "Scheme.C46_missing", "Scheme.C46_inherited", "Scheme.C46_extension", "Scheme.C46_by_path", "Scheme.C46_by_name", "Scheme.C46_by_class", "Scheme.C46_urlencoded_unreachable"], "note": "Class statements are modelled with one base each; a class statement that fails (an empty extension) ends the modelled program. File access is outside the model."},
{"property": "C47", "status": "proved", "theorems": ["Scheme.C47_errors", "Scheme.C47_parameters", "Scheme.C47_errors_kept", "Scheme.C47_parameters_kept", "Scheme.C47_types", "Scheme.C47_diamond"], "note": "FieldMeta.__new__ modelled for any program of class statements with any number of bases; tables and registry characterised exactly, by induction over the program."},
{"property": "C48", "status": "proved", "theorems": ["Scheme.C48_keys", "Scheme.C48_paths", "Scheme.C48_order", "Scheme.C48_idempotent", "Scheme.C48_self"], "note": "C48_keys gives the value at every key, C48_paths at every path, C48_order the key order; C48_idempotent and C48_self. Dicts are trees (no aliasing between the two arguments), keys hashable and self-equal."},
{"property": "C49", "status": "proved", "theorems": ["Scheme.C49_read_back", "Scheme.C49_others", "Scheme.C49_failures"], "note": "C49_read_back, C49_others, C49_failures for every value, path and new value."},
{"property": "C50", "status": "proved", "theorems": ["Scheme.C50_minimize", "Scheme.C50_minimize_words", "Scheme.C50_minimize_idempotent", "Scheme.C50_indent", "Scheme.C50_indent_lines", "Scheme.C50_singular", "Scheme.C50_plural_ife", "Scheme.C50_plural_eau", "Scheme.C50_plural_lf", "Scheme.C50_plural_sibilant", "Scheme.C50_plural_h", "Scheme.C50_plural_y", "Scheme.C50_plural_quy", "Scheme.C50_plural_other", "Scheme.C50_plural_newline"], "note": "minimize_string equals the words joined by single blanks (C50_minimize), keeps the words, is idempotent; indent characterised line by line; pluralize per rule and for the remaining words; newline quirk exhibited (C50_plural_newline)."},
{"property": "C51", "status": "proved", "theorems": ["Scheme.C51_serialize", "Scheme.C51_unserialize", "Scheme.C51_roundtrip", "Scheme.C51_out_of_range", "Scheme.C51_from_the_end", "Scheme.C51_untagged", "Scheme.C51_interpolated_latest", "Scheme.C51_reread", "Scheme.C51_dynamic", "Scheme.C51_construct"], "note": "serialize, unserialize, interpolate and construct of surrogate.py modelled on top of process; describe and reconstruct of dynamic schemas are parameters; contribute is the inherited no-op."},
{"property": "C52", "status": "proved", "theorems": ["Scheme.C52_unique", "Scheme.C52_evaluated", "Scheme.C52_unchanged", "Scheme.C52_iff", "Scheme.C52_full", "Scheme.C52_not_text"], "note": "VarRef is the shape of a reference written with list concatenation; evaluated iff it holds. The template engine (jinja2) is an arbitrary parameter."},
{"property": "C53", "status": "proved", "theorems": ["Scheme.C53_behaves", "Scheme.C53_attributes", "Scheme.C53_succeeds", "Scheme.C53_cyclic", "Scheme.C53_own_errors", "Scheme.C53_only_recursion", "Scheme.C53_enumeration_aspect"], "note": "C53_behaves for fields as the constructors build them (Built); exact success condition (C53_succeeds), cycles (C53_cyclic), own errors (C53_own_errors), Enumeration aspect (C53_enumeration_aspect). Deep copies of values are taken as equal values."},
{"property": "C54", "status": "proved", "theorems": ["Scheme.C54_iff", "Scheme.C54_empty", "Scheme.C54_init"], "note": "grammar up to the trailing newline accepted by `$`, stated in C54_iff"},
{"property": "C55", "status": "proved", "theorems": ["Scheme.C55_telling", "Scheme.C55_serialized", "Scheme.C55_colliding_keys", "Scheme.C55_key_order_twice"], "note": "C55_telling for all fields meeting Clear (key field keeps keys apart, key_order without repetition); both exceptions exhibited (C55_colliding_keys, C55_key_order_twice)."},
{"property": "C56", "status": "proved", "theorems": ["Scheme.C56_round_trip", "Scheme.C56_injective", "Scheme.C56_written_iff", "Scheme.C56_carried_written", "Scheme.C56_printable", "Scheme.C56_keys_collapse", "Scheme.Json.C56_read", "Scheme.Json.C56_unambiguous"], "note": "json.dumps and json.loads are modelled from CPython's documented grammar with default arguments; that repr of a finite float is a JSON number read back as the same float is the hypothesis FloatText (CPython guarantees it)."},
{"property": "C57", "status": "proved", "theorems": ["Scheme.C57_json", "Scheme.C57_round_trip", "Scheme.C57_rejected", "Scheme.C57_binary", "Scheme.C57_tuple_in_any", "Scheme.C57_none_key", "Scheme.C57_data", "Scheme.C57_wire", "Scheme.C57_apart"], "note": "Combines C03 (serialized form carries the value) and C56 (JSON carries the serialized form) with an induction showing every field reads alike what JSON makes of its output. C57_wire assumes nothing about values: any JSON text that was read is rewritten and reread unchanged, for schemas meeting JsonRereads; C57_apart follows. The law of floats (repr is read back) is the hypothesis FloatTexts / FloatNumbers, shown satisfiable by an example environment."},
{"property": "C58", "status": "proved", "theorems": ["Scheme.C58_others", "Scheme.C58_rejected", "Scheme.C58_emptied", "Scheme.C58_read_back", "Scheme.C58_json", "Scheme.C58_missing", "Scheme.C58_binary_loses", "Scheme.C58_missing_false", "Scheme.C58_carriage"], "note": "The files are a map from paths to texts. C58_emptied states the data loss in general, C58_binary_loses exhibits it; C58_json combines C57 with the absence of carriage returns from JSON texts (C56)."},
{"property": "C59", "status": "proved", "theorems": ["Scheme.C59_visit", "Scheme.C59_walk", "Scheme.C59_itself", "Scheme.C59_ends", "Scheme.C59_raises", "Scheme.C59_unknown"], "note": "Callbacks thread an arbitrary state and may raise; C59_walk instantiates the state with a log. Assumes that descriptions of fields occurring as parameter values describe themselves (SelfDescribing), that no aspect is called like a constructor parameter, and that identities serialize to themselves and differ."},
{"property": "C60", "status": "proved", "theorems": ["Scheme.C60_float_native", "Scheme.C60_float_in", "Scheme.C60_float_out", "Scheme.C60_boolean", "Scheme.C60_object_native", "Scheme.C60_object_in", "Scheme.C60_object_out", "Scheme.C60_definition_native", "Scheme.C60_definition_in", "Scheme.C60_surrogate_native", "Scheme.C60_error_native", "Scheme.C60_nan", "Scheme.C60_float_bool", "Scheme.C60_error_pairs", "Scheme.C60_valid_surrogates"], "note": "Importing and naming objects, reconstructing descriptions and what float() makes of integers and texts are parameters of the environment. The float order is stated separately (Spec/FloatOrder)."},
{"property": "C61", "status": "proved", "theorems": ["Scheme.Fmt.C61_literal", "Scheme.Fmt.C61_masked", "Scheme.Fmt.C61_formatted", "Scheme.Fmt.C61_shown", "Scheme.Fmt.C61_keys", "Scheme.Fmt.C61_abbreviate", "Scheme.Fmt.C61_singleton"], "note": "repr is a parameter; C61_shown and C61_literal assume that the repr of a simple value neither begins nor ends with white space, nor ends with a comma, C61_literal also that it has no line break. Keys are texts, or integers and booleans; two or more keys of other types count as a TypeError."},
{"property": "C62", "status": "proved", "theorems": ["Scheme.C62_dotted", "Scheme.C62_plain", "Scheme.C62_colon", "Scheme.C62_colons", "Scheme.C62_member", "Scheme.C62_module", "Scheme.C62_class", "Scheme.C62_main", "Scheme.C62_named", "Scheme.C62_has_name", "Scheme.C62_object"], "note": "__import__, getattr, getmodule and == are parameters (Modules); importing has no effects and always the same outcome. The object field (C60) uses its own oracles for these two functions."},
{"property": "C63", "status": "proved", "theorems": ["Scheme.C63_name", "Scheme.C63_name_reads", "Scheme.C63_name_injective", "Scheme.C63_named", "Scheme.C63_nameless", "Scheme.C63_repr", "Scheme.C63_fixed", "Scheme.C63_local", "Scheme.C63_local_instant", "Scheme.C63_there_and_back", "Scheme.C63_merged", "Scheme.C63_consistent", "Scheme.C63_succeeds", "Scheme.C63_right_wall", "Scheme.C63_kept", "Scheme.C63_field_round_trip", "Scheme.C63_always_lost", "Scheme.C63_lost", "Scheme.C63_skipped"], "note": "The zones are modelled on counts of microseconds since year 1, with CPython's astimezone and fromutc; mktime/localtime is an arbitrary function from wall clock seconds to an answer or an error. Conversions are characterised exactly (C63_fixed, C63_local, C63_local_instant, C63_there_and_back), then for clocks that are right wherever only one answer is (C63_right_wall, C63_kept); C63_always_lost proves that the loss around the end of daylight saving time cannot be avoided by any such clock, C63_lost and C63_skipped exhibit it. C63_field_round_trip connects this with the DateTime field: the proleptic calendar is counted and proved bijective (Lemmas/Calendar). Names: C63_name, C63_name_reads, C63_name_injective, C63_repr."},
{"property": "C64", "status": "proved", "theorems": ["Scheme.C64_defaults", "Scheme.C64_default_read", "Scheme.C64_generated", "Scheme.C64_has_required", "Scheme.C64_required_rejects", "Scheme.C64_no_required", "Scheme.C64_outbound", "Scheme.C64_required_deviations", "Scheme.C64_poly", "Scheme.C64_polymorphic", "Scheme.C64_get_structure", "Scheme.C64_get_tuple", "Scheme.C64_get_none"], "note": "C64_defaults relates acceptance of a dict and of the dict with defaults added (both through the characterisation C05_structure_accepts_iff); structures have no preprocessor and unique, defined members. C64_generated is about structures without key_order. Deviations exhibited: C64_default_read, C64_required_deviations."},
{"property": "C65", "status": "proved", "theorems": ["Scheme.C65_structure", "Scheme.C65_json", "Scheme.C65_same", "Scheme.C65_poly", "Scheme.C65_value", "Scheme.C65_value_none", "Scheme.C65_none_replaced"], "note": "serialize and unserialize of Elements composed from extract, process, the JSON format and instantiate (C65_structure, C65_json, C65_poly, C65_value), with the exact result for None attributes (Refilled; C65_same when there are none). Attributes must be kept by their members (Keeps: accepted unchanged, no None inside nested structures, no instantiators or extractors below the element, enough stack). Deviations: C65_none_replaced, C65_value_none."},
{"property": "C66", "status": "proved", "theorems": ["Scheme.C66_built", "Scheme.C66_accepts", "Scheme.C66_identity", "Scheme.C66_rejects", "Scheme.C66_built_field", "Scheme.C66_own_errors", "Scheme.C66_key_order", "Scheme.C66_key_order_refused", "Scheme.C66_default", "Scheme.C66_default_unknown", "Scheme.C66_default_kept", "Scheme.C66_key_order_text", "Scheme.C66_default_plain"], "note": "Structure.__init__ in full (newPolymorphic, newStructure). C66_built and C66_built_field state what is built against the declaration (Spec/Construct: VariantMembers, StoredAs, GeneratedOn); C66_accepts, C66_identity, C66_rejects state how the built field behaves; C66_default, C66_default_unknown, C66_default_plain cover generate_default. Deviations proved: C66_key_order, C66_key_order_refused, C66_own_errors. Simplification: the constructor changes the dicts it is given (pops *, adds members); that effect on the caller is not represented here but in C93. Structural discriminators are covered by the model but C66_built_field is about non-structural ones. C66_default_kept: a default given as such is kept whatever generate_default says. C66_key_order_text: a key order given as text is the list of its words."},
{"property": "C67", "status": "proved", "theorems": ["Scheme.C67_leaf", "Scheme.C67_leaf_serialized", "Scheme.C67_leaf_unreadable", "Scheme.C67_leaf_failing", "Scheme.C67_null", "Scheme.C67_structure", "Scheme.C67_poly", "Scheme.C67_sequence", "Scheme.C67_map", "Scheme.C67_tuple", "Scheme.C67_wrong_type", "Scheme.C67_enumeration_counterexample", "Scheme.C67_none_counterexample", "Scheme.C67_union"], "note": "Equalities between the field and the field without its preprocessor (withoutPre): C67_leaf, C67_leaf_serialized, C67_leaf_unreadable, C67_null, C67_structure, C67_poly, C67_sequence, C67_map, C67_tuple, C67_wrong_type, C67_union; failing preprocessors: C67_leaf_failing and in the structural theorems; deviations C67_enumeration_counterexample, C67_none_counterexample. A preprocessor of a structural field that returns a value of another type is simplified in the model and not part of the theorems. These equalities carry the theorems that assume no preprocessor over to fields with one."},
{"property": "C68", "status": "proved", "theorems": ["Scheme.C68_reorder", "Scheme.C68_rejected_type", "Scheme.C68_collapsing_keys"], "note": "Props/Reorder.lean over Model/Process.lean; induction on the depth of processing with SameData (Spec/Instantiate.lean) between the inputs. The restriction is stated for the values met while processing one of the two, and is shown to carry over to the other. The environment functions used by Decimal (from tuples), Definition and Object are assumed not to look at the order of entries."},
{"property": "C69", "status": "proved", "theorems": ["Scheme.C69_structured_text", "Scheme.C69_structured_numbers", "Scheme.C69_query", "Scheme.C69_xml", "Scheme.C69_yaml", "Scheme.C69_accepted", "Scheme.C69_query_blank"], "note": "Props/FieldText.lean over Model/FieldFormat.lean, from C03, C40, C41, C43, C44 and C68; numbers as texts by Spec/TextReady.lean. Url-encoding is applied by hand, since its methods take no schema and Field.serialize cannot use it (C46_urlencoded_unreachable)."},
{"property": "C70", "status": "proved", "theorems": ["Scheme.C70_integer", "Scheme.C70_float", "Scheme.C70_decimal", "Scheme.C70_date", "Scheme.C70_time", "Scheme.C70_datetime", "Scheme.C70_binary", "Scheme.C70_text", "Scheme.C70_email", "Scheme.C70_sequence", "Scheme.C70_enumeration", "Scheme.C70_enumeration_ignored", "Scheme.C70_null", "Scheme.C70_common", "Scheme.C70_integer_declared", "Scheme.C70_float_declared", "Scheme.C70_decimal_declared", "Scheme.C70_time_declared", "Scheme.C70_date_declared", "Scheme.C70_binary_declared", "Scheme.C70_text_declared", "Scheme.C70_enumeration_declared", "Scheme.C70_email_declared", "Scheme.C70_empty_range", "Scheme.C70_nonempty_empty", "Scheme.C70_map", "Scheme.C70_tuple", "Scheme.C70_union", "Scheme.C70_token", "Scheme.C70_definition"], "note": "End-to-end: theorems about construction (initField) followed by processing. Spec/Declare.lean says what keyword arguments mean without reference to the model's argument readers (Gives, Sets, IntGiven, LengthGiven, DateGiven, TimeGiven, DecGiven, MeetsConstant, MeetsLength, OneOf, Native). For every type an iff for acceptance (C70_integer, _float, _decimal, _date, _time, _datetime, _binary, _text, _email, _sequence, _enumeration, _enumeration_ignored, _map, _tuple, _union, _token, _definition, _null, _common) and, for arguments free of things the model does not represent (Ordinary), an iff for the declaration being possible together with the exception otherwise (C70_*_declared). Deviations: C70_empty_range, C70_nonempty_empty. Not covered: patterns, callables, datetimes as bounds of a Date."},
{"property": "C71", "status": "proved", "theorems": ["Scheme.C71_moved", "Scheme.C71_subset_moved", "Scheme.C71_alone", "Scheme.C71_accepts", "Scheme.C71_rejects"], "note": "Relational proof over all processing functions (`Moved` in Spec/Moved.lean relates two outcomes): C71_moved, C71_subset_moved; C71_alone, C71_accepts and C71_rejects are the consequences a user sees. The two places must not be the empty ancestry, which stands for the name of the field itself (C71_alone covers it)."},
{"property": "C72", "status": "proved", "theorems": ["Scheme.C72_fixed", "Scheme.C72_written", "Scheme.C72_read_back", "Scheme.C72_schema", "Scheme.C72_unique_fails", "Scheme.C72_required_key_fails", "Scheme.C72_discriminator_fails", "Scheme.C72_default_fails", "Scheme.C72_wire", "Scheme.C72_apart", "Scheme.C72_native_fails", "Scheme.C72_default_time_fails", "Scheme.C72_year_fails"], "note": "C72_fixed: a fixed point of native inbound processing can be serialized, given `Sendable` for the fields and values at hand (unions of any alternatives included: `rejects_out` shows that an alternative refusing the type of a native value inbound refuses it outbound too). C72_written adds C02 (results are fixed points, under `Settled`), C72_schema replaces the condition on values by one on the schema (`Sends`), C72_read_back adds C03. C72_wire replaces the remaining conditions on values by ones on the schema (`Rereads`) and on the data read (`ArrivingAt`), by induction on the depth with the acceptance lemmas of every field type in both directions; C72_apart follows (different values are written differently). C72_unique_fails, C72_required_key_fails, C72_discriminator_fails, C72_default_fails, C72_native_fails, C72_default_time_fails and C72_year_fails are the exceptions."},
{"property": "C73", "status": "proved", "theorems": ["Scheme.C73_relaxed", "Scheme.C73_added_member_fails", "Scheme.C73_union_fails", "Scheme.C73_default_fails", "Scheme.C73_strip_fails"], "note": "Spec/Relax.lean says when one field demands no more than another (one level, with a relation R for the sub-fields, so that recursive schemas are covered); it mentions orders of dates, times, decimals and floats as relations of their own. C73_relaxed is proved by induction on the call depth with the acceptance characterizations of each container; results are equal, not merely both accepted. A NaN float bound is excluded, as every float is within it. Union fields other than the last stay the same. The limits are exhibited by C73_added_member_fails, C73_union_fails, C73_default_fails and C73_strip_fails. Ex.newer applies it to two versions of a recursive schema."},
{"property": "C74", "status": "proved", "theorems": ["Scheme.C74_description_taken", "Scheme.C74_untouched", "Scheme.C74_refines", "Scheme.C74_shares_at_most", "Scheme.C74_fresh", "Scheme.C74_independent", "Scheme.C74_input_independent", "Scheme.C74_partial_processing", "Scheme.C74_untyped", "Scheme.C74_default_handed_out", "Scheme.C74_shared_default"], "note": "Model/Heap.lean restates process of all fields as code on a heap of list, tuple, dict and set cells, with explicit allocation and writes (append, d[k]=v, names.remove). C74_untouched: every cell of the old heap is unchanged, for any input including cyclic objects. C74_refines: the outcome is that of Model/Process on the values read off the heap, exceptions included. C74_shares_at_most: the result reads off new cells and those of any set of cells from which value and defaults can be read. C74_fresh: with PartFree schemas it reads off new cells alone; C74_independent and C74_input_independent state this as non-interference. C74_partial_processing: the same for partial=True. C74_untyped and C74_default_handed_out give the limit as equations, C74_shared_default a run of two calls and an append. Exceptions hold contents rather than references; preprocessors are excluded from all but C74_untouched. First claimed of all schemas. That is false of the code: Definition and Surrogate, unserializing, take fieldtype out of the dicts they are given (field.py:70). C74_description_taken is the counterexample, Definition() emptying {'fieldtype': 'integer'}; the theorems assume Spared (no such field, or not unserializing), Lemmas/HeapQuiet.lean shows that then nothing is taken, and C92 says what is taken otherwise."},
{"property": "C75", "status": "proved", "theorems": ["Scheme.C75_merge", "Scheme.C75_merge_objects", "Scheme.C75_traverse_untouched", "Scheme.C75_traverse", "Scheme.C75_set_one", "Scheme.C75_set", "Scheme.C75_first_addition_changes", "Scheme.C75_shared_original", "Scheme.C75_addition_inside"], "note": "Model/HeapUtil.lean restates the three helpers on the heap of C74, iteration over a dict whose size changes included. C75_merge (frame and value, for every depth from some bound on), C75_merge_objects (which object is under which key), C75_traverse, C75_traverse_untouched, C75_set, C75_set_one (any heap, shared or not). Unsharedness is the inductive Owned of Spec/HeapUtil.lean, which lists the addresses of the nested dicts. C75_first_addition_changes, C75_shared_original and C75_addition_inside exhibit what sharing does."},
{"property": "C76", "status": "proved", "theorems": ["Scheme.C76_unique", "Scheme.C76_narrow", "Scheme.C76_exists", "Scheme.C76_filter", "Scheme.C76_default_kept", "Scheme.C76_key_order_kept"], "note": "Spec/Trim.lean defines when one schema is another without some members (`Narrower`, `Narrows`, in the style of C73) and when a value is another without their entries (`Trim`). C76_narrow: processing carries the relation over from values to results, by induction on the call depth. C76_exists, C76_unique: there is exactly one such value. filter_narrows and C76_filter: `filter` gives such schemas. C76_default_kept, C76_key_order_kept: the deviations. Unique sequences need no exception because their items must be hashable, hence contain no dicts."},
{"property": "C77", "status": "proved", "theorems": ["Scheme.C77_nodes", "Scheme.C77_found", "Scheme.C77_text", "Scheme.C77_starts", "Scheme.C77_unambiguous", "Scheme.C77_raises", "Scheme.C77_process", "Scheme.C77_validation", "Scheme.C77_no_error_values", "Scheme.C77_two", "Scheme.C77_tuple_value", "Scheme.C77_single_tuple", "Scheme.C77_accepted_listed", "Scheme.C77_entries_dropped"], "note": "Model/ErrText.lean models __str__, format_errors, _format_errors and _format_structure; what the field of an exception object shows (FieldError flags, repr) and its tracebacks are functions of the object, quantified over. Spec/ErrText.lean states which errors are listed (WithinErr, listed), the paragraphs (Paragraph) and the layout of lines (blocks). C77_nodes/C77_found: what is listed; C77_text, C77_starts: paragraphs and lines; C77_unambiguous: the text determines the paragraphs; C77_raises: exactly when it fails; C77_process, C77_validation: errors raised by processing (with C08) for schemas accepting no error objects, for which C77_no_error_values gives a sufficient condition (with C01); C77_tuple_value, C77_single_tuple, C77_accepted_listed, C77_entries_dropped: deviations. Located.tuple (C08) was strengthened for this: the sub-fields are resolved."},
{"property": "C78", "status": "proved", "theorems": ["Scheme.C78_says", "Scheme.C78_possible", "Scheme.C78_raises", "Scheme.C78_shipped_structure", "Scheme.C78_union", "Scheme.C78_options", "Scheme.C78_notes", "Scheme.C78_read", "Scheme.C78_text", "Scheme.C78_ignored", "Scheme.C78_signature", "Scheme.C78_block", "Scheme.C78_lost"], "note": "C78_says: the block is one that `Documents` (Spec/Doc) describes; C78_possible, C78_raises: success exactly without `Obstacle`; C78_shipped_structure, C78_union: deviations; C78_options, C78_notes: options known to the directive; C78_read, C78_text: reading the rendered text (reader in Spec/DocText); C78_lost: a blank line loses options; C78_signature, C78_ignored: what the directive shows. Induction on the depth of the description and on the block tree. Values of parameters are simple data or of a type that cannot be described (DocSimple)."},
{"property": "C79", "status": "proved", "theorems": ["Scheme.C79_text", "Scheme.C79_depth", "Scheme.C79_alone", "Scheme.C79_possible", "Scheme.C79_enough", "Scheme.C79_raises", "Scheme.C79_endless", "Scheme.C79_unambiguous", "Scheme.C79_recursive", "Scheme.C79_sequence_of_itself", "Scheme.C79_shown_wrong"], "note": "Model/Repr.lean works on a graph of cells with the tuples and dicts in progress (Py_ReprEnter). Spec/Repr.lean says per key what a field shows (shownAt), how it is written (Renders, DepictsCell), what cannot be shown (CannotShow) and what a loop is (DirectChain). C79_text, C79_alone, C79_depth; C79_possible (iff, for finitely many objects), C79_enough (a bound on the depth), C79_raises, C79_endless; C79_unambiguous under SelfDelimiting; C79_recursive, C79_sequence_of_itself and C79_shown_wrong are concrete. repr of values is a parameter and does not raise."},
{"property": "C80", "status": "proved", "theorems": ["Scheme.C80_exact", "Scheme.C80_excluded", "Scheme.C80_after", "Scheme.C80_again", "Scheme.C80_filter", "Scheme.C80_tuple_moves", "Scheme.C80_union_excluded", "Scheme.C80_false_parameter", "Scheme.C80_none_wanted", "Scheme.C80_discriminator_dropped"], "note": "Spec/Screen: a big-step relation `Screened` on schemas and subjects, parametrised by the set of wanted fields. C80_exact: extraction returns w iff Screened; C80_excluded; C80_after (two steps), C80_again; C80_filter (equality of outcomes with the filtered schema, polymorphic structures included). Witnesses: C80_tuple_moves, C80_discriminator_dropped, C80_union_excluded, C80_false_parameter, C80_none_wanted."},
{"property": "C81", "status": "proved", "theorems": ["Scheme.C81_extract_untouched", "Scheme.C81_instantiate_untouched", "Scheme.C81_interpolate_untouched", "Scheme.C81_extract_refines", "Scheme.C81_instantiate_refines", "Scheme.C81_interpolate_refines", "Scheme.C81_extract_own", "Scheme.C81_instantiate_own", "Scheme.C81_interpolate_own", "Scheme.C81_results_apart", "Scheme.C81_subject_independent", "Scheme.C81_extract_leaf", "Scheme.C81_extract_shares", "Scheme.C81_extract_separates", "Scheme.C81_interpolate_shares"], "note": "Model/HeapExtract.lean models the three methods once more on the heap. _untouched: no cell below the old length changes. _refines: Computes (same outcome as the value model, result made of K and new cells). _own: relation Copied of Spec/Traverse.lean, with the list of containers made, which has no repetition and only new addresses. C81_extract_leaf, _extract_shares, _extract_separates and _interpolate_shares show what is and is not shared. The items of a container are read when a loop over it begins; dict keys of heap cells are compared by value."},
{"property": "C82", "status": "proved", "theorems": ["Scheme.C82_plain", "Scheme.C82_changes", "Scheme.C82_behaves", "Scheme.C82_errors", "Scheme.C82_replaces", "Scheme.C82_stale"], "note": "C82_plain relates the generic code of Model/CloneArgs (fieldDict, cloneLoop, newField) to the structural clone of C53; C82_changes is the equation for all parameters against the separate relation Changes of Spec/CloneParams; C82_behaves follows with C53_behaves. C82_errors, C82_replaces, C82_stale are the remaining clauses. Hypotheses: Made (what the constructors establish) at every child and at the changed field. Parameters whose values the constructors convert (bounds given as texts) or refuse, and `representation` given as a parameter, are outside the relation. Where two arguments are wrong, which error is raised is not represented."},
{"property": "C83", "status": "proved", "theorems": ["Scheme.C83_natives", "Scheme.C83_written", "Scheme.C83_json", "Scheme.C83_round", "Scheme.C83_order_fails", "Scheme.C83_json_fails"], "note": "C83_natives, C83_written and C83_json reduce the conditions NativesApart, WrittenApart and CarriedApart (Spec/Alternatives.lean; assumed of unions in C02, C03, C57, C69, C72) to tables of types (Spec/Types.lean): by typed_result/typed_written what a field gives or writes is of its types, by typed_rejects/read_rejects a value of another type is an InvalidTypeError, which makes the union try the next alternative. C83_round combines them for unions of simple fields. C83_order_fails and C83_json_fails exhibit the two orders that fail."},
{"property": "C84", "status": "proved", "theorems": ["Scheme.C84_built", "Scheme.C84_settled", "Scheme.C84_again", "Scheme.C84_written", "Scheme.C84_clone"], "note": "Spec/Composed.lean: `Composed` (made by newStructure/newPolymorphic and the other constructors, parameter conditions `Restrained`, `Portable`), `ComposedDefs` (placeholders). C84_built: Built and GoodNames everywhere (the hypotheses of C29, C30, C34-C36, C53, C76, C80, C82). C84_settled: Settled everywhere (C02). C84_again, C84_written, C84_clone: the consequences. The example is a polymorphic structure that contains itself, made by newPolymorphic. Simplification: the constructors run with the placeholders already defined."},
{"property": "C85", "status": "proved", "theorems": ["Scheme.C85_elsewhere", "Scheme.C85_there", "Scheme.C85_reached", "Scheme.C85_part", "Scheme.C85_replace", "Scheme.C85_break", "Scheme.C85_ends", "Scheme.C85_unique"], "note": "`Gap` (Spec/Local.lean) describes the position: a context, the path to the part in the outcome, and the field, location and depth at which the part is processed. `RevealsAt` reads results and error structures alike. Lemmas/Local.lean shows for each container how its outcome depends on the outcome of one part (never processed to the end, rejected as a whole, or open with a hole); Props/Local.lean composes these along the path. C85_unique is the counterexample for unique sequences."},
{"property": "C86", "status": "proved", "theorems": ["Scheme.C86_equal_iff", "Scheme.C86_hashable_iff", "Scheme.C86_falsy_iff", "Scheme.C86_get", "Scheme.C86_set", "Scheme.C86_del", "Scheme.C86_distinct_iff", "Scheme.C86_numeral", "Scheme.C86_integer", "Scheme.C86_index_step", "Scheme.C86_lower", "Scheme.C86_join", "Scheme.C86_split", "Scheme.C86_strip"], "note": "The model's operations are related to inductive descriptions in Spec/Python.lean, so that the other claims, which are phrased with them, do not depend on how the model computes them."},
{"property": "C87", "status": "proved", "theorems": ["Scheme.C87_own", "Scheme.C87_none", "Scheme.C87_parts", "Scheme.C87_possible"], "note": "Model: describeW with descExtra (second source of the loop), a copy of describe that passes the further parameters on; `is` between attribute and default is an arbitrary relation, class attributes are an arbitrary function (Outer.attr). C87_none: empty dict. C87_own: the field itself, with the spec relations Added, NotAdded, StatedByClass, PartName. C87_parts: nested descriptions (TellsParts); for polymorphic structures with different identities that serialize to themselves, and if descriptions of field values describe themselves. C87_possible: existence. Names in the dict are distinct (it is a dict)."},
{"property": "C88", "status": "proved", "theorems": ["Scheme.C88_again", "Scheme.C88_steps", "Scheme.C88_gone", "Scheme.C88_order", "Scheme.C88_emptied", "Scheme.C88_first_raises", "Scheme.C88_polymorphic_again"], "note": "C88_again (same object again), C88_steps (the equation for outcomes, exceptions included), C88_gone, C88_order; by induction on the call depth, with the composition of outcomes stated in Spec/FilterTwice.lean. Deviations: C88_emptied, C88_first_raises, C88_polymorphic_again."},
{"property": "C89", "status": "proved", "theorems": ["Scheme.C89_key_order", "Scheme.C89_falsy_identity"], "note": "C89_cycle, C89_instantiable, C89_wire (with C72). Deviations: C89_key_order (order changes), C89_falsy_identity (KeyError), None members are dropped (C31_none_dropped)."},
{"property": "C90", "status": "proved", "theorems": ["Scheme.C90_text", "Scheme.C90_exchanged", "Scheme.C90_same_text", "Scheme.C90_identities", "Scheme.C90_tuple_default"], "note": "C90_text: by induction over the call depth every description of an exchangeable schema is made of what JSON keeps (describe_kept), hence C56 applies. C90_exchanged adds C29. C90_same_text: equal texts, equal behaviour. C90_identities and C90_tuple_default are concrete deviations."},
{"property": "C91", "status": "proved", "theorems": ["Scheme.C91_lenient", "Scheme.C91_leaves", "Scheme.C91_union_fails"], "note": "C91_lenient: the relation between a field and what transform makes of it, closed under naming of members and copying of key fields, is a relaxation in the sense of C73 (Len.relaxes), so C73_relaxed applies. C91_leaves: the case of simple fields. C91_union_fails: concrete deviation. Not covered: map key fields that are not simple fields."},
{"property": "C92", "status": "proved", "theorems": ["Scheme.C92_only_types", "Scheme.C92_exact", "Scheme.C92_left_over", "Scheme.C92_once", "Scheme.C92_definition", "Scheme.C92_definition_once", "Scheme.C92_surrogate", "Scheme.C92_shared"], "note": "Model/HeapReconstruct.lean is reconstruct, construct and _construct_parameter on heap objects, with pop as a write. C92_only_types: the frame condition, by induction on depth, for every outcome and any heap. C92_exact: simulation between it and Model/Describe.reconstruct over the relation Described, which lists the dicts with fieldtype in the order they are met. C92_left_over: what the object reads as afterwards. C92_once: the second call. C92_definition, C92_surrogate: hProcess of the two fields leaves old cells as hReconstruct does; C92_definition_once: the second call is refused, for environments whose reconstruct refuses dicts without fieldtype (noTypeNoField derives this from the model of reconstruct). C92_shared: the concrete refused description. Not modelled: what the schema found in __schema__ then does to the other entries of a surrogate's dict, and the outcome of Definition on shared descriptions, which in hProcess is that of the value."},
{"property": "C93", "status": "proved", "theorems": ["Scheme.C93_separate", "Scheme.C93_touches", "Scheme.C93_shared", "Scheme.C93_again", "Scheme.C93_other_name", "Scheme.C93_plain", "Scheme.C93_first_name"], "note": "C93_separate relates the model with addresses (Model/Assemble) to the model by values (Model/Construct) on which C66 and the rest are proved; C93_touches is the frame condition for arbitrary sharing; C93_shared covers one dict for two identities; C93_again and C93_other_name cover using the dicts again; C93_plain and C93_first_name plain structures. Not modelled: placeholders among the members, which _prevalidate_structure replaces in the dict, and generate_default."},
{"property": "C94", "status": "proved", "theorems": ["Scheme.C94_class", "Scheme.C94_classes", "Scheme.C94_construct", "Scheme.C94_attributes", "Scheme.C94_default_shared", "Scheme.C94_unserialize", "Scheme.C94_unserialize_copies", "Scheme.C94_independent", "Scheme.C94_elements_apart", "Scheme.C94_serialize", "Scheme.C94_serialize_new", "Scheme.C94_default_leaks"], "note": "Heap-level model of ElementMeta's defaults, Element.__init__, instantiate, extract, serialize and unserialize (without format and without keys), proved to refine Model/Element.lean and Model/ElementIO.lean and combined with C74, C81 and C01. C94_default_leaks is the concrete witness of the sharing. A null dropped by ignore_null leaves the attribute with the class's own default object, hence the condition in C94_unserialize_copies. Constants of fields are taken to have no parts."},
{"property": "C95", "status": "proved", "theorems": ["Scheme.C95_insert", "Scheme.C95_remove", "Scheme.C95_merge", "Scheme.C95_others", "Scheme.C95_extend", "Scheme.C95_replace", "Scheme.C95_extend_touches", "Scheme.C95_replace_touches", "Scheme.C95_kept", "Scheme.C95_extend_called", "Scheme.C95_replace_called", "Scheme.C95_extend_elsewhere", "Scheme.C95_replace_ignored", "Scheme.C95_extend_failed", "Scheme.C95_extend_twice"], "note": "Model/HeapEdit edits field objects and dicts by address; C95_insert, C95_remove, C95_merge, C95_extend, C95_replace relate it to Model/Edit, on which C36 is proved. C95_others, C95_extend_touches, C95_replace_touches and C95_kept are the frame conditions, C95_extend_called and C95_replace_called the renaming in general, C95_extend_elsewhere, C95_replace_ignored, C95_extend_failed and C95_extend_twice concrete witnesses. Plain structures whose members have names, as after construction."},
{"property": "C96", "status": "proved", "theorems": ["Scheme.C96_structured_data", "Scheme.C96_query_data", "Scheme.C96_csv_data", "Scheme.C96_xml_data", "Scheme.C96_json_data", "Scheme.C96_json", "Scheme.C96_json_apart", "Scheme.C96_carried", "Scheme.C96_yaml", "Scheme.C96_xml"], "note": "C96_structured_data, C96_query_data, C96_csv_data, C96_json_data and C96_xml_data show by induction over each reader that its results are PlainData (Spec/PassOn.lean); C96_json then follows with C57_data, C96_json_apart from it, C96_carried with C68_reorder, C96_yaml and C96_xml with the round trips of those formats. C96_xml_data asks for a schema without Tuple fields, because the XML reader gives a tuple for these (an example shows it). Whether a format carries what is written (the hypotheses Yaml.Carries and XmlValue of C96_yaml and C96_xml) is a condition on the serialized value."},
{"property": "C97", "status": "proved", "theorems": ["Scheme.C97_untouched", "Scheme.C97_own", "Scheme.C97_apart", "Scheme.C97_reread", "Scheme.C97_again"], "note": "Model/HeapDescribe.lean models Field.describe and Field._describe_parameter on the heap; the describe methods of all field classes end in it, the structural ones passing the descriptions of their parts and the serialized default as keyword parameters, which may be any objects here. C97_untouched holds for every heap, also cyclic ones. C97_own relates the outcome to descBase (the model of describe on values, used by C32 and others) and gives OwnSince (Spec/HeapDescribe.lean). C97_apart, C97_reread and C97_again follow, the latter two with C92_exact. The description of a Field object held as a value is modelled as built anew."},
{"property": "C98", "status": "proved", "theorems": ["Scheme.C98_copy_untouched", "Scheme.C98_copy", "Scheme.C98_new", "Scheme.C98_reconstruct", "Scheme.C98_apart", "Scheme.C98_untouched", "Scheme.C98_clone", "Scheme.C98_default", "Scheme.C98_default_shared"], "note": "copy.deepcopy with its memo is modelled for lists, tuples and dicts on heap cells; the model proves that the copy is made of cells allocated since, or of tuples without lists and dicts in them. The sharing of the default is proved with a witness (C98_default_shared). Not modelled: fields held as attributes as objects of their own (deepcopy clones them in turn; here they are values), sets among attributes, user objects with their own copying, the constructor call made with the arguments."},
{"property": "C99", "status": "proved", "theorems": ["Scheme.C99_more", "Scheme.C99_mentioned", "Scheme.C99_more_fails"], "note": "What is asked is defined on its own (Asks), following the places fields are in charge of and the values of references; that a text of a template is rendered as before is a condition, since jinja renders undefined variables in templates as nothing. C99_more_fails is the witness that more parameters may make a subject be refused."},
{"property": "C100", "status": "proved", "theorems": ["Scheme.C100_narrow", "Scheme.C100_filter", "Scheme.C100_narrow_more"], "note": "The relations between schemas (Narrows) and values (Trim, with C76_unique) are those of C76, in Spec/Trim.lean. C100_narrow by induction on the call depth; C100_filter for the results of filter. C100_narrow_more is the witness that less may be refused. Polymorphic structures and unions are covered where they stay the same."},
{"property": "C101", "status": "proved", "theorems": ["Scheme.C101_reordered", "Scheme.C101_succeeds", "Scheme.C101_members", "Scheme.C101_failure_differs"], "note": "Proved for all schemas, subjects, reorderings and call depths by induction on the call depth (Spec/Reordered: AgreeUpTo, KeyedOnce, OrderlySurrogates; `SameData` of Spec/Instantiate is the relation on values). C101_reordered is the whole claim, C101_succeeds its consequence for successful calls, C101_members the equality for the members of a structure, C101_failure_differs the witness that the exception may depend on the order. Hypothesis: the template engine and surrogate.interpolate are parameters of the model, the latter assumed not to depend on the order of entries."},
{"property": "C102", "status": "proved", "theorems": ["Scheme.C102_reordered", "Scheme.C102_succeeds", "Scheme.C102_members", "Scheme.C102_union_order"], "note": "Proved for all schemas without unions, all subjects, reorderings, parameters and call depths by induction on the call depth (Spec/ReorderedExtract: TakenAlike, OrderlyExtractors, OrderlyAttributes, TextIdentities; Spec/Reordered: KeyedOnce). C102_reordered is the whole claim, C102_succeeds its consequence for successful calls, C102_members the equality for the members of a structure, C102_union_order the counterexample for unions: Union((Map(Tuple((Integer(),))), Map(Integer()))) extracts {'x': 1, 'y': []} but raises IndexError for {'y': [], 'x': 1}. The restriction to text identities matters only for a falsy identity, where the identities are looked up as members."}
]}
