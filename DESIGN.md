# Design of the formal model of jordanm/scheme

## Trusted base
* Lean 4.33.0's kernel. Every theorem is kernel-checked and replayed by the gate.
* Axioms: Lean's standard `propext`, `Classical.choice`, `Quot.sound` only (the list per theorem is at the end). No user
  axiom, no `sorry`, no `native_decide`, no `bv_decide`, no `implemented_by`, no `unsafe`.
* The definitions under `lean/Verif/Model`: the theorems speak about these, so their fidelity to the Python text in
  `/repo/scheme` is trusted. Each definition cites the file and lines it mirrors and states its simplifications.
* The definitions under `lean/Verif/Spec`: they say what the properties mean. They do not use the functions of the model
  that the property is about.
* The Python semantics assumed is CPython 3.7/3.8 (insertion ordered dicts; the code imports `xml.etree.cElementTree`,
  which was removed in 3.9).

## Method
* `Verif/Model/*`: total, computable functions mirroring the Python functions branch by branch; exceptions are values
  (`Except Exn`). Recursion through schemas is open recursion with fuel: the fuel is the Python call depth, and running
  out of it is Python's `RecursionError`. Theorems hold for every amount of fuel, and C27 says how much is enough.
* `Verif/Spec/*`: small independent specifications (grammars, conformance relations, calendars, readers).
* `Verif/Lemmas/*`: helper lemmas. `Verif/Props/*`: the property theorems `Cnn_…`, with `example`s that meet their
  hypotheses in a case that is not trivial.
* A property that turned out to be false of the code was restated so that it says what the code does, and the deviation is
  proved as a separate theorem with a concrete witness (named `…_counterexample`, `…_lost` or after the deviation). The
  original wording is kept below under "Statements that were refined".
* `seeded/LOG.jsonl`: wrong programs tried against the theorems.

## What is modelled, module by module
| Lean module | Python | contents |
|---|---|---|
| Val, Str, Re | (CPython) | values, `str` methods, `int()`, anchored regular expressions; non-ASCII character tables are a parameter `Chars` |
| Codec | (CPython) | `base64`, `decimal.Decimal(text)` and `str`, `strptime`/`strftime` for the formats used |
| Field | field.py, fields/*.py | field objects: common parameters, leaf kinds, structural kinds, placeholders; the environment `Env` |
| Init | fields/*.py | constructors, as far as they transform their arguments |
| Errors | exceptions.py | StructuralError: attach, append, serialize, unserialize, format |
| Process | field.py:425-475, fields/*.py | `process`, validation, value conversion of every field class |
| Extract | field.py, fields/*.py | `extract`, `instantiate`, `screen` |
| Filter | field.py, fields/*.py | `filter`, `transform` |
| Edit | fields/structure.py | insert, merge, remove, replace, generated defaults |
| Interpolate | interpolation.py, field.py, fields/*.py | `interpolate`, `VARIABLE_EXPR`; the template engine is a parameter |
| Describe | field.py, fields/*.py | `describe`, `reconstruct` |
| Visit | field.py:523-533, 612-614, fields/*.py | `visit`; callbacks are arbitrary functions with state |
| Clone | field.py | `clone` |
| CloneArgs | field.py:250-265, all constructors | `clone(**params)`: `__dict__` of every field class, the loop that copies attributes and drops those whose copy raises TypeError, the constructors called with callables, patterns, aspects and errors among their arguments |
| Undefined | field.py | placeholders and their holders as a state machine |
| FieldMeta | field.py | the metaclass: registry, error tables, parameter tables |
| Element | element.py | the metaclass and instances |
| ElementIO | element.py:118-124 | `serialize` and `unserialize` of Elements |
| Surrogate | surrogate.py, fields/surrogate.py | versions, construct, serialize, unserialize, interpolate |
| Format | format.py | the registry |
| FieldFormat | field.py:495-523 | `Field.serialize`/`unserialize` with a format |
| Files | format.py:35-58, 68-85; field.py:477-482, 535-540 | `Format.read`/`write`, `Field.read`/`write` over a map from paths to texts; permissions, directories, encodings and partial writes are not modelled |
| FieldCsv | formats/csv.py:16-124 | CSV as a format of fields |
| StructuredText, UrlEncoded, Csv, Xml, Yaml, Json | formats/*.py | the formats, with the parts of `urllib`, `csv`, `xml.etree`, `json` used (JSON: lone surrogates and the recursion limit are not represented) |
| Formatter | util.py:23-38, 152-232 | `format_structure`; `repr` is a parameter, surrogates are written by repr |
| Timezone | timezone.py:1-75 | both zone classes, `timedelta` and wall clocks as counts of microseconds, `astimezone`/`fromutc` of CPython, the proleptic calendar; `mktime`/`localtime` are a parameter (`Clock.isdst`) |
| Construct | structure.py:64-113, 557-574 | `Structure.__init__`: `'*'` members, generated and given discriminators, `key_order`, `generate_default`; dicts given by the caller are not shared (see Assemble) |
| Assemble | structure.py:64-113, 557-574 | `Structure.__init__` on the caller's objects: fields, dicts of members and of variants by address, any sharing; no placeholders among the members, no `generate_default` |
| DescribeWith | field.py:276-325, `describe` in fields/*.py | `describe(parameters, verbose)`; class attributes and object identity are parameters |
| Access | structure.py:125-142, 271-272, tuple.py:119-123, field.py:384-388 | `has_required_fields`, `polymorphic`, `get` |
| Import | util.py:46-104 | `import_object` and `identify_object` with its cache; `__import__`, `getattr`, `inspect.getmodule` and `==` are parameters |
| Heap | field.py:418-475, fields/*.py | `process` of every field as code on a heap: objects created, written to, handed out |
| HeapEdit | structure.py:170-182, 274-289, 340-357, 450-479, field.py:250-265 | the editing methods of plain structures on field objects and dicts known by their addresses, so that they may be shared |
| HeapElement | element.py:24-39, 72-124, structure.py:251-269, 534-543 | element classes and instances on heap objects: the `__dict__` by address, attributes and class defaults as objects; no formats, no keys, constants without parts |
| HeapDescribe | field.py:276-325, 558-572 | `describe` and `_describe_parameter` on heap objects: what a description is put together from |
| HeapClone | field.py:250-263, surrogate.py:162 | `copy.deepcopy` of lists, tuples and dicts with its memo, and the arguments `clone` makes a field of, on heap objects |
| HeapReconstruct | field.py:60-83, 268-275, 543-556, definition.py:45-50, surrogate.py:186-191 | `Field.reconstruct` on heap objects, popping `fieldtype` from the caller's dicts |
| HeapUtil | util.py:142-149, 234-262 | recursive_merge, set_nested_value, traverse_to_key on the heap |
| HeapExtract | field.py:327-416, fields/*.py, interpolation.py:60-89, util.py:40-44 | `extract`, `instantiate` and `interpolate` of every field as code on a heap |
| Doc | doc/generator.py, doc/domain.py:124-243 | `_document_field` and the `_describe_*` methods on descriptions, `directive.render`, the nodes the directives build; `_collate_fields` (which the shipped class lacks), `repr`, `textwrap.wrap` are parameters; docutils' parser is represented by a reader in Spec/DocText (options end at the first blank line) |
| ErrText | exceptions.py:72-102, 133-166, util.py:106-118 | `format_errors`, `str(error)`; `repr` of fields is a parameter |
| Repr | field.py:214-233, `__repr__` in fields/*.py | field objects as a graph, so that cycles and CPython's `Py_ReprEnter` are represented; `repr` of values is a parameter and does not raise |
| Util | util.py | recursive_merge, get/set of nested values, string helpers |

## Assumptions and simplifications that concern several properties
* Lean's `Char` has no surrogate code points; texts with lone surrogates are not represented.
* `str.lower` maps character by character (the final sigma rule is ignored). Laws assumed of the non-ASCII tables are
  explicit hypotheses (`Chars` laws) of the theorems that need them.
* Values are trees: aliasing between parts of a value, cyclic values and mutation by user callbacks are not represented.
  Where a property is about sharing (C27, C28, C29, C45) the model has explicit identities or states. C74 and C75 justify
  this for `process`, `extract`, `instantiate`, `interpolate` and for the helpers on nested dicts: there the same code is modelled once more on a heap of mutable
  cells (Heap, HeapReconstruct, HeapDescribe, HeapClone, HeapUtil, HeapExtract, HeapElement, HeapEdit) and proved to agree with the model on trees.
* `dict` keys are compared with Python's `==` on the modelled values (`1 == True == 1.0`), lookups of unhashable keys raise
  `TypeError`. Sets are not represented.
* Floats are exact rationals, two infinities and nan (`PyFloat`; rounding happens only in the operations of `Env`); `str(float)`/`float(str)` are parameters, laws needed are
  hypotheses.
* In the fields, `astimezone` is a function of the environment; laws are hypotheses (`ZoneLaw`). The module Timezone models it; C63_field_round_trip is about an environment with that function. What the C library says about daylight saving time, zones without offset as source, and `tzinfo` classes of others are parameters. `current_timestamp` (the current time) is not modelled.
* Preprocessors, instantiators, extractors, transformers, template engines are arbitrary functions of their arguments (they
  may raise); they cannot keep state or mutate their arguments.
* A structure member that is defined late through a placeholder keeps the name given in its definition.
* Nested errors do not change after they were attached to their parent.
* Conversions that fail inside `interpolate` are all reported as `ValueError`.
* Structured text and YAML: dicts have text keys. UTF-8 decoding with 'replace' gives one replacement character per
  ill-formed byte. XML: the reader covers the documents that the writer produces. YAML: PyYAML's `load` is replaced by a
  conservative reader in `Spec/Yaml.lean` (trusted: where it gives a result, PyYAML gives the same); `TextWrapper`, used
  for texts over 100 characters, and what `float` makes of a text (`Yaml.Floats`) are parameters.
* CSV: the writer and the reader of CPython's `csv` for the dialect used, including the field size limit; the `print`
  statement in the reader is ignored.
* Class statements have one base (formats, elements); a class statement that raises ends the modelled program.
* Surrogates: `contribute` is the inherited no-op; the cache of implementations is invisible; describe/reconstruct of
  dynamic schemas are parameters; a surrogate value is a dict subclass only for Surrogate fields.
* `describe` is modelled with `parameters=None` (module Describe) and with additional parameters (DescribeWith, C87); the claims about reconstruction and documentation are about the former. Instantiator and extractor are lost by it (stated in C29).

## Not modelled
The Sphinx registration and `format_value` in doc/domain.py, the traceback texts `capture` stores, file permissions and directories, `current_timestamp`,
the Python 2 branches.


## Per property

### C01 Accepted values conform to the schema (proved)

Whenever process() returns a value for an inbound candidate (native or serialized), that value conforms to the schema: every leaf has the field's native type and satisfies its bounds, lengths, pattern or enumeration; every sequence/tuple/map/structure has the declared shape; required keys are present; strict structures hold no undeclared key; None appears only where nonnull is not set (or comes out of a preprocessor or an imported Object). 'Required' means: named in key_order if there is one, and not ignore_null, since a required member given as None with ignore_null is dropped and accepted; both gaps are exhibited. The same holds for native outbound processing.

*Modelled and proved:* C01_conforms: every field type, any nesting, recursive schemas (placeholders), any candidate, inbound native or serialized and outbound native. Conformance is the inductive Spec/Conforms.lean. Needs only that conversion to a zone yields a datetime of that zone (ZoneLaw). The exceptions in the statement are exhibited by the three other theorems.

*In* `Props/Conformance.lean`:
* `C01_conforms`: C01. Whatever inbound (or native outbound) processing returns conforms to the schema: leaves have the native type and satisfy the bounds, lengths, pattern, enumeration and constant of their field; containers have the declared shape; required and defaulted members are there; nothing undeclared is; None only where allowed.
* `C01_preprocessor_may_give_null`: Why the null clause has exceptions: what a preprocessor returns is not checked for null again.
* `C01_required_null_dropped`: Why `MustAppear` excludes `ignore_null`: a required member given as None is dropped, and accepted.
* `C01_key_order_hides_required`: Why only `visited` members must appear: a required member left out of `key_order` is not looked for.

### C02 Processing a native result again changes nothing (proved)

For a schema without preprocessors, whose unions have alternatives that can be told apart by native values (what one of them makes of a value the ones before it rejected, they reject as well; see C83), and without the combinations shown to fail: ignore_null with a default, with required or with ignored enumeration values, a Text constant that stripping changes, a DateTime constant, a non-null Object, feeding the native value returned by inbound processing back through inbound processing returns exactly the same value (stripping, lower-casing, defaults and null-dropping are all applied once and for all). Each excluded combination is exhibited failing.

*Modelled and proved:* For every schema (recursive ones included) satisfying Settled everywhere, every candidate, flag and depth: a result of inbound processing is a fixed point of native inbound processing at the same depth. Law assumed: astimezone returns the zone asked for, str.lower is idempotent on non-ASCII and yields no separators. Each excluded combination has a counterexample theorem.

*In* `Props/Idempotence.lean`:
* `C02_idempotent`: C02. A native value that came out of inbound processing, whether of native or of serialized data, goes through native inbound processing unchanged, at no greater depth.
* `C02_union_fails`: Union: the first pass strips the text, and the second takes it for an ignored enumeration value.
* `C02_ignored_null_default_fails`: `ignore_null` with a default: a null is dropped first, and the default fills the gap at the second pass.
* `C02_ignored_null_required_fails`: `ignore_null` with `required`: a null is dropped first, and missing at the second pass.
* `C02_ignored_value_fails`: An ignored enumeration value becomes a null, which the second pass drops.
* `C02_text_constant_fails`: A constant that stripping changes is only matched by the unstripped value.
* `C02_datetime_constant_fails`: A constant given without a zone is matched by the same time without a zone only, and the result has one.
* `C02_preprocessor_fails`: A preprocessor runs at every pass.
* `C02_object_fails`: A preprocessor aside, only an Object can turn something into None; a non-null one then rejects it.

### C03 Serialize then unserialize is native inbound processing (proved)

If serialize(v) succeeds then unserialize of the result succeeds exactly when native inbound processing of v does, and gives the same value: same leaves (text stripped, dates, times, decimals, binary, integers decoded back), same containers, defaults filled in. In particular a value accepted by inbound processing comes back from serialize/unserialize exactly. This holds for values made of faithfully serialized parts; outside it are unions whose alternatives cannot be told apart by what is written (see C83), preprocessors, members absent whose default means something else read as serialized, a datetime given to a Date, times with microseconds, years below 1000 where strftime does not pad, non-null Object, Definition, Error and Surrogate values, and map keys that become equal when serialized. Such a union, defaults, datetimes in Date, microseconds and collapsing keys are exhibited failing.

*Modelled and proved:* For every schema, value and depth where every (field, value) pair visited by the outbound call satisfies Faithful: unserialize(serialize(v)) = w iff native inbound processing of v gives w; corollary: accepted values come back exactly. Law assumed: astimezone returns the zone asked for. Excluded combinations have counterexample theorems (C03_*_fails, C03_microseconds_fail, C03_keys_collapse).

*In* `Props/RoundTrip.lean`:
* `C03_serialize_unserialize`: C03. If `v` serializes to `s`, then reading `s` back does what native inbound processing of `v` does: it gives the same value or, when that is rejected, is rejected.
* `C03_round_trip`: C03. A value accepted once survives being serialized and read back unchanged.
* `C03_union_fails`: A union reads the text written by its second field with its first.
* `C03_default_fails`: A default is taken for a serialized value when serialized data is read: the two bytes of a Binary default are decoded, or fail to.
* `C03_datetime_in_date_fails`: A Date field serializes only the date of a datetime.
* `C03_microseconds_fail`: Times lose their microseconds.
* `C03_keys_collapse`: Map keys that only differ in white space become one.

### C04 Null handling (proved)

process(None) returns None for every field type when nonnull is unset and raises a ValidationError with exactly the token 'nonnull' located at the field when it is set; no preprocessor, constant, codec or validator is consulted. An Enumeration treats each of its ignored_values exactly as None.

*Modelled and proved:* all field types, phases and modes

*In* `Props/Null.lean`:
* `C04_null_accepted`: C04. `None` is returned as it is by every field type that is not `nonnull`, in either phase, in either mode, whatever the preprocessor, constant or other parameters are.
* `C04_null_rejected`: C04. `None` is rejected by every `nonnull` field type with a ValidationError located at the field whose only token is 'nonnull'.
* `C04_null_rejected_root`: C04, location when no ancestry is given: the field's own name, or its type in parentheses.
* `C04_ignored_as_null`: C04. An Enumeration treats each of its ignored values exactly as `None`.

### C05 Structure key set (proved)

A successful Structure.process of a dict returns exactly these keys: each declared key that was given (unless its field has ignore_null and the value is None), plus, inbound and non-partial, each absent declared key whose field has a non-None default; each with the value its field's processing gives to the given value or the default. Outbound never fills defaults. Undeclared keys never survive.

*Modelled and proved:* exact characterisation of acceptance and of the result for every structure without preprocessor; C05_required_key_dropped_counterexample shows the one way a required key may be missing from an accepted result (required + ignore_null + None)

*In* `Props/Structure.lean`:
* `C05_structure_accepts_iff`: C05. Exactly when, and with what result, a structure accepts a dict: in strict mode every key is declared; each member has no required-but-missing problem and its slot of the result is empty if it has no input (see `memberInput`: the given value unless a null to be ignored, else inbound the default), or else holds what processing the input gives; the result lists the filled slots, in visiting order, and nothing else.
* `C05_key_set`: C05. The keys of an accepted result, spelled out.
* `C05_required_key_dropped_counterexample`: C05, deviation: a required member that ignores nulls may be dropped from an accepted result.
* `C05_not_a_structure`: Anything but a dict or null is a type error.

### C06 Structure fails exactly when some key is bad (proved)

Structure.process of a dict raises a validation error if and only if some given (or defaulted) declared key fails its field, or a required declared key is absent with no usable default (non-partial), or strict is set and an undeclared key is given.

*Modelled and proved:* failure iff some member fails, a required member is missing or an undeclared key is given in strict mode

*In* `Props/Structure.lean`:
* `C06_structure_fails_iff`: C06. With members that raise only structural errors, processing a dict either succeeds or raises a ValidationError at the structure, and it raises iff some member with an input fails on it, or a required member is missing, or strict mode meets an undeclared key.

### C07 Every failure is reported, not just the first (proved)

When a Structure, Sequence, Tuple or Map fails because of children, the error raised carries a structure with an entry for every child: the child's own error where it failed, the child's processed value where it succeeded; required and unknown keys each get their own entry.

*Modelled and proved:* the complete error report of sequences, tuples, maps and structures: one error per failing part, in order

*In* `Props/Map.lean`, `Props/Sequence.lean`, `Props/Structure.lean`, `Props/Tuple.lean`:
* `C07_map_report`: C07/C11 for maps. If every key is accepted (with pairwise different results) but some value fails or some required key is missing, the error raised sits at the map and its structure holds, in order, for every entry the value's own error object or its processed value, then for each missing required key (and only for those) a 'required' error located at the map.
* `C07_sequence_report`: C07 for sequences. If some item fails, and all failures are structural errors, the error raised sits at the sequence, has no entry of its own, and lists for every position the item's own error object or its processed value, in order.
* `C07_structure_report`: C07 for structures. If something is wrong with a dict, and all failures of members are structural errors, then the error raised sits at the structure, has no entry of its own, and its structure holds, for each member in visiting order, its processed value, its own error object, or a 'required' error located at the structure, and then one 'unknown' error for each undeclared key in strict mode.
* `C07_tuple_report`: C07 for tuples: see `C07_sequence_report`.

### C08 Error locations are the path to the value (proved)

Every error nested in the error raised by process() has an identity that is its parent's identity extended by exactly one step, '.name' for structure members, '[i]' for sequence and tuple items and '[key]' for map items; the outermost identity is the caller's ancestry or the field's own name. 'required' and 'unknown' errors sit at the structure itself. Deviations, each exhibited: a bad discriminator's error is raised on its own at '.name' in place of the structure's error; serializing an Object without import path reports '(unknown)'. Errors raised inside describe() of a field value or by a surrogate keep the location those gave them.

*Modelled and proved:* For every schema, value, phase, flag, ancestry and depth: the error raised satisfies Located, an inductive description of the whole error tree (own errors at the field's path, nested ones one step deeper, required/unknown at the structure). C08_identity gives the outermost identity; the two deviations are exhibited (C08_discriminator_identity, C08_object_identity).

*In* `Props/Locations.lean`:
* `C08_locations`: every structural error raised by processing, and every error nested in it, is located at the path of the value it is about.
* `C08_subset_locations`: The same for `process(..., partial=True)`.
* `C08_identity`: The error itself is located where the field was called, or at the field's own name.
* `C08_union_identity`: A union of such fields also stays where it was called.
* `C08_discriminator_identity`: A bad discriminator is reported at the discriminator itself, not inside an error of the structure.
* `C08_object_identity`: An object that cannot be serialized is reported without its location.

### C09 Sequence length, order and uniqueness (proved)

Sequence.process of a list returns a list of the same length whose i-th element is the item field's result on the i-th input; it succeeds only if min_length <= len <= max_length (both inclusive) and, when unique is set, no two results are equal; violations give tokens min_length, max_length, duplicate. A non-list is an InvalidTypeError.

*Modelled and proved:* C09_unhashable_counterexample: unique sequences raise TypeError on unhashable items

*In* `Props/Sequence.lean`:
* `C09_sequence_accepts_iff`: C09. Exactly when, and with what result, a sequence accepts a list: the length bounds hold (inclusively), every element is accepted by the item field, the result lists the item results in order, and with `unique` all results are hashable and pairwise different.
* `C09_min_length`: C09. Too short a list is reported as 'min_length', whatever its items are.
* `C09_max_length`: C09. Too long a list is reported as 'max_length', whatever its items are.
* `C09_not_a_list`: C09. Anything that is neither a list nor null is rejected as a type error.
* `C09_duplicate`: C09. With `unique`, two equal results among accepted items are reported as 'duplicate'.
* `C09_unhashable_counterexample`: C09/C26. With `unique`, an accepted but unhashable item makes the code raise a raw TypeError.

### C10 Tuple arity and positions (proved)

Tuple.process accepts a list or tuple of exactly the declared arity and returns a tuple whose i-th element is the i-th field's result on the i-th input; any other length gives token 'length', any other type InvalidTypeError.

*In* `Props/Tuple.lean`:
* `C10_tuple_accepts_iff`: C10. Exactly when, and with what result, a tuple field accepts a list or tuple: the length is the number of declared fields, and the result is the tuple of the fields' results, position by position.
* `C10_length`: C10. A list or tuple of any other length is reported as 'length'.
* `C10_not_a_tuple`: C10. Anything else but null is a type error.

### C11 Map keys and required keys (proved)

Map.process applies the key field to each key (or demands text keys) and the value field to each value; any bad key rejects the whole map with 'invalidkeys'; every required key missing from the processed keys is reported 'required'; on success with distinct processed keys the result has exactly one entry per input entry.

*Modelled and proved:* C11_collapsing_keys: distinct given keys may be processed to one key, the last wins

*In* `Props/Map.lean`:
* `C11_map_accepts_iff`: C11. Exactly when, and with what result, a map accepts a dict: every key is accepted and hashable after processing, every value is accepted by the value field at the location of its processed key, and every required key is among the processed keys. The result is what assigning the processed entries one after the other to an empty dict gives.
* `C11_map_entries`: C11. When the processed keys are pairwise different, the accepted result has exactly one entry per input entry, in order.
* `C11_collapsing_keys`: C11. Keys that processing makes equal collapse into one entry holding the later value.
* `C11_invalidkeys`: C11. The first rejected key rejects the whole map with 'invalidkeys'.
* `C11_not_a_map`: C11. Anything but a dict or null is a type error.

### C12 Union takes the first member that does not reject the type (proved)

Union.process behaves exactly as the first member field (in declaration order) whose processing does not raise InvalidTypeError, including raising that member's ValidationError; if every member raises InvalidTypeError so does the union, with token 'invalid'.

*In* `Props/Union.lean`:
* `C12_union_first`: C12. A union behaves exactly as its first member that does not reject the value's type, result or exception.
* `C12_union_none`: C12. If every member rejects the type, so does the union, with the single token 'invalid'.
* `C12_validation_error_is_final`: C12. A member's ValidationError is final: later members are not tried, even if they accept.

### C13 Polymorphic dispatch (proved)

A polymorphic structure processes a value against the variant selected by the (processed) discriminator: absent or None discriminator gives 'required', an unrecognised one 'unrecognized', otherwise the result is that of a plain structure with that variant's fields; the discriminator in the result is the variant's identity.

*Modelled and proved:* structures without preprocessor, as in C05; the raw error of the discriminator passes through unwrapped

*In* `Props/Poly.lean`:
* `C13_dispatch`: C13. A dict whose discriminator is given, accepted by the discriminator field with result `id`, and the identity of a (non-empty) variant, is processed exactly as by the plain structure with that variant's members: same results, same errors.
* `C13_required`: C13. An absent or null discriminator is reported as 'required' at the structure.
* `C13_unrecognized`: C13. An accepted discriminator that is the identity of no variant is reported as 'unrecognized'.
* `C13_discriminator_error`: C13. A rejected discriminator: its error is raised as it is, not wrapped in an error of the structure.
* `C13_identity_in_result`: C13. In an accepted result the discriminator holds the selected variant's identity (the variant's members contain the discriminator with a constant, as the constructor arranges).

### C14 Partial processing (proved)

With partial=True absent keys are neither defaulted nor required, and every given key is treated exactly as without partial.

*Modelled and proved:* partial processing equals processing against the structure reduced to the given members

*In* `Props/Poly.lean`:
* `C14_partial`: C14. Partial processing of a dict is exactly processing it against the structure reduced to the members that are given: absent members are neither required nor defaulted, given members are treated as ever, and undeclared keys are still unknown.
* `C14_partial_complete`: C14. When all declared members are given, partial makes no difference.
* `C14_partial_poly`: C14 for polymorphic structures: partial processing dispatches as ever, then is partial in the selected variant.

### C15 Integer field (proved)

A native value is accepted iff it is an int other than True/False with minimum <= v <= maximum, and is returned unchanged; serialized, a value is accepted iff int() makes of it an integer within the bounds (and equal to the constant): texts and ASCII bytes in decimal notation with optional sign, surrounding whitespace and single underscores between digits, and also floats and decimals, whose fractional part is silently dropped; booleans are rejected in both modes; type failures are InvalidTypeError, bound failures carry 'minimum'/'maximum'.

*Modelled and proved:* Native: exact acceptance (C15_accept and relatives). Serialized: C15_read is an equivalence with the specification IntOf of Spec/IntText.lean, which covers texts, bytes, floats, decimals and integers; so 2.9 and Decimal("2.9") are read as 2.

*In* `Props/Integer.lean`:
* `C15_native_iff`: C15. Native values: accepted iff an `int` (not a `bool`) within the inclusive bounds and equal to the constant if there is one; returned unchanged.
* `C15_serialize`: C15. Serialized output is the integer itself.
* `C15_text`: C15. Serialized decimal text, with any whitespace around and an optional sign, is treated exactly as the integer it spells (leading zeros allowed).
* `C15_bool_rejected`: C15. Booleans are rejected natively and serialized, with an InvalidTypeError.
* `C15_type_rejected`: C15. A native value that is not an integer is an InvalidTypeError with token 'invalid'.
* `C15_minimum`: C15. An integer below the minimum is a ValidationError with token 'minimum'.
* `C15_maximum`: C15. An integer above the maximum is a ValidationError with token 'maximum'.
* `C15_read`: C15. Serialized values: accepted iff `int()` makes an integer of them that is within the bounds and equal to the constant, if there is one. Texts and ASCII bytes are read in decimal notation, with single underscores between digits; the fractional parts of floats and decimals are dropped; booleans, infinities and everything else are rejected.

### C16 Date text codec (proved)

The serialized form of a date with a four-digit year is YYYY-MM-DD, and unserializing it returns the same date; every accepted text denotes a real calendar date. For years below 1000 on platforms whose strftime does not pad %Y the round trip fails.

*Modelled and proved:* grammar iff for all texts, round trip for four-digit years; C16_unpadded_counterexample: years below 1000 are written unpadded where strftime does not pad and do not read back; C16_datetime_counterexample: a datetime is accepted as a date and raises TypeError against bounds

*In* `Props/DateTime.lean`:
* `C16_native_iff`: C16. Native dates: accepted iff within the inclusive bounds, returned unchanged. A datetime is accepted as well (`isinstance(datetime, date)`), but only by a field without bounds.
* `C16_text_iff`: C16. Serialized text: accepted iff it spells an existing day (four digit year, month, day), within the bounds; the result is that day.
* `C16_bad_text`: C16. Any other text, and anything that is neither text nor a date, is an InvalidTypeError.
* `C16_serialize`: C16. The serialized form is YYYY-MM-DD.
* `C16_round_trip`: C16. Unserializing the serialized form is processing the date itself.
* `C16_bounds`: C16. A date before the minimum or after the maximum is a ValidationError with the bound's token.
* `C16_unpadded_counterexample`: C16, the failing part: on a platform whose strftime does not pad, a date of year 999 is serialized to a text that the same field rejects.
* `C16_datetime_counterexample`: C16, deviation: a bounded date field raises a bare TypeError for a datetime.

### C17 Time text codec (proved)

The serialized form of a time is HH:MM:SS and unserializing it returns the same time with the microseconds dropped; bounds are inclusive.

*In* `Props/DateTime.lean`:
* `C17_native_iff`: C17. Native times: accepted iff within the inclusive bounds, returned unchanged.
* `C17_text_iff`: C17. Serialized text: accepted iff it spells an existing time of day, within the bounds.
* `C17_bad_text`: C17. Any other text, and anything that is neither text nor a time, is an InvalidTypeError.
* `C17_serialize`: C17. The serialized form is HH:MM:SS.
* `C17_round_trip`: C17. Unserializing the serialized form is processing the time without its microseconds.
* `C17_bounds`: C17. A time before the minimum or after the maximum is a ValidationError with the bound's token.

### C18 DateTime text codec and zone normalisation (proved)

A validated datetime always carries the field's own zone; the serialized form is the UTC wall clock YYYY-MM-DDTHH:MM:SSZ; unserializing it gives the same instant in the field's zone with microseconds dropped.

*Modelled and proved:* zone conversion is a parameter; ZoneLaw says that a converted datetime carries the requested zone, and the round trips assume that converting this value to UTC and back restores it (false only for wall clocks skipped by a DST change)

*In* `Props/DateTime.lean`:
* `C18_native_iff`: C18. Native datetimes: the result is the same instant in the field's zone, and lies within the inclusive bounds.
* `C18_zone`: C18. A validated datetime always carries the field's own zone.
* `C18_text`: C18. Serialized text: accepted text spells a UTC wall clock; it is processed as that datetime.
* `C18_bad_text`: C18. Any other text, and anything that is neither text nor a datetime, is an InvalidTypeError.
* `C18_serialize`: C18. The serialized form is the UTC wall clock YYYY-MM-DDTHH:MM:SSZ of the normalized datetime: `d'` is what the field makes of `d` and `x` is `d'` in UTC.
* `C18_round_trip`: C18. Round trip: unserializing the serialized form gives the same instant in the field's zone, for a datetime without microseconds, whose local wall clock is not one skipped by a daylight saving change (converting it to UTC and back restores it).
* `C18_round_trip_micro`: C18. With a UTC field, serializing drops the microseconds and keeps everything else.
* `C18_bounds`: C18. A datetime whose normalized wall clock lies before the minimum or after the maximum is a ValidationError with the bound's token, about the normalized datetime.

### C19 Decimal text codec (proved)

Serializing any decimal and unserializing the text returns a decimal with the same sign, the same digits and the same exponent; natively a value is accepted iff it is a decimal within the inclusive bounds; serialized, a value is accepted iff Decimal() makes of it a decimal within them: texts of a decimal, with optional sign, point, exponent, surrounding whitespace and underscores anywhere, or of an infinity or nan, and also booleans, integers, floats and triples. A nan checked against a bound raises decimal.InvalidOperation.

*Modelled and proved:* C19_read is an equivalence with DecOf of Spec/DecRead.lean; what Decimal() makes of floats and triples is a parameter of the environment. Signalling NaNs and NaN payloads are not distinguished. C19_nan_counterexample: a NaN against bounds raises InvalidOperation.

*In* `Props/Decimal.lean`, `Props/DecimalRead.lean`:
* `C19_native_iff`: C19. Native decimals: accepted iff within the inclusive bounds, returned unchanged.
* `C19_text`: C19. A text spelling a decimal (sign, digits, point, exponent; surrounding whitespace) is treated exactly as that decimal: same sign, same digits, same exponent.
* `C19_serialize`: C19. What serialization produces for a finite decimal is a text spelling exactly that decimal.
* `C19_round_trip`: C19. Serializing a decimal (infinities and NaN included) and unserializing the text gives exactly the same decimal: same sign, same digits, same exponent.
* `C19_type_rejected`: C19. A native value that is not a decimal is an InvalidTypeError.
* `C19_bounds`: C19. A number below the minimum or above the maximum is a ValidationError with the bound's token.
* `C19_nan_counterexample`: C19, deviation: a NaN checked against a bound raises decimal.InvalidOperation.
* `C19_read`: C19. Serialized values: accepted iff `Decimal()` makes a decimal of them that is within the bounds and equal to the constant, if there is one. Booleans are read as 0 and 1, though an Integer rejects them (C15).

### C20 Binary codec (proved)

Binary serialization is url-safe base64 (only A-Z a-z 0-9 - _ and '=' padding, length a multiple of 4) and unserializing returns the original bytes.

*Modelled and proved:* C20_malformed_counterexample: malformed base64 raises binascii.Error

*In* `Props/Binary.lean`:
* `C20_native_iff`: C20. Native values: accepted iff `bytes` with a length within the inclusive bounds; unchanged.
* `C20_serialize`: C20. The serialized form is the url-safe base64 of the bytes.
* `C20_round_trip`: C20. Unserializing the serialized form returns the original bytes.
* `C20_lengths`: C20. Too few or too many bytes is a ValidationError with token 'min_length' / 'max_length'.
* `C20_type_rejected`: C20. Anything but `bytes` is an InvalidTypeError, natively and serialized (text included).
* `C20_malformed_counterexample`: C20, deviation: a malformed text (here a single character) raises binascii.Error.

### C21 Text stripping, length and pattern (proved)

Text accepts exactly strings whose (stripped, unless strip=False) form has length between the bounds and matches the pattern, returns that form, and never returns text with leading or trailing whitespace when strip is on. nonempty text is never empty or all whitespace, unless min_length=0 is passed explicitly, which defeats nonempty (exhibited).

*Modelled and proved:* C21_iff/_no_outer_whitespace/_bounds hold as stated; C21_nonempty_counterexample: nonempty=True with min_length=0 accepts ''

*In* `Props/Text.lean`:
* `C21_iff`: C21. In every phase and mode, a Text field accepts exactly the strings whose working form (stripped unless `strip=False`) has a length within the inclusive bounds and matches the pattern, and returns that form. (`ConstOk`: the given text equals the constant, if one is set.)
* `C21_no_outer_whitespace`: C21. With `strip` on, the result neither begins nor ends with whitespace.
* `C21_blank`: C21. Which characters count as whitespace: in ASCII the ten listed in `BlankChar`, beyond it those of the Unicode database. A leading one is dropped, any other character stays.
* `C21_nonempty`: C21. A text field built with `nonempty=True` and no contrary `min_length` only ever returns texts that are not empty; with `strip` on they contain a non-whitespace character.
* `C21_nonempty_counterexample`: C21. `nonempty=True` with an explicit `min_length=0` does accept the empty text.
* `C21_type_rejected`: C21. Anything but a text is an InvalidTypeError.
* `C21_bounds`: C21. Failures of the length and pattern checks: a ValidationError about the working form, with token 'min_length', then 'max_length', then 'pattern'.

### C22 Token grammar (proved)

Token accepts exactly colon-separated segments, each beginning and ending with a word character and containing only word characters and -+. ; with segments=n there are exactly n segments. One trailing newline is also accepted (a defect of the $ anchor).

*Modelled and proved:* exact language given by C22_iff; C22_newline_counterexample: `$` also accepts one trailing newline

*In* `Props/Text.lean`:
* `C22_iff`: C22. In every phase and mode, Token accepts exactly colon separated segments (word characters and `-+.`, word characters at both ends), exactly `segments` many if that is set, and returns the text unchanged — up to one trailing newline, which the `$` anchor lets through.
* `C22_newline_counterexample`: C22. The deviation: a token followed by a newline is accepted, newline included, although it is not a token.
* `C22_rejected`: C22. Text that is not a token (even up to a trailing newline) is an InvalidTypeError; a token with the wrong number of segments a ValidationError; both have token 'invalid'.

### C23 UUID grammar (proved)

UUID accepts exactly lower-case 8-4-4-4-12 hexadecimal text, returned unchanged. One trailing newline is also accepted (a defect of the $ anchor).

*Modelled and proved:* exact language given by C23_iff; C23_newline_counterexample: `$` also accepts one trailing newline

*In* `Props/Text.lean`:
* `C23_iff`: C23. In every phase and mode, UUID accepts exactly 8-4-4-4-12 lower-case hexadecimal text, returned unchanged — up to one trailing newline, which the `$` anchor lets through.
* `C23_rejected`: C23. Everything else is an InvalidTypeError with token 'invalid'.
* `C23_newline_counterexample`: C23. The deviation: a UUID followed by a newline is accepted, newline included.

### C24 Enumeration membership (proved)

Enumeration accepts exactly the values equal to a member and returns them unchanged; redefine('append') accepts exactly old plus new members, redefine('replace') exactly the new ones.

*In* `Props/Enumeration.lean`:
* `C24_iff`: C24. In every phase and mode, an Enumeration accepts a (non-null) value iff it is equal to a member, and returns it unchanged.
* `C24_rejected`: C24. A value not equal to any member is an InvalidTypeError with token 'invalid'.
* `C24_redefine_append`: C24. `redefine(new, 'append')` makes the field accept exactly the values equal to an old or a new member.
* `C24_redefine_replace`: C24. `redefine(new, 'replace')` makes it accept exactly the values equal to a new member.
* `C24_redefine_total`: C24. Redefinition succeeds for hashable members, and a member occurs once.

### C25 Constant (proved)

A non-structural field with a constant accepts (non-null) only values equal to the constant and rejects others with InvalidTypeError. Structural fields ignore the parameter, and an Enumeration raises KeyError instead; both deviations are exhibited.

*Modelled and proved:* true for leaf fields outbound/inbound on native values; counterexamples for Text constants with outer white space, for structural fields (constant ignored) and for Enumeration (KeyError)

*In* `Props/Enumeration.lean`:
* `C25_native`: C25. A non-structural, preprocessor-free field with a constant treats every native non-null value equal to the constant exactly as the same field without the constant would, and rejects every other one with an InvalidTypeError about that value with token 'invalid' (Enumeration excepted, see below).
* `C25_serialized`: C25. Serialized input is decoded first: what is compared with the constant is the decoded value.
* `C25_result`: C25. What inbound processing returns (other than None) is equal to the constant, for every leaf type but Text (which strips) and DateTime (which converts to its zone), whatever the mode and even with a preprocessor.
* `C25_text_counterexample`: C25. Text compares before stripping: a constant with surrounding blanks is accepted but the result differs from it, and the result is not accepted again.
* `C25_structural_counterexample`: C25. Deviation: the structural fields ignore the parameter altogether.
* `C25_enumeration_counterexample`: C25. Deviation: an Enumeration with its class's own messages raises KeyError when the value is not the constant, because its 'invalid' message needs a parameter that is not given.

### C26 Only scheme errors escape (proved)

On any candidate, processing raises only scheme exceptions except for an explicitly listed set of causes (unresolved placeholders, user error messages with other parameters, unhashable items of a unique sequence, unhashable or tuple map keys, unhashable identities, malformed base64, NaN against decimal bounds, datetime against Date bounds, a zone conversion failing, key_order naming unknown keys or used with polymorphism, an Enumeration's constant, serialized error pairs, surrogates, values that are fields, recursion exhaustion, user preprocessors).

*Modelled and proved:* Complete list of non-StructuralError causes (Spec/Causes.lean), proved exhaustive by induction on recursion depth for every schema, value, phase and user environment; schemas meeting the stated restrictions raise StructuralError or RecursionError only; witnesses show the listed causes really occur.

*In* `Props/Exceptions.lean`:
* `C26_every_exception_has_a_cause`: C26. Every exception escaping `process` is a StructuralError, or RecursionError, or one of the listed causes occurs at a field and value met while processing.
* `C26_tidy_schema`: C26. With a schema that is `Tidy` throughout, and no dict keyed by tuples in the candidate, nothing but StructuralError (with its subclasses) escapes, except for RecursionError.
* `C26_other_exceptions_occur`: C26. The causes are not hypothetical: for each kind a schema and a candidate exist for which `process` raises an exception that is not a StructuralError.

### C27 Recursion terminates (proved)

Processing with a non-recursive schema needs a call depth bounded by the schema's nesting, whatever the value; with a recursive schema that only recurses through containers and has no defaults, by the value's nesting. More stack never changes an answer.

*Modelled and proved:* Result is independent of available stack once it is not RecursionError; enough stack exists for any non-recursive schema and, for recursive schemas without defaults and preprocessors, any value; witnesses show recursive default and self-referring union diverge.

*In* `Props/Recursion.lean`:
* `C27_more_stack`: C27. More stack never changes an answer: an outcome other than RecursionError, whether a value or an error, is the outcome at every greater depth.
* `C27_schema_nesting`: C27. With a schema nested at most `n` deep, a call depth of `n` is enough, whatever the value: every greater depth gives the same outcome.
* `C27_schema_nesting_no_overflow`: C27. In that case RecursionError is not raised by the library.
* `C27_value_nesting`: C27. With a (recursive) schema without defaults and preprocessors, in which no more than `u` unions are nested directly inside each other, a call depth of `(depth v + 1) * (u + 1)` is enough for the value `v`.
* `C27_value_nesting_no_overflow`: C27. In that case RecursionError is not raised by the library.
* `C27_default_diverges`: C27. A default that has to be processed by the field it belongs to never ends: processing `{}` exhausts every stack.
* `C27_union_diverges`: C27. So does a union that is a member of itself.

### C28 Undefined placeholders: history (proved)

After any interleaving of creating holders of a placeholder and calling define(), a holder created before the first define() uses the field of the last define() (none if never defined), and a holder created later uses the field that was current at its creation.

*Modelled and proved:* full history theorem over any number of placeholders and holders of every kind; field objects are abstract; cloning assumed to succeed (see C53).

*In* `Props/Undefined.lean`:
* `C28_placeholder`: whatever happens before (`a`) and after (`b`) the creation of a holder with a placeholder at position `i`: if the placeholder had a field at that time, the holder keeps that field for ever; otherwise it has the field of the last `define` since (a structure: a clone of it named by the key), or none if there was none.

### C29 describe/reconstruct round trip (proved)

Reconstructing the description of a field (verbose or not) yields a field of the same name that processes every value the same way in both phases and at every call depth, provided every field of the schema is describable: no preprocessor, own error messages, pattern, ignored_values, segments or key_order; constant and default made of natively serializable values (defaults of structural fields None, or not empty and equal to what they serialize to); DateTime bounds in UTC and bounds in whole seconds; no member, identity or default key named 'fieldtype'; aspects not named like a parameter. The description states the type, the name, the flags and every title, note, description and aspect made of natively serializable values, however false, and the reconstructed field has the same (except aspects whose name begins with an underscore, which are dropped). Describing such a schema succeeds exactly when it is finitely nested with all placeholders defined (recursive schemas cannot be described). Outside these conditions information is lost or changed: patterns, ignored values, segments, key orders, empty and non-native defaults are dropped, structural defaults come back serialized, local DateTime bounds are shifted, and a description can be reconstructed only once because reconstruct removes 'fieldtype' from it.

*Modelled and proved:* Round trip for every describable schema (C29_round_trip), existence of the description (C29_describes) and its converse (C29_described, C29_recursive). C29_once: the dict is spent by the first reconstruct. C29_lost, C29_default_*, C29_datetime_bounds, C29_member_fieldtype, C29_aspect_cls, C29_undefined exhibit what is lost or fails outside the conditions.

*In* `Props/Described.lean`, `Props/Documented.lean`:
* `C29_round_trip`: Whatever a field is described by, reconstructing it gives a field that behaves the same; the description can also be reconstructed as a part of any other description.
* `C29_describes`: A schema of finite nesting, whose placeholders are all defined, has a description.
* `C29_once`: `reconstruct` removes `fieldtype` from the dict it is given, so a second call on the same description fails, whatever the first one did to the values inside.
* `C29_described`: A field that has a description has all its placeholders defined and is nested no deeper than the call depth; so a schema that contains itself has none.
* `C29_recursive`: A field that contains itself cannot be described.
* `C29_lost`: Patterns, ignored values, segments and key orders are lost.
* `C29_default_lost`: A default that is not natively serializable is lost, as is the empty default of a structural field.
* `C29_default_serialized`: The default of a Sequence comes back in serialized form: a date has become a text.
* `C29_default_null`: A Structure whose default has None for a Date member cannot be described.
* `C29_datetime_bounds`: A bound of a DateTime in local time is written as if it were in UTC, so it comes back an hour later; its fraction of a second is lost.
* `C29_member_fieldtype`: A Structure with a member called `fieldtype` is not read back as a Structure.
* `C29_aspect_cls`: An aspect called `cls` makes the description unreadable.
* `C29_undefined`: A field whose placeholder is not defined cannot be described.
* `C29_stated`: The description of a field states its type, its name, its flags, and its title, notes, description and aspects if they are simple data.
* `C29_kept`: Reconstructing a description keeps the name, the flags, and title, notes, description and aspects that are simple data.
* `C29_underscore`: Deviation: an aspect whose name begins with an underscore is described, but not reconstructed.
* `C29_nothing_set`: a simple field on which nothing is set is described by its type alone.

### C30 extract never invents data (proved)

Extracting (strict, without extractors) from nested dicts/lists returns only declared, present, non-None members, recursively, and all of those; it succeeds exactly when the subject has the shape of the schema; for schemas without unions and truthy identities extracting again returns the same. With unions, or with a falsy identity, extracting again can lose data or raise; both are exhibited.

*Modelled and proved:* All extraction results characterized (C30_part, C30_members), success iff shape (C30_succeeds), idempotence (C30_again) without unions/extractors/falsy identities; both failing cases exhibited. Screening parameters are modelled but the success theorem is for none.

*In* `Props/Extract.lean`:
* `C30_part`: C30. Extraction in strict mode, with a schema without extractors, never invents data: whatever is returned was part of the subject.
* `C30_members`: C30. Extracting from a dict with a plain structure: the result is a dict whose keys are declared names, in the order of declaration, without repetition; a name is in it exactly when it is declared, present in the subject with a value other than None, and not excluded by the screening parameters; it then holds what the member's field extracts.
* `C30_succeeds`: C30. When extraction (strict, no screening parameters, no unions, no extractors) succeeds, given enough stack for the nesting of the subject: exactly when the subject has the shape of the schema.
* `C30_again`: C30. Extracting again from what was extracted gives the same, for schemas without unions and extractors and subjects in which no polymorphic structure has a falsy identity.
* `C30_union_again`: C30. With unions, extracting again may fail to give the same: a member whose shape does not fit is dropped by one alternative, and the first alternative then takes the rest. Here `[{'a': 5, 'b': 1}]` first gives `[{'b': 1}]`, which then gives `[{}]`.
* `C30_falsy_identity`: C30. A polymorphic structure with a falsy identity (here 0) loses everything without an error, and extracting again raises KeyError.

### C31 instantiate then extract is the identity (proved)

For schemas without unions in which every field has neither instantiator nor extractor, or an extractor that undoes its instantiator, instantiating a native value without None members and extracting from the result returns the value, up to the order of dict entries. Unions can never be instantiated; None members are dropped; a discriminator with an instantiator is not recognised on extraction; all three are exhibited.

*Modelled and proved:* Round trip by induction on call depth for every union-free schema with inverse handlers; union instantiation always raises; None members and boxed discriminators exhibited as exceptions.

*In* `Props/Instantiate.lean`:
* `C31_roundtrip`: C31. For schemas without unions in which every extractor undoes its field's instantiator: extracting from what `instantiate` built from a value yields the value again, up to the order of dict entries.
* `C31_union`: C31. A union cannot be instantiated, with or without a key, whatever the value and its instantiator.
* `C31_none_dropped`: C31. None members are not restored: extract drops them.
* `C31_discriminator`: C31. An instantiated discriminator is not recognised when extracting.

### C32 Element attributes and round trip (proved)

An Element built from keyword values has exactly the attributes its schema declares (those of the variant its discriminator names, for a polymorphic schema), each the given value or else the member's default; other keywords are dropped and the keyword self is refused. Extracting an instantiated dict gives the dict restricted to the members and completed by defaults. A polymorphic value becomes the last class of the family that has (or inherits) its identity, and the class asked if there is none. A schema's values are instantiated by the last class without an identity that sets or inherits the schema, so a plain subclass takes over the schema of its base.

*Modelled and proved:* ElementMeta and Element modelled for any program of class statements with one base each; registration, capture of schemas and attributes characterised exactly; that defaults are shared objects is the subject of C94.

*In* `Props/Element.lean`:
* `C32_registered`: C32. A value of a polymorphic schema is instantiated as the last class of the family that has the value's identity, and as the class it was asked of if there is none.
* `C32_captured`: C32. A schema's values are instantiated by the last class without an identity that sets or inherits the schema: a subclass takes over the schema of its base.
* `C32_attributes`: C32. An Element whose schema is a structure has exactly the attributes the schema declares, each the keyword value given for it or else the member's default; other keyword values are dropped. A keyword `self` is refused.
* `C32_poly_attributes`: C32. An Element of a polymorphic schema has exactly the attributes of the variant its discriminator names; without the discriminator, or with one that names no variant, it cannot be created.
* `C32_completed`: C32. Instantiating a dict and extracting the instance gives the dict restricted to the schema's members and completed by their defaults.
* `C32_value`: C32. An Element whose schema is another field has the one attribute named after it.
* `C32_key`: C32. With a key and a class that names a key attribute, the instance has the key there and its other attributes unchanged.
* `C32_taken_over`: C32. Subclassing an Element without giving the subclass its own schema redirects the schema of the base: values read by the base become instances of the subclass.

### C33 screen and filter decisions (proved)

screen(**p) is true iff every non-None parameter equals the field's attribute, where a missing attribute equals none of them; filter(all=False, **p) of a field without children keeps it iff some parameter matches, filter(all=True, **p) iff all do, where a missing attribute counts as False, and with no parameters it returns the field itself. filter of any field returns None iff the field itself fails this test.

*Modelled and proved:* Exact decision theorems for screen and for filter of leaves (C33_screen, C33_filter_leaf, C33_filter_no_params) and, for all fields, None iff the field itself fails (C33_filter_gone).

*In* `Props/Filter.lean`, `Props/ScreenFilter.lean`:
* `C33_screen`: C33. `screen(**params)` is true exactly when every parameter that is not None equals the field's attribute.
* `C33_filter_gone`: C33. `filter(all, **params)` returns None exactly when the field itself does not pass: with `all` when some parameter does not match, otherwise when none matches.
* `C33_filter_leaf`: C33. A field without child fields, or a union, is returned as it is when it passes.
* `C33_filter_no_params`: C33. Without parameters `filter` returns the field itself.
* `C33_missing`: C33. An attribute that is missing or None: it matches no parameter of `screen` other than None, while for `filter` it counts as False.

### C34 filter on structures (proved)

Filtering a structure that passes yields a structure whose members are exactly those that pass the filter, in order, each filtered in turn; the structure itself is returned when no member changes. In the code nested members are always filtered with all=True, and a structure none of whose members pass is returned unfiltered; a sequence, map or tuple whose child fails raises CannotFilterError; all three deviations are exhibited.

*Modelled and proved:* C34_structure characterizes the result of filtering a structure member by member; the three deviations are separate theorems (C34_nested_all, C34_none_left, C34_cannot_filter). filter reads only described attributes of the modelled fields.

*In* `Props/Filter.lean`:
* `C34_structure`: C34. Filtering a structure that passes itself. The members are always filtered with `all=True`. The result is a structure with exactly the members that pass, in order, each filtered in turn; it is the structure itself when no member changes, but also when no member passes.
* `C34_rest_passes`: C34. After `filter(all=True, **params)` every field that filtering looks at, at any depth of the result, passes, provided that no structure on the way loses all its members. The parameters name common attributes or aspects.
* `C34_nested_all`: C34. Members are filtered with `all=True` whatever was asked for: the member 'a' passes `filter(all=False)` on its own but is dropped from the structure.
* `C34_none_left`: C34. A structure none of whose members pass is returned unfiltered.
* `C34_own_errors`: C34. Only fields without error messages of their own are rebuilt: filtering one that has them raises as soon as something below it would go.
* `C34_cannot_filter`: C34. A sequence whose item does not pass cannot be filtered.

### C35 transform (proved)

transform returns the transformer's replacement when it returns a field, the field itself untouched when it returns False or changes nothing below, and otherwise a copy in which exactly the changed descendants are replaced; replacing descendants by ones that behave the same gives a field that behaves the same. Polymorphic structures cannot be transformed below (AttributeError), exhibited.

*Modelled and proved:* By induction on call depth, for every transformer that is a function of the field (object identity appears only as the same/new outcome).

*In* `Props/Transform.lean`:
* `C35_unchanged`: C35. `transform` returns the same object exactly when the transformer answers no replacement for any field it is asked about.
* `C35_replaced`: C35. What `transform` returns is the field with exactly the transformer's replacements made.
* `C35_behaves`: C35. If every replacement behaves like the field it replaces, so does the transformed field.
* `C35_process`: C35. The same for processing, in terms of `transform` alone.
* `C35_poly`: C35. A polymorphic structure (with at least one variant) that the transformer leaves alone cannot be transformed: its variants are dicts.
* `C35_own_errors`: C35. Only fields without error messages of their own are rebuilt: one that has them is either replaced or left alone.
* `C35_only_recursion`: C35. Where all placeholders are defined, no field has error messages of its own and no structure is polymorphic, the only failure is RecursionError.

### C36 Structure editing operations (proved)

insert, remove, replace, extend act on the key/field mapping like a finite map, keeping the order of keys; members not mentioned are copied so that they behave the same; merge(prefer=True) overrides. merge without prefer is documented to skip keys already present and merge all others, but merges exactly the entries before the first such key; the deviation is exhibited.

*Modelled and proved:* Exact lookup equations on the key/field mapping; merge without prefer characterized exactly (C36_merge_until) with the lost-entries witness C36_merge_stops. Plain structures; arguments are dicts (distinct keys). C36 is about the mapping as a value; C95 is about field objects shared between structures.

*In* `Props/Edit.lean`:
* `C36_insert`: C36. `insert` needs a field with a name; it stores the field under its name unless the name is taken and `overwrite` is not set; every other key keeps its field.
* `C36_stored`: C36. What the mapping is after storing: the key holds the field, other keys are as before, and the order of the keys is kept, a new key coming last.
* `C36_insert_errors`: C36. Failures of `insert`.
* `C36_remove`: C36. `remove` removes exactly the named members.
* `C36_merge_prefer`: C36. `merge(structure, prefer=True)`, when it raises nothing: every key of the argument holds the (renamed) field given, every other key is as before.
* `C36_merge_until`: C36. `merge(structure)` without `prefer`, when it raises nothing: there is a first part of the argument whose keys were all new, and exactly that part is merged; it ends at the first key already present. The documentation says that present keys are skipped and all others merged.
* `C36_merge_stops`: C36. The documented behaviour of `merge` fails: the new key 'b' is lost because 'a' comes first.
* `C36_extend`: C36. `extend` returns a structure in which every key of the argument holds the given field, renamed to the key, and every other key a copy of its field, which behaves the same.
* `C36_replace`: C36. `replace` returns the structure itself when the argument has no key of it; otherwise a structure with the same keys in the same order, in which every key of the argument holds the given field, renamed to the key, and every other key a copy of its field, which behaves the same.

### C37 Generated defaults (proved)

generate_defaults returns for each declared key the field's default, else its constant; sparse omits the None ones; a polymorphic structure yields one mapping per identity, or the one of a given identity; an identity given for a plain structure, or an unknown one, is a ValueError.

*Modelled and proved:* Exact membership, order, success and failure; polymorphic case reduces to the plain one per identity. Identity lookups are for hashable identities (unhashable raise TypeError).

*In* `Props/Edit.lean`:
* `C37_defaults`: C37. `generate_defaults(sparse=sparse)` of a plain structure holds, in the order of declaration, for each declared key its field's default, or the constant if there is no default; `sparse` leaves out those that are None.
* `C37_total`: C37. It succeeds exactly when all members have been defined; an identity is refused.
* `C37_poly`: C37. A polymorphic structure generates one mapping per identity, each as for a plain structure with that variant's members; asked for one identity, just that mapping.
* `C37_identity`: C37. The defaults for one identity.

### C38 Interpolation leaves variable-free values alone (proved)

Interpolating a native value without variables returns it unchanged (structure members possibly in another order); a text that is a whole ${expr} is replaced by the native value of the expression (converted for number types; for containers the value is interpolated in turn, so references inside it are evaluated as well, and None or text is refused); structure and map members whose parameter is undefined are dropped while sequences pass the failure on; unions interpolate nothing but None, and plain and Object fields refuse native values that are not texts; an Enumeration is interpolated to one of its values only; a tuple with too few values is refused and further values are dropped; a subject of another type than the container's is refused.

*Modelled and proved:* VarFree describes native values without variables independently of the model; C38_unchanged shows they come back unchanged up to member order; references, dropped members (exact characterisation for structures and maps), sequences, numbers (C38_numbers), and the deviations (unions, re-evaluation of parameter values, plain/Object fields) have their own theorems. The template engine is an arbitrary parameter.

*In* `Props/Interpolate.lean`:
* `C38_unchanged`: C38. A native value without variables is returned as it is, members of structures possibly in another order.
* `C38_reference`: C38. A text that is a reference is replaced by the native value of the expression, for the types that do not convert.
* `C38_reference_number`: C38. Number types convert the value of the expression.
* `C38_numbers`: C38. Number types take numbers given directly, flags being numbers too.
* `C38_reference_container`: C38. A reference given for a container is replaced by its value, which is then interpolated like a subject given directly; a value that is None or a text is refused.
* `C38_members`: C38. Interpolating a structure: the result holds exactly the declared members that were given and whose own interpolation succeeded, in the order of declaration.
* `C38_members_total`: C38. A structure is interpolated iff every given declared member is, or has an undefined parameter: an undefined parameter drops the member, any other failure is passed on.
* `C38_entries`: C38. Interpolating a map: the entries whose parameter is undefined are dropped, the others keep key and order.
* `C38_items`: C38. In a sequence an undefined parameter is not dropped: it is passed on.
* `C38_union`: C38. A union interpolates None only: the code refers to a name that does not exist.
* `C38_evaluated_again`: C38. References inside the value of a reference are evaluated as well: data given as a parameter can name parameters.
* `C38_enumeration`: C38. What an Enumeration is interpolated to is one of its values.
* `C38_slots`: C38. A tuple is interpolated field by field; too few values are refused, further ones dropped.
* `C38_other_type`: C38. A subject of another type than the container's is refused.
* `C38_native_refused`: C38. A plain or Object field refuses native values that are not texts.

### C39 Structured text scalar escaping (proved)

Every bracket in the structured text of a string is escaped; reading it back gives the string exactly when the string is neither empty nor a spelling of true, false or null in any case; a spelling of those words is read as the value it names, the empty text cannot be read at all; booleans and null always come back, integers come back when parsing numbers is asked for.

*Modelled and proved:* Escaping, unescaping and the simple-value reader are modelled character by character; round trip is an equivalence.

*In* `Props/StructuredText.lean`:
* `C39_escaped`: C39. The text written for a text has a backslash before every bracket.
* `C39_roundtrip`: C39. A text is read back iff it is not empty and does not spell `true`, `false` or `null`.
* `C39_reserved`: C39. The reserved words are read as the values they spell.
* `C39_empty`: C39. The empty text is written as the empty text, which cannot be read.
* `C39_scalars`: C39. The other scalars: booleans and null are read back, numbers with `parse_numbers` only; without it they come back as texts.

### C40 Structured text round trip (proved)

A nesting of dicts and lists whose keys and leaves avoid commas, doubled or trailing backslashes, unpaired brackets, reserved words and spellings of the internal ||n|| markers is read back as the same data; reading any text ends, with a value or an error; each of the exclusions is necessary: a leaf spelled ||0|| is replaced by another part of the document, a comma splits a leaf, a backslash or a brace makes the document unreadable, and a list holding one empty text is read as the empty list.

*Modelled and proved:* The regular expression substitution loop is modelled with its marker table; the round trip holds for every value satisfying the independent predicate Writable, and termination holds for every text. Keys must be texts (other keys are outside the model). The exclusions are shown necessary by concrete counterexamples.

*In* `Props/StructuredText.lean`:
* `C40_roundtrip`: C40. Lists and mappings of writable values are read back exactly.
* `C40_tuple`: C40. Tuples are written like lists.
* `C40_terminates`: C40. Reading ends for every input; it fails with ValueError, KeyError or IndexError only.
* `C40_marker`: C40. A text spelled like an internal marker is replaced by another part of the document.
* `C40_comma`: C40. A text with a comma is read as two.
* `C40_backslash`: C40. A backslash makes the list unreadable.
* `C40_brace`: C40. An opening brace behind a nested list makes the mapping unreadable, although it is escaped.
* `C40_single_empty`: C40. The list of one empty text is read as the empty list.

### C41 Url-encoded round trip (proved)

Encoding a mapping with any text keys, whose values are nulls, booleans, texts that structured text carries or nestings of them, and decoding it returns the same entries in the same order, except that entries whose value is the empty text are lost; anything but a mapping is refused, and anything but a text is refused when decoding. Names and values are written with letters, digits and _.-~+% only, the first four kinds standing for themselves. A query written by another program, with whatever characters percent-encoded in either case, + or %20 for blanks, & or ; between parameters, and parameters without a value in between, is read as the one this format writes for its entries.

*Modelled and proved:* UTF-8, quote_plus, unquote_plus, urlencode and parse_qsl are modelled byte by byte; the decoder's treatment of ill-formed UTF-8 is simplified (one replacement character per byte), which the round trip never meets.

*In* `Props/UrlEncoded.lean`, `Props/UrlQuery.lean`:
* `C41_roundtrip`: C41. Encoding a mapping and decoding it returns the mapping, in order, without the entries whose value is the empty text. Keys are arbitrary texts.
* `C41_not_mapping`: C41. Anything but a mapping is refused.
* `C41_not_text`: C41. Anything but a text is refused.
* `C41_foreign`: C41. Whoever wrote a query, with whatever characters percent-encoded, in either case, blanks as `+` or not, `&` or `;` between the parameters, reading it gives what reading the query that urlencode writes for its entries gives.
* `C41_unescaped`: C41. Texts of letters, digits and `_.-~` are written as they are.
* `C41_written`: C41. What urlencode writes for any text consists of letters, digits and `_.-~+%` only.

### C42 CSV round trip (proved)

Writing a list of structures as CSV and reading it back returns, for every row, each requested column that is declared and not structural, with null and empty cells dropped and CR LF sequences inside texts removed; quotation marks, commas, single CR or LF and every other character but NUL survive in names and cells of up to 131072 characters; a table without any such column loses its rows, a header naming anything else is refused, and a text with NUL is written but cannot be read. A table written by another program is read alike, whichever cells are quoted and whatever line ends surround it; cells beyond those of the header are ignored, a row with fewer is refused (a blank line between rows is an IndexError), and a table whose lines end in line feeds alone is refused by the csv module.

*Modelled and proved:* The csv module's writer and reader state machine (CPython, default field size limit) are modelled for the dialect used; float cells need that float(str(x)) gives x.

*In* `Props/Csv.lean`, `Props/CsvForeign.lean`:
* `C42_roundtrip`: C42. A table written and read again: each row comes back with every requested column that is declared and not structural, apart from null and empty cells; inside texts CR LF sequences vanish. Quotation marks, commas, single CR or LF characters and all other characters but NUL are kept.
* `C42_no_columns`: C42. Without any column the rows are lost: whatever is written is read as no row at all.
* `C42_unknown_column`: C42. A header naming something that is not a column is refused.
* `C42_refused`: C42. Only a list of structures can be written, and only as the schema says.
* `C42_nul`: C42. A text with a NUL character is written but cannot be read.
* `C42_foreign`: C42. How a table is spelled makes no difference: which cells are quoted, whether the last line is ended.
* `C42_written`: C42. What is written for cells without carriage returns and NUL characters, not too long, is such a spelling.
* `C42_unix`: C42, deviation: a table whose lines end in line feeds alone, as usual on Unix, is refused with an error of the csv module.
* `C42_extra_cells`: C42. Cells beyond those of the header are ignored.
* `C42_short_row`: C42. A row with fewer cells than the header is not read, and neither is the rest.
* `C42_blank_line`: C42, deviation: a blank line between rows is an IndexError (as is any row that is too short), though blank lines around the table are ignored.

### C43 XML tree round trip (proved)

Serializing a value with its schema to an XML document, with or without the preamble, and reading the document returns the same data (only the order of dict entries may differ), for schemas of structures, maps, sequences, tuples and leaves whose names and keys are XML names: None anywhere, booleans, integers, floats whose text reads as the same float, and non-empty text of characters XML allows without carriage returns, whatever markup characters it contains. Whatever document is read, a sequence or tuple gets one item for each subelement, and a document with more elements than a tuple has values is refused (one with fewer gives a shorter tuple). A field with parts takes any value that counts as false except None (0, False, an empty text, list or dict) and writes it as an empty element, which is read as the empty value of the field. Outside of that it deviates: empty text is read as None, a carriage return as a line feed, other contents of a text leaf (numbers in an enumeration) as their text; values of a union raise NotImplementedError and non-empty values of a polymorphic structure KeyError when serialized.

*Modelled and proved:* writer, escaping, reader (for the documents the format writes) and both directions of the value mapping are modelled; round trip by induction over the tree and over the value; deviations proved as separate theorems; C43_falsy covers values that count as false

*In* `Props/Xml.lean`, `Props/XmlEmpty.lean`:
* `C43_roundtrip`: A value is written to a document, and reading the document returns the same data.
* `C43_empty_text`: Deviation: for a text field the empty text is read as None.
* `C43_leaf_text`: Deviation: a value of a text field that is not text (a number among the values of an enumeration, say) is read as the text of it.
* `C43_carriage`: Deviation: a carriage return becomes a line feed.
* `C43_union`: Deviation: values of a union cannot be written.
* `C43_poly`: Deviation: values of a polymorphic structure cannot be written.
* `C43_tuple`: Whatever document is read as a tuple, its value has one item for each subelement of the root, and surplus elements are refused; missing ones are not.
* `C43_sequence`: Whatever document is read as a sequence, its value has one item for each subelement of the root.
* `C43_falsy`: C43. Whatever counts as false but None is written by a field with parts as an empty element, and read as an empty value: also an empty value of another kind, zero and False.

### C44 YAML output (proved)

The YAML text written for a value made of None, booleans, integers, floats whose text has a point, dates, texts, lists and dicts with text keys is read back as the same value (dict entries sorted), at every depth of nesting, so values with the same text are the same; a short one-line text is quoted exactly if it is empty, a word for null or true/false, begins with an indicator, or contains ': ' or ' #'; values containing bytes, times, decimals or other objects anywhere are refused. Not carried are floats whose text has no point (1e+16, 1e-05, inf, nan), which come back as text; texts that YAML reads as something else without quotes: numbers, dates, 'yes', text ending in a colon or with spaces at its ends, keys such as null, several lines without a newline at the end; and zone and microseconds of a datetime.

*Modelled and proved:* Round trip for all values of the class Yaml.Carries (Spec/Yaml.lean) through a conservative YAML reader written as specification; quoting exact; refused values; the texts that are not carried are exhibited (C44_lost, C44_number_text, C44_datetime_lost). Floats: what float() makes of a text is a parameter (Yaml.Floats), and a float is carried if its text is digits, a point, digits and perhaps a signed exponent, and is read back as that float; deviation proved (C44_float_lost): a float whose text has no point, such as 1e+16 or inf, is written bare and is a text to YAML 1.1. Lines made by TextWrapper for texts over 100 characters are outside.

*In* `Props/Yaml.lean`, `Props/YamlLayout.lean`:
* `C44_round_trip`: the text written for a value is read back as the same value.
* `C44_injective`: values with the same text are the same value, up to the order of dict entries.
* `C44_quoting`: a short text of one line is written as it is, unless YAML would take it for something else; then it is quoted.
* `C44_refused`: a value with something inside that has no YAML text is refused.
* `C44_number_text`: the text of a number is written like the number.
* `C44_datetime_lost`: zone and microseconds of a datetime are not written.
* `C44_float_lost`: a float whose text has no point (`1e+16`, `1e-05`, `inf`, `nan`) comes back as a text.
* `C44_lost`: texts that are written without quotes although YAML reads something else: `yes`, a colon at the end, spaces at the ends, a key that is a word for null, several lines without a newline at the end.
* `C44_flow`: C44. A sequence of nulls, booleans and numbers is written on one line.
* `C44_block`: C44. Any other sequence is written with a dash for each element.

### C45 Structural error serialization (proved)

serialize() of a structural error returns the list of its own errors (or None) and a structure mirroring the error tree: one entry per child for lists (None where the child is fine), one entry per failing child for dicts; it is cached until forced. A nested error with children of its own shows only the children (its own errors are lost), good values that happen to be error objects are shown as failures, and unserialize restores the errors but never a structure of errors; all three exhibited.

*Modelled and proved:* mirror characterised node by node against a separate relation (C45_mirror), pair, caching over any history of operations (C45_first, C45_cached, C45_cached_total, C45_forced); deviations exhibited (C45_nested_errors_lost, C45_error_value, C45_unserialize_structural).

*In* `Props/Errors.lean`:
* `C45_mirror`: at every path of the error tree the serialized structure shows that node: the errors of an error without structure, a list with as many entries or a dict with exactly the keys of the failing children for an error with one. Children that are fine are shown as None in a list and not at all in a dict.
* `C45_pair`: the pair: own errors (None when there are none) and the structure (None when empty).
* `C45_attributes`: The attributes of an error do not depend on when it was serialized.
* `C45_forced`: a forced call serializes the current errors and structure.
* `C45_first`: so does the first call.
* `C45_cached`: an unforced call returns what the latest forced call returned, or the first call if none was forced since; errors added and structures attached in between are not shown.
* `C45_cached_total`: Every history with a call falls under `C45_cached`.
* `C45_nested_errors_lost`: A nested error with a structure loses its own errors.
* `C45_error_value`: A good value that happens to be an error object is shown like a failure.
* `C45_unserialize`: an error without structure survives unserialize; any other cannot be unserialized, because its errors are None.
* `C45_unserialize_structural`

### C46 Format registry (proved)

After any sequence of format class definitions, looking a format up by name, mimetype, dotted extension or class yields the last class that answers to it, where a class inherits each attribute it does not assign; reading or writing by path uses the lower-cased extension of the last path component, a named format wins over the path and a named format class over both lookups; url-encoded text can never be reached through Format.serialize or Format.unserialize, every other library format can.

*Modelled and proved:* Class statements are modelled with one base each; a class statement that fails (an empty extension) ends the modelled program. File access is outside the model.

*In* `Props/Format.lean`:
* `C46_lookup`: C46. After any class definitions, looking up a name, a mimetype, an extension or a class gives the last class that answers to it.
* `C46_missing`: C46. A lookup fails exactly when no class answers.
* `C46_inherited`: C46. A class takes each attribute from its body, otherwise from its base; `Format` gives none. So a subclass without a name of its own is registered in place of its base.
* `C46_extension`: C46. The extension of a path is found in its last component, behind the last dot, dots at the beginning apart.
* `C46_by_path`: C46. Reading or writing through `Format` without naming a format uses the last class that answers to the lower-cased extension of the path, and is refused when there is none.
* `C46_by_name`: C46. A format that is named wins over the path; an unknown one is refused.
* `C46_by_class`: C46. A named format class reads and writes in its own format, whatever the path.
* `C46_urlencoded_unreachable`: C46. After importing the library, url-encoded text cannot be reached through `Format.serialize` or `Format.unserialize`: its methods take no schema.

### C47 Field type registry and inherited errors/parameters (proved)

A field class knows an error token, and a parameter, by its own last declaration of it and otherwise by the first of its bases that knows it; nothing that it or a class it descends from declares is lost. The tables do not follow Python's method resolution order: in a diamond the inherited entry of the first base wins over the replacement made by a later base. A field type names the last class defined under that lower-cased name, and any other name is refused.

*Modelled and proved:* FieldMeta.__new__ modelled for any program of class statements with any number of bases; tables and registry characterised exactly, by induction over the program.

*In* `Props/FieldMeta.lean`:
* `C47_errors`: C47. Errors: a class knows an error token by its own last declaration of it, otherwise by the first base that knows it.
* `C47_parameters`: C47. Parameters: likewise.
* `C47_errors_kept`: C47. Nothing declared is lost: a class knows an error token exactly when it or a class it descends from declares it.
* `C47_parameters_kept`: C47. Likewise for parameters.
* `C47_types`: C47. A field type names the last class whose lower-cased name it is; reconstruction under any other name is refused.
* `C47_diamond`: C47. The tables do not follow Python's method resolution order: in a diamond the base of the first base wins over the replacement made by the second base, whose attribute Python would find.

### C48 recursive_merge (proved)

recursive_merge(a, b) gives at every key: the merge of the two values where both hold a dict, otherwise b's value where b has the key, otherwise a's value (likewise at every path); keys keep a's order with b's new ones after them; merging the same addition twice, or a dict with itself, changes nothing.

*Modelled and proved:* C48_keys gives the value at every key, C48_paths at every path, C48_order the key order; C48_idempotent and C48_self. Dicts are trees (no aliasing between the two arguments), keys hashable and self-equal.

*In* `Props/Merge.lean`:
* `C48_keys`: what the merged dict holds under a key.
* `C48_paths`: at every path, the merged dict holds the addition's value where that is no dict, the merge where both have dicts, the addition's dict where the original has none, the original's value where the addition has nothing, and nothing below a value of the addition that is no dict.
* `C48_order`: the original's keys stay in place, new keys follow in the order of the addition.
* `C48_idempotent`: merging the same addition a second time changes nothing.
* `C48_self`: merging a dict with itself changes nothing.

### C49 Nested path access (proved)

After set_nested_value(d, path, v) succeeds, traverse_to_key(d, path) returns v and every path that is neither a prefix nor an extension of it reads as before; set fails exactly when the path without its last key leads to nothing (KeyError) or to a non-dict (TypeError), as traverse_to_key does for that path.

*Modelled and proved:* C49_read_back, C49_others, C49_failures for every value, path and new value.

*In* `Props/Merge.lean`:
* `C49_read_back`: a value written is read back.
* `C49_others`: other paths give what they gave before, errors included.
* `C49_failures`: writing fails exactly as reading the path without its last segment does, or with a TypeError when what is found there is no dict.

### C50 String helpers (proved)

minimize_string collapses whitespace runs and is idempotent; indent prefixes every line (but optionally the first) and preserves the number of lines; pluralize(word, 1) is the word and otherwise applies the first matching rule to the ending of a word that does not end in a newline (for 'box\n' the ending is added twice, exhibited).

*Modelled and proved:* minimize_string equals the words joined by single blanks (C50_minimize), keeps the words, is idempotent; indent characterised line by line; pluralize per rule and for the remaining words; newline quirk exhibited (C50_plural_newline).

*In* `Props/Strings.lean`:
* `C50_minimize`: minimize_string returns the words of the text separated by single blanks.
* `C50_minimize_words`: the words of the result are those of the text.
* `C50_minimize_idempotent`: minimizing again changes nothing.
* `C50_indent`: indent puts the indentation before every line (all but the first one unless indent_first).
* `C50_indent_lines`: indenting keeps the number of lines.
* `C50_singular`: one of something is the word itself.
* `C50_plural_ife`
* `C50_plural_eau`
* `C50_plural_lf`
* `C50_plural_sibilant`
* `C50_plural_h`
* `C50_plural_y`
* `C50_plural_quy`
* `C50_plural_other`: any other word gets an s.
* `C50_plural_newline`: Quirk: `$` also matches before a final newline, so the ending is added twice.

### C51 Surrogate versions (proved)

A surrogate under version k of its schemas serializes with __version__ exactly when k > 1, and reading the result gives a surrogate of the same class and version whose contents schema k read; a dynamic schema travels as its description and its reconstruction reads the contents. A version beyond the schemas is refused, but zero and negative versions select schemas from the end as far as they reach. Contents without a version are read by the first schema yet interpolated by the last; construct defaults to the last and refuses versions outside. Where SurrogateMeta does not run (Python 3) every serialization fails.

*Modelled and proved:* serialize, unserialize, interpolate and construct of surrogate.py modelled on top of process; describe and reconstruct of dynamic schemas are parameters; contribute is the inherited no-op.

*In* `Props/Surrogate.lean`:
* `C51_serialize`: What a surrogate under schema `k` is serialized to.
* `C51_unserialize`: What the serialized contents of a surrogate with schemas are read as: schema `k`, the recorded version or else the first.
* `C51_roundtrip`: C51. A surrogate under schema `k` is serialized with the version exactly when `k > 1`, and what it is serialized to is read back as a surrogate of the same class and version, its contents read by schema `k`.
* `C51_out_of_range`: C51. Contents whose version lies outside of the schemas, and of the positions counted from their end, are refused.
* `C51_from_the_end`: C51. A version of zero or less is not refused while it lies within the schemas counted from their end: zero reads by the last schema, -1 by the one before, and the surrogate keeps that version.
* `C51_untagged`: C51. Without the class attribute that `SurrogateMeta` would set (Python 3 ignores `__metaclass__`), serialization always fails.
* `C51_interpolated_latest`: C51. Contents without a version are read by the first schema but interpolated by the last one.
* `C51_reread`: C51. A surrogate is itself a dict: reading an instance as serialized data forgets its class, schema and version.
* `C51_dynamic`: C51. A surrogate with a dynamic schema carries the description of it and is read back by the schema reconstructed from the description.
* `C51_construct`: C51. `construct` without a version uses the last schema, with one that schema; it refuses a version outside of the schemas and a dynamic schema beside inherent ones.

### C52 Only whole-string variable references are evaluated (proved)

In simple mode a subject is evaluated iff it is a single ${...} with a non-empty inner text without '}' and only surrounding whitespace; the evaluated expression is the trimmed inner text; any other text is returned unchanged, the empty string gives '', and a subject that is no text is a ValueError.

*Modelled and proved:* VarRef is the shape of a reference written with list concatenation; evaluated iff it holds. The template engine (jinja2) is an arbitrary parameter.

*In* `Props/Interpolate.lean`:
* `C52_unique`: C52. A text refers to at most one expression.
* `C52_evaluated`: C52. A reference is evaluated, as the trimmed inner text.
* `C52_unchanged`: C52. Any other text is returned unchanged, the template engine is not consulted.
* `C52_iff`: C52. Converse: an engine that fails on everything tells references from other texts.
* `C52_full`: C52. Templates in full mode: the empty text gives itself, anything else is rendered.
* `C52_not_text`: C52. Subjects that are not texts are refused.

### C53 clone is behaviour preserving (proved)

A clone of a field processes every value as the original. Cloning succeeds iff the schema is finite, no placeholder in it is undefined and no field in it was given error messages of its own: a field that can reach itself cannot be cloned at any stack depth, and one with own errors raises AttributeError. A cloned Enumeration gains the aspect 'representation'.

*Modelled and proved:* C53_behaves for fields as the constructors build them (Built); exact success condition (C53_succeeds), cycles (C53_cyclic), own errors (C53_own_errors), Enumeration aspect (C53_enumeration_aspect). Deep copies of values are taken as equal values.

*In* `Props/Clone.lean`:
* `C53_behaves`: C53. A clone behaves like the original: for every value, phase, mode and location, and at every call depth, `process` has the same outcome.
* `C53_attributes`: C53. The attributes a parent uses are those of the original.
* `C53_succeeds`: C53. Cloning succeeds with call depth `n` exactly when the schema is nested at most `n` deep, no field in it has error messages of its own, and no placeholder in it is undefined.
* `C53_cyclic`: C53. A field that can reach itself cannot be cloned, whatever the call depth.
* `C53_own_errors`: C53. A field with an error message of its own cannot be cloned: AttributeError.
* `C53_only_recursion`: C53. Without such messages the only failure is RecursionError.
* `C53_enumeration_aspect`: C53. A clone is not described like the original: cloning an Enumeration adds the aspect `representation`.

### C54 Email normalisation and grammar (proved)

Email.process trims separators (white space , ; :) at both ends and lower-cases (not when extended); with multiple every run of separators becomes one comma. It accepts iff the result is within the length bounds and is empty, an address local-part@domain, with extended also a display name followed by <address>, with multiple a comma separated list of addresses; the normalised text is returned. Pattern, strip and errors arguments are ignored by the constructor.

*Modelled and proved:* grammar up to the trailing newline accepted by `$`, stated in C54_iff

*In* `Props/Email.lean`:
* `C54_iff`: C54. In every phase and mode, an Email field without user preprocessor normalises the text (`EmailForm`), and accepts it iff the normal form is within the length bounds and is empty, an address, an extended address or a comma separated list of addresses, according to the field's flags — again up to one trailing newline; the normal form is returned.
* `C54_empty`: C54. The empty text is accepted as an email address (a field that must hold an address needs `nonempty`).
* `C54_init`: C54. A user supplied pattern, `strip` or `errors` argument never reaches the field, and asking for both `multiple` and `extended` is a ValueError.

### C55 Errors say what is wrong (proved)

A structural error raised by process() has an error entry of its own or at least one nested error that (recursively) does, so its serialized form is never (None, None) or empty at the failing place. It can only fail when a map's key field turns two given keys into the same one, or key_order names a key twice; both exhibited.

*Modelled and proved:* C55_telling for all fields meeting Clear (key field keeps keys apart, key_order without repetition); both exceptions exhibited (C55_colliding_keys, C55_key_order_twice).

*In* `Props/Telling.lean`:
* `C55_telling`: a structural error says what is wrong: it has an entry of its own, or at least one of the values in its structure is an error.
* `C55_serialized`: So the serialized form of the error is not empty.
* `C55_colliding_keys`: A map whose key field makes the same key of two given ones stores only the later value: here a bad value under 'a ' is replaced by the good one under 'a', and the error names nothing.
* `C55_key_order_twice`: Likewise a name listed twice in key_order: the default replaces the error.

### C56 JSON round trip (proved)

Exactly the values made of None, booleans, numbers, texts, and lists, tuples and dicts of them with such keys have a JSON text. json.unserialize(json.serialize(v)) is v, except that tuples come back as lists and keys as texts, provided keys stay distinct as texts ({1: a, '1': b} comes back with one entry, exhibited). The text is printable ASCII, and equal texts are read as equal values. Conversely, a text is read as v exactly if it is a JSON document standing for v in an independent grammar: white space between tokens, escapes in either case, surrogate pairs as one character, no leading zeros, NaN and Infinity, and of several entries with one name the last value at the first place; so a document stands for one value only. (Texts with lone surrogates are outside the model.)

*Modelled and proved:* json.dumps and json.loads are modelled from CPython's documented grammar with default arguments; that repr of a finite float is a JSON number read back as the same float is the hypothesis FloatText (CPython guarantees it).

*In* `Props/Json.lean`, `Props/JsonRead.lean`:
* `C56_round_trip`: C56. A value JSON carries is written, and what is written is read back: tuples as lists, keys as their texts, everything else as it was.
* `C56_injective`: C56. Two values with the same text are read back as the same value.
* `C56_written_iff`: C56. Exactly these values are written: None, booleans, numbers, texts, and lists, tuples and dicts of them whose keys are None, booleans, numbers or texts.
* `C56_carried_written`: C56. Whatever is carried can be written.
* `C56_printable`: C56. The text of a value is printable ASCII on one line.
* `C56_keys_collapse`: C56. Keys that become the same text collapse: the last entry wins.
* `C56_read`: C56. A text is read as a value exactly if it is a JSON document that stands for it: white space anywhere between the tokens, escapes in either case, numbers without leading zeros, and of several entries with one name the last one.
* `C56_unambiguous`: C56. A document stands for one value only.

### C57 Fields through JSON (proved)

If field.serialize(v) succeeds and the value meets the restrictions of C03 and JSON (no bytes; unconverted data is JSON data; map keys written as texts, or as integers by an Integer field; what comes back of a union's value is still rejected by the alternatives before the one that wrote it), then field.serialize(v, 'json') succeeds and field.unserialize of the text gives exactly what native inbound processing of v gives; an accepted value comes back unchanged. From restrictions on the schema alone (no Binary, Object, Definition, Surrogate or Error fields; DateTimes in UTC; years from 1000 on unless the platform pads them; map keys of text types or Integer; alternatives of unions for different JSON types; defaults that are JSON data or whole-second dates, times and moments): whatever JSON text field.unserialize reads, the value can be written to JSON again, is read back as the same value, and values that differ get different texts. A value field.process rejects is not written. A Binary field writes bytes, so its values cannot be written to JSON (TypeError). Tuples in a plain Field come back as lists, a None key of an Integer-keyed map is rejected (exhibited).

*Modelled and proved:* Combines C03 (serialized form carries the value) and C56 (JSON carries the serialized form) with an induction showing every field reads alike what JSON makes of its output. C57_wire assumes nothing about values: any JSON text that was read is rewritten and reread unchanged, for schemas meeting JsonRereads; C57_apart follows. The law of floats (repr is read back) is the hypothesis FloatTexts / FloatNumbers, shown satisfiable by an example environment.

*In* `Props/FieldFormat.lean`, `Props/WireJson.lean`:
* `C57_json`: C57. If `v` can be serialized, it can be serialized to JSON, and reading the document back does what native inbound processing of `v` does: it gives the same value or, when that is rejected, is rejected.
* `C57_round_trip`: C57. A value accepted once survives being written to JSON and read back unchanged.
* `C57_rejected`: C57. What is rejected is not written: `serialize` fails as processing does.
* `C57_binary`: C57. A Binary field serializes to bytes, which have no JSON text: whatever is not None fails with a TypeError.
* `C57_tuple_in_any`: C57. A plain Field keeps a tuple, JSON does not.
* `C57_none_key`: C57. A None among the integer keys of a map comes back as the text `null`, which the Integer field rejects.
* `C57_data`: C57. What was read of JSON data can be written to JSON, and the text is read as the same value: no assumption on the values is left, only on the schema.
* `C57_wire`: C57. Whatever JSON document a field reads, the value can be written to JSON again, and is read back as the same value.
* `C57_apart`: C57. Values read from JSON that differ are written differently.

### C58 Reading and writing files (proved)

field.write(path, v) changes no other file; it leaves the file untouched when the field rejects v or there is no such format. What was written is read back by field.read as by unserialize, except that carriage returns the format left in the text become newlines; a value that meets the restrictions of C57 written to a JSON file reads as native inbound processing of it. When the format cannot write the serialized value, the previous contents are lost: the file is empty (a Binary field and JSON, exhibited). Reading a missing file is a ValueError; with quiet=True the field is given False, which a Boolean field reports as the data (exhibited).

*Modelled and proved:* The files are a map from paths to texts. C58_emptied states the data loss in general, C58_binary_loses exhibits it; C58_json combines C57 with the absence of carriage returns from JSON texts (C56).

*In* `Props/Files.lean`:
* `C58_others`: C58. Writing touches no other file.
* `C58_rejected`: C58. When the value is rejected by the field, or there is no such format, the error is reported and the file is untouched.
* `C58_emptied`: C58. When the format cannot write the serialized value, the contents the file had are lost: it is empty.
* `C58_read_back`: C58. What was written is read back through the format; carriage returns become newlines.
* `C58_json`: C58. A value written to a JSON file is read back: the file gives what native inbound processing of the value gives.
* `C58_missing`: C58. There is no such file: a ValueError, or, quietly, the field is given False.
* `C58_binary_loses`: C58. A Binary field loses a JSON file: writing fails, and the file is empty afterwards.
* `C58_missing_false`: C58. A missing file read quietly by a Boolean field is False.
* `C58_carriage`: C58. A format that writes texts as they are does not get its carriage returns back.

### C59 Visiting descriptions (proved)

Field.visit(field.describe(), callback) calls the callback on the descriptions of the fields the field is made of (item; value and key; values; fields; members; members of all variants), in order, once each, and on nothing else, and returns those parts with the results in their places; an error of the callback ends it. Hence a callback that visits its argument in turn sees every nested field. The description itself is not visited, contrary to the documentation, nor is the polymorphic_on entry. A dict without fieldtype, or of unknown type, is a KeyError.

*Modelled and proved:* Callbacks thread an arbitrary state and may raise; C59_walk instantiates the state with a log. Assumes that descriptions of fields occurring as parameter values describe themselves (SelfDescribing), that no aspect is called like a constructor parameter, and that identities serialize to themselves and differ.

*In* `Props/Visit.lean`:
* `C59_visit`: C59. Visiting the description of a field calls the callback on the descriptions of the fields it is made of, in order, each once, and on nothing else; the dict returned has the results in their places.
* `C59_walk`: C59. A callback that visits what it is given in turn sees the description of the field and of every field nested in it, each exactly as often as it occurs, outer ones first.
* `C59_itself`: C59. The callback is not called on the description itself, whatever the documentation says: with a simple field it is not called at all.
* `C59_ends`: C59. The visit is decided by the callback: it returns if the callback returns on all the fields, and an error the callback raises is the error of the visit; the callback is not called any more after it.
* `C59_raises`: C59. An error raised by the callback is the error of the visit.
* `C59_unknown`: C59. What is no description: without `fieldtype`, or of an unknown type, a KeyError.

### C60 Boolean, Float, Object, Definition, Surrogate and Error fields (proved)

For non-null values, and no preprocessor: Boolean accepts exactly True and False in every mode. Float accepts natively exactly floats neither below the minimum nor above the maximum (so nan passes any bounds, and integers are rejected); serialized it reads whatever float() takes, including booleans, and writes floats as they are. Object accepts anything natively, reads a text by importing it and writes a value by its name. Definition accepts exactly fields of the valid types, and reads a description as the field reconstructed from it. Surrogate accepts exactly surrogates, and with valid_surrogates nothing (AttributeError). Error accepts exactly structural errors; a serialized error that became a list, as through JSON, is rejected, and one without own errors raises TypeError. Accepted native values are returned unchanged; a constant must be met.

*Modelled and proved:* Importing and naming objects, reconstructing descriptions and what float() makes of integers and texts are parameters of the environment. The float order is stated separately (Spec/FloatOrder).

*In* `Props/SimpleFields.lean`:
* `C60_float_native`: C60. A Float accepts exactly floats, neither below the minimum nor above the maximum (nan is neither), that equal the constant; an integer is rejected.
* `C60_float_in`: C60. Serialized, whatever float() takes is taken for the float it gives.
* `C60_float_out`: C60. Floats are written as they are.
* `C60_boolean`: C60. A Boolean accepts exactly True and False, in every phase, serialized or not.
* `C60_object_native`: C60. An Object accepts anything natively.
* `C60_object_in`: C60. Serialized, a text is imported, and anything else taken as it is.
* `C60_object_out`: C60. A text is written as it is, anything else by its name, if it has one.
* `C60_definition_native`: C60. A Definition accepts exactly fields of one of the valid types (of any type if none are given).
* `C60_definition_in`: C60. Serialized, a description is taken for the field reconstructed from it.
* `C60_surrogate_native`: C60. A Surrogate without `valid_surrogates` accepts exactly surrogates; with them it accepts nothing: it asks for an attribute that surrogates do not have.
* `C60_error_native`: C60. An Error field accepts exactly structural errors.
* `C60_nan`: C60. No bounds keep nan out.
* `C60_float_bool`: C60. Booleans are read as 0.0 and 1.0 by a Float, though an Integer rejects them (C15).
* `C60_error_pairs`: C60. An error that came through a format as a list of two is rejected; without errors of its own it is a TypeError.
* `C60_valid_surrogates`: C60. `valid_surrogates` makes the field fail on every surrogate.

### C61 Formatted structures hide masked values and show all others (proved)

format_structure(value, masks=...) reveals nothing about what stands under a masked key, at any depth of dicts, lists and tuples: two values that differ only there, or in the order of dicts, give the same text, or both raise. Every other text, number, ... appears in the text by its repr, every key of a shown dict by the repr of its str, masked ones followed by ***MASKED***. It fails, with TypeError, exactly if a shown dict has keys that cannot be sorted, or if abbreviate is set and a shown text has more than four characters: abbreviate_string raises TypeError on every text it would have to shorten. A tuple of one is written without its comma. The text as a whole is the literal of the value: brackets around the literals of the parts in order, commas between them, blanks only where they mean nothing; of the entries of a dict, those written on one line come first, and each of the two groups is in the order of its keys.

*Modelled and proved:* repr is a parameter; C61_shown and C61_literal assume that the repr of a simple value neither begins nor ends with white space, nor ends with a comma, C61_literal also that it has no line break. Keys are texts, or integers and booleans; two or more keys of other types count as a TypeError.

*In* `Props/FormatText.lean`, `Props/Formatter.lean`:
* `C61_literal`: C61. The text is the literal of the value: brackets around the literals of the parts, with commas between them and blanks only where they mean nothing. Of the entries of a dict, those on one line come first, and each of the two groups is in the order of its keys.
* `C61_masked`: C61. Nothing about what stands under a masked key, at any depth, can be learned from the outcome: values that differ only there are formatted to the same text, or raise the same error. The order of dicts does not matter either.
* `C61_formatted`: C61. A value is formatted exactly if the keys of each dict that is shown can be sorted and, when abbreviating, no text that is shown has more than four characters; anything else is a TypeError.
* `C61_shown`: C61. Everything else is shown: the text contains the repr of each text, number, … that is not under a masked key.
* `C61_keys`: C61. All keys of the dicts that are shown are shown, the masked ones with a mark in place of the value.
* `C61_abbreviate`: C61. abbreviate_string fails on every text it would have to abbreviate.
* `C61_singleton`: C61. A tuple of one is not written as Python writes it: `(7)` for `(7,)`.

### C62 Identities of objects lead back to the objects (proved)

import_object of a dotted path returns what its longest importable prefix leads to by the remaining segments as attributes (a path without dots is a module; before a colon stands the module, after it the attributes; several colons are refused), and raises ImportError otherwise. identify_object followed by import_object returns the same object for modules; for a class exactly if no module has its identity as a name and the class is what its module has under its name; for other objects that their module has under a name, whatever has been identified before, if no equal object was. Deviations: the identity of a class defined inside another one leads nowhere, that of a class called like a submodule to the module, that of a class of __main__ is taken for a module, and of equal objects all get the name of the one identified first.

*Modelled and proved:* __import__, getattr, getmodule and == are parameters (Modules); importing has no effects and always the same outcome. The object field (C60) uses its own oracles for these two functions.

*In* `Props/Import.lean`:
* `C62_dotted`: A dotted path is resolved by its longest prefix that is a module.
* `C62_plain`: A path without dots is that of a module.
* `C62_colon`: Before a colon stands the module, after it the attributes.
* `C62_colons`: With several colons nothing is found.
* `C62_member`: A name in a module that can be imported: a module of that name comes first, then the attribute.
* `C62_module`: The identity of a module leads back to it.
* `C62_class`: The identity of a class leads back to it exactly if no module has this name and the class is what its module has under its name.
* `C62_main`: Deviation: a class of the main program is only named by its own name, which is taken for that of a module.
* `C62_named`: Whatever has been asked before, the identity of an object that is neither module nor class is a name of it in its module, or of an equal object that was asked for before.
* `C62_has_name`: An object has an identity if it is hashable and its module has it.
* `C62_object`: The identity of an object that is not equal to any other leads back to it, if its module can be imported, its attributes are the entries of its `__dict__`, and no module is called like it.

### C63 Time zones keep the instant, except near daylight saving changes (proved)

Converting a datetime to UTC or to a FixedOffsetTimezone keeps the instant. Converting to LOCAL gives the instant plus the offset in force when the wall clock shows its standard time; with a C library that answers rightly wherever only one answer is right, this is the right wall clock except within the hour after a change, and the instant is kept, and converted back, except within an hour of a change; in the hours around the end of daylight saving time it cannot be kept whatever the library answers (instants an hour apart get the same datetime), and skipped wall clocks change by the round trip. Hence a DateTime field with utc=False reads what it wrote for whole seconds as the same datetime exactly if the offset in force is the one at the instant's standard time. Names of nameless zones are distinct, but read in the customary way (+HH:MM) only if the offset is in whole hours, or positive with at least ten minutes: the offset of -90 minutes is called -02:30, that of 65 +01:5. The repr confuses offsets a day apart.

*Modelled and proved:* The zones are modelled on counts of microseconds since year 1, with CPython's astimezone and fromutc; mktime/localtime is an arbitrary function from wall clock seconds to an answer or an error. Conversions are characterised exactly (C63_fixed, C63_local, C63_local_instant, C63_there_and_back), then for clocks that are right wherever only one answer is (C63_right_wall, C63_kept); C63_always_lost proves that the loss around the end of daylight saving time cannot be avoided by any such clock, C63_lost and C63_skipped exhibit it. C63_field_round_trip connects this with the DateTime field: the proleptic calendar is counted and proved bijective (Lemmas/Calendar). Names: C63_name, C63_name_reads, C63_name_injective, C63_repr.

*In* `Props/Timezone.lean`:
* `C63_name`: C63. The name of a zone made from an offset in minutes is a sign, the hours rounded down in two digits, and the minutes above that, if any, in as many digits as they have.
* `C63_name_reads`: C63. Read in the customary way the name gives the offset exactly if it is a number of hours, or is positive and has at least ten minutes above the hours.
* `C63_name_injective`: C63. Different offsets have different names.
* `C63_named`: C63. A given name is the name, whatever the offset; a zone with neither has none: AttributeError.
* `C63_nameless`
* `C63_repr`: C63. The repr of a nameless zone tells the offset only up to whole days: two have the same exactly if they are equal or a day apart.
* `C63_fixed`: C63. Converting to UTC, or to another zone of fixed offset, keeps the instant.
* `C63_local`: C63. Converting to LOCAL: the wall clock is the instant plus the offset in force when the wall clock shows the instant's *standard* time.
* `C63_local_instant`: C63. So the instant is kept exactly if the same offset is in force at the wall clock arrived at.
* `C63_there_and_back`: C63. To UTC and back is the identity on LOCAL datetimes exactly if the offset in force is that in force at the same instant's standard time.
* `C63_merged`: C63. Two instants get the same LOCAL wall clock, and are lost, if they lie the difference of the offsets apart, the standard wall clock of the first being in daylight saving time and that of the second not.
* `C63_consistent`: C63. The offset of LOCAL less its daylight saving part is always its standard offset, as Python requires.
* `C63_succeeds`: C63. Conversions succeed for clocks that answer, away from the ends of the calendar.
* `C63_right_wall`: C63. With a clock that is right wherever only one answer is, an instant gets the wall clock it has, unless it lies within the first hour (the difference of the offsets) after a change.
* `C63_kept`: C63. And the instant is kept, and converted back, unless it lies within an hour of a change.
* `C63_field_round_trip`: C63. A DateTime field that keeps local time reads what it wrote for a datetime of whole seconds as the same datetime exactly if the offset in force is that in force at the same instant's standard time.
* `C63_always_lost`: C63. Whatever the clock answers where two answers are right, the instants of the last hour of daylight saving time and those an hour later are not all kept.
* `C63_lost`: C63. An hour is lost when daylight saving time ends: with a clock that is right wherever only one answer is, two instants an hour apart get the same LOCAL datetime.
* `C63_skipped`: C63. A wall clock that daylight saving time skips changes by the round trip.

### C64 Defaults and required members (proved)

Inbound, a structure treats a dict exactly as the dict with the defaults of absent members added (same acceptance, same result), with native and with serialized values alike; hence a default is read as the values are (with serialized values, the default of a Binary field is base64-decoded). The generated defaults, if no constants are among them, are accepted as the empty dict is. If has_required_fields is True (always for polymorphic structures), the empty dict is rejected; if it is False, the empty dict is accepted inbound exactly if every field accepts its default, and outbound exactly if no member is required at all: defaults do not count there. A key_order that leaves out a required member makes the empty dict acceptable although has_required_fields is True. get returns the declared field of a structure and the field at a position of a tuple, counted from the end if negative, else the given default; on other fields it is a TypeError.

*Modelled and proved:* C64_defaults relates acceptance of a dict and of the dict with defaults added (both through the characterisation C05_structure_accepts_iff); structures have no preprocessor and unique, defined members. C64_generated is about structures without key_order. Deviations exhibited: C64_default_read, C64_required_deviations.

*In* `Props/Access.lean`:
* `C64_defaults`: C64. Inbound, absent members are as if given by their defaults: a dict is accepted, and with what result, exactly as the dict with the defaults of absent members added.
* `C64_default_read`: C64. So a default is read as the values are: with serialized values the default of a Binary field is decoded, and a date given as text is a default for serialized values only.
* `C64_generated`: C64. The generated defaults of a structure, unless a constant is among them, are accepted as an empty dict is, with the same result.
* `C64_has_required`: C64. A structure says it has required fields exactly if one is required and has no default.
* `C64_required_rejects`: C64. If it says so, no processing of an empty dict succeeds.
* `C64_no_required`: C64. If it says no, an empty dict is accepted inbound exactly if the fields accept their defaults.
* `C64_outbound`: C64. Outbound, defaults do not count: an empty dict is accepted, as it is, exactly if no member is required, with a default or without.
* `C64_required_deviations`: C64. So a structure may say it has no required fields, accept an empty dict inbound, and reject it outbound; and with a key order that leaves a member out it may say it has some and accept an empty dict.
* `C64_poly`: C64. A polymorphic structure always says so, and always rejects an empty dict.
* `C64_polymorphic`: C64. A structure that calls itself polymorphic rejects an empty dict; only such a structure has variants to get; one that says it is not gives fields under names.
* `C64_get_structure`: C64. `get` of a structure finds the declared field; of a tuple the field at the position, counted from the end if negative; the default if there is none.
* `C64_get_tuple`
* `C64_get_none`: C64. Sequences, maps, unions and simple fields have no children by key: TypeError.

### C65 Elements survive being written and read (proved)

An Element whose attributes other than None are accepted unchanged by their fields, written with serialize (natively or to JSON) and read with unserialize, comes back as an instance of the class its schema belongs to (for a polymorphic schema, of the class registered for its identity) with the same attributes, whatever further attributes were set on the instance. The exception: an attribute that is None is not written, and comes back as the default of its member. An Element whose schema is not a structure comes back with its one attribute, but as None instead of an instance if that is None.

*Modelled and proved:* serialize and unserialize of Elements composed from extract, process, the JSON format and instantiate (C65_structure, C65_json, C65_poly, C65_value), with the exact result for None attributes (Refilled; C65_same when there are none). Attributes must be kept by their members (Keeps: accepted unchanged, no None inside nested structures, no instantiators or extractors below the element, enough stack). Deviations: C65_none_replaced, C65_value_none.

*In* `Props/ElementIO.lean`:
* `C65_structure`: C65. Writing an instance of an Element whose schema is a structure and reading what was written gives an instance of the class the schema belongs to, with the same attributes, except that an attribute that was None has the default of its member.
* `C65_json`: C65. The same through JSON.
* `C65_same`: C65. Without None attributes (other than those whose default is None) the instance read is the instance written.
* `C65_poly`: C65. Writing an instance of a polymorphic Element and reading what was written gives an instance of the class registered for its identity (or of the head class if there is none) with the same attributes, except that an attribute that was None has the default of its member.
* `C65_value`: C65. An Element whose schema is another field: its one attribute is written and read back.
* `C65_value_none`: C65. Such an Element with the value None is read back as None instead of an instance.
* `C65_none_replaced`: C65. An attribute set to None although its member has a default does not stay None.

### C66 Polymorphic structures are built as declared (proved)

Structure(variants, polymorphic_on=name) makes, for each identity, in order, a variant of exactly the declared members (those under '*' replace the variant's own of the same name; members without a name take their key) and the discriminator, restricted to that identity. The resulting field accepts a dict exactly when it holds an identity under the name and the plain structure of that variant's members accepts it, with the same result, in which the identity is found under the name; a missing or null identity is reported as required, any other value as invalid at the discriminator. A field given as discriminator is made required and otherwise kept. generate_default=identity gives the defaults (or constants) of that variant together with its identity; an unknown identity, or anything but True for a plain structure, is a ValueError. Deviations: with key_order a polymorphic structure cannot process any dict (TypeError), and an order per identity is refused; a discriminator with its own error messages cannot be used (AttributeError).

*Modelled and proved:* Structure.__init__ in full (newPolymorphic, newStructure). C66_built and C66_built_field state what is built against the declaration (Spec/Construct: VariantMembers, StoredAs, GeneratedOn); C66_accepts, C66_identity, C66_rejects state how the built field behaves; C66_default, C66_default_unknown, C66_default_plain cover generate_default. Deviations proved: C66_key_order, C66_key_order_refused, C66_own_errors. Simplification: the constructor changes the dicts it is given (pops *, adds members); that effect on the caller is not represented here but in C93. Structural discriminators are covered by the model but C66_built_field is about non-structural ones. C66_default_kept: a default given as such is kept whatever generate_default says. C66_key_order_text: a key order given as text is the list of its words.

*In* `Props/Construct.lean`:
* `C66_built`: C66. What the constructor makes of a polymorphic structure whose discriminator is given by name: the identities are texts, the discriminator is an enumeration of them, and each variant, in order, has its declared members and the discriminator, which has the identity for constant.
* `C66_accepts`: C66. A polymorphic structure constructed with a name for its discriminator accepts a dict exactly when the dict holds, under that name, the identity of a variant, and the plain structure with the members declared for that variant accepts it; the results are the same.
* `C66_identity`: C66. In what is accepted, the identity is found under the name of the discriminator.
* `C66_rejects`: C66. An absent or null discriminator is reported as 'required'; one that is no identity is rejected with an InvalidTypeError at the discriminator.
* `C66_built_field`: C66. A (non-structural) field as discriminator: it is made required, nothing else about it changes, and each variant has its declared members and the discriminator with the identity for constant.
* `C66_own_errors`: C66. Deviation: a discriminator with an error message of its own cannot be used (AttributeError): it is copied for each variant, and such fields cannot be copied.
* `C66_key_order`: C66. Deviation: the constructor accepts only a list of keys (or a text) for `key_order`, but a polymorphic structure with such an order cannot process anything: for every dict whose identity is a non-empty text it raises TypeError.
* `C66_key_order_refused`: C66. Anything else for `key_order`, such as a dict with an order for each identity, is a TypeError.
* `C66_default`: C66. `generate_default=identity`: the default holds the identity and, for each other member declared for that variant, its default, or its constant if it has no default, unless that is None.
* `C66_default_unknown`: C66. A `generate_default` that is no identity is a ValueError.
* `C66_default_kept`: C66. A default given as such is kept: `generate_default` then does nothing.
* `C66_key_order_text`: C66. A key order given as a text is the list of its words; an empty text is no key order.
* `C66_default_plain`: C66. A plain structure takes `generate_default=True`: its default is what `generate_defaults()` gives; any other true value is a ValueError.

### C67 Preprocessors (proved)

A field with a preprocessor treats a value as the same field without it treats what the preprocessor makes of the value (for serialized input: of what was read), in either phase; None and, for structural fields, values of the wrong type are not preprocessed. A preprocessor that raises gives an InvalidTypeError with token 'invalid' about the value it was given; from Sequence, Map and Tuple its exception escapes as it is, and an Enumeration raises KeyError. A Union ignores its preprocessor. A preprocessor that returns None does not make the value null: Text rejects it, and a nonnull field that accepts anything returns None.

*Modelled and proved:* Equalities between the field and the field without its preprocessor (withoutPre): C67_leaf, C67_leaf_serialized, C67_leaf_unreadable, C67_null, C67_structure, C67_poly, C67_sequence, C67_map, C67_tuple, C67_wrong_type, C67_union; failing preprocessors: C67_leaf_failing and in the structural theorems; deviations C67_enumeration_counterexample, C67_none_counterexample. A preprocessor of a structural field that returns a value of another type is simplified in the model and not part of the theorems. These equalities carry the theorems that assume no preprocessor over to fields with one.

*In* `Props/Preprocess.lean`:
* `C67_leaf`: C67. A non-structural field with a preprocessor treats a value as the field without it treats what the preprocessor makes of the value, whichever the phase (Email is stated apart).
* `C67_leaf_serialized`: C67. Reading serialized values, the preprocessor is given what was read.
* `C67_leaf_unreadable`: C67. What cannot be read is reported as it is without the preprocessor.
* `C67_leaf_failing`: C67. A preprocessor that raises: an InvalidTypeError with token 'invalid' about the value it was given, whatever it raised.
* `C67_null`: C67. None is not preprocessed: it is accepted, or rejected as null, as without the preprocessor (and so is a value an Enumeration ignores).
* `C67_structure`: C67. Structures: as the structure without preprocessor treats what the preprocessor makes of the dict; a preprocessor that raises is an InvalidTypeError with token 'invalid'.
* `C67_poly`: C67. Polymorphic structures likewise.
* `C67_sequence`: C67. Sequences: likewise; but what the preprocessor raises is raised as it is.
* `C67_map`: C67. Maps likewise.
* `C67_tuple`: C67. Tuples likewise, for lists and tuples.
* `C67_wrong_type`: C67. Values of the wrong type are not preprocessed: they are rejected as without the preprocessor.
* `C67_enumeration_counterexample`: C67. Deviation: a failing preprocessor of an Enumeration (with its class's messages) raises KeyError.
* `C67_none_counterexample`: C67. Deviation: a preprocessor that returns None makes no null of the value: Text rejects it, and a field that accepts anything returns None although it is nonnull.
* `C67_union`: C67. A Union has no use for a preprocessor.

### C68 The order of dict entries does not matter (proved)

Two values that differ only in the order of entries of dicts, at any depth, are both accepted or both rejected by a field, in either phase and native or serialized, and the results differ only in such order; also a type is rejected for both or for neither, so a union takes the same member. Excepted are preprocessors, surrogates and errors read from containers, polymorphic structures with a key order, and maps in which two keys become the same: there the last one wins, and order decides (exhibited).

*Modelled and proved:* Props/Reorder.lean over Model/Process.lean; induction on the depth of processing with SameData (Spec/Instantiate.lean) between the inputs. The restriction is stated for the values met while processing one of the two, and is shown to carry over to the other. The environment functions used by Decimal (from tuples), Definition and Object are assumed not to look at the order of entries.

*In* `Props/Reorder.lean`:
* `C68_reorder`: C68. The order of dict entries makes no difference: data that differ only in it are both accepted or both rejected, and the results of accepted data differ only in it.
* `C68_rejected_type`: C68. Nor does it decide whether the type is rejected, which is what a union looks at.
* `C68_collapsing_keys`: C68. When two keys of a map become the same, the last one wins, so the order matters.

### C69 Fields through structured text, query strings, XML and YAML (proved)

If a field serializes a value, and what it gives is data the format can carry, then the document is written, and reading it with the field does what native inbound processing of the value does, except that dict entries may come in another order; so a value accepted once comes back the same up to that order. In structured text and query strings numbers are read as text, which Integer and Float fields turn back; with parse_numbers integers come back as such. For YAML this is relative to a reader that reads the documents in question. An empty text is dropped from a query string, so that a required member is missing (exhibited).

*Modelled and proved:* Props/FieldText.lean over Model/FieldFormat.lean, from C03, C40, C41, C43, C44 and C68; numbers as texts by Spec/TextReady.lean. Url-encoding is applied by hand, since its methods take no schema and Field.serialize cannot use it (C46_urlencoded_unreachable).

*In* `Props/FieldText.lean`:
* `C69_structured_text`: C69. Through structured text. Numbers are read as texts, which the fields turn back into numbers.
* `C69_structured_numbers`: C69. Through structured text read with `parse_numbers`: integers come back as integers.
* `C69_query`: C69. Through a query string.
* `C69_xml`: C69. Through XML.
* `C69_yaml`: C69. Through YAML, if the reader of YAML reads the documents it should.
* `C69_accepted`: C69. So what was accepted once comes back the same, up to the order of dict entries.
* `C69_query_blank`: C69. An empty text is dropped from a query string: a required member is then missing.

### C70 A field does what the keyword arguments of its declaration say (proved)

The keyword arguments of a field's constructor determine what it accepts. An Integer, Float, Decimal, Date, Time or DateTime accepts exactly the values of its type from the declared minimum to the declared maximum, both inclusive; a bound that is missing or None does not restrict; bounds of a Decimal, Date, Time and DateTime may be given as texts. A Binary and a pattern-less Text accept exactly the values whose length (after stripping, unless strip is declared false) is between the declared lengths, where nonempty without min_length means at least 1. An Email accepts what its flags declare, a Sequence the lists of a declared length whose items its item field accepts (all different if declared unique), an Enumeration the declared members (given as a list, a tuple or the words of a text), while what it is declared to ignore counts as None. A Map accepts the dicts whose keys and values its fields accept and that have all required keys (listed, or the words of a text), a Tuple what its fields accept item by item, a Union what its first field accepts that does not reject the type, a Token the tokens with the declared number of segments, a Definition the fields of the declared types. A declared constant is the only value accepted. None is accepted exactly if neither nonnull nor nonempty is declared; required is declared by required or nonempty. Arguments of the wrong type are a TypeError (bounds of a wrong type, negative lengths, members that need conversion), and Email(multiple, extended) is a ValueError. Two deviations from what one might expect: bounds are not compared with each other, so that a field may be declared that accepts nothing but None; and nonempty is overruled by min_length=0 and does not keep sequences and maps from being empty.

*Modelled and proved:* End-to-end: theorems about construction (initField) followed by processing. Spec/Declare.lean says what keyword arguments mean without reference to the model's argument readers (Gives, Sets, IntGiven, LengthGiven, DateGiven, TimeGiven, DecGiven, MeetsConstant, MeetsLength, OneOf, Native). For every type an iff for acceptance (C70_integer, _float, _decimal, _date, _time, _datetime, _binary, _text, _email, _sequence, _enumeration, _enumeration_ignored, _map, _tuple, _union, _token, _definition, _null, _common) and, for arguments free of things the model does not represent (Ordinary), an iff for the declaration being possible together with the exception otherwise (C70_*_declared). Deviations: C70_empty_range, C70_nonempty_empty. Not covered: patterns, callables, datetimes as bounds of a Date.

*In* `Props/Declare.lean`, `Props/DeclareMore.lean`:
* `C70_integer`: C70. An Integer accepts exactly the integers from the declared minimum to the declared maximum (a bound that is not given, or given as None, does not restrict) that equal the declared constant.
* `C70_float`: C70. A Float accepts exactly the floats neither below the declared minimum nor above the declared maximum.
* `C70_decimal`: C70. A Decimal accepts exactly the decimals from the declared minimum to the declared maximum, which may be given as decimals or as their texts.
* `C70_date`: C70. A Date accepts exactly the dates from the declared minimum to the declared maximum, which may be given as dates or as their texts; without bounds it accepts datetimes as well.
* `C70_time`: C70. A Time accepts exactly the times from the declared minimum to the declared maximum, which may be given as times or as their texts.
* `C70_datetime`: C70. A DateTime accepts exactly the datetimes that, in the zone it is declared for, do not lie before the declared minimum or after the declared maximum in that zone; the datetime in that zone is returned.
* `C70_binary`: C70. A Binary accepts exactly the byte strings of the declared lengths.
* `C70_text`: C70. A Text without pattern accepts exactly the texts that have a declared length once they are stripped (unless `strip` is declared false); the stripped text is returned.
* `C70_email`: C70. An Email accepts, up to the normalisation of its kind and one trailing newline, nothing or what it is declared for: an address, an extended address or a list of addresses, of a declared length.
* `C70_sequence`: C70. A Sequence of a field accepts a list exactly if its length is declared and the field accepts every item; with `unique` the results must be hashable and all different. Unlike for texts, `nonempty` does not ask for an item.
* `C70_enumeration`: C70. An Enumeration accepts exactly the declared members — listed, or the words of a text — that are not declared to be ignored.
* `C70_enumeration_ignored`: C70. What is declared to be ignored — listed, or as the words of a text — counts as None: it is accepted, as None, unless the field is declared `nonnull` or `nonempty`.
* `C70_null`: C70. Whatever the type, None passes exactly if the field is declared neither `nonnull` nor `nonempty`; otherwise it is refused as null.
* `C70_common`: C70. Whatever the type, the field has the declared name, default and constant, and it is required exactly if it is declared `required` or `nonempty`.
* `C70_integer_declared`: C70. An Integer can be declared exactly if the bounds are ints; otherwise TypeError is raised.
* `C70_float_declared`: C70. A Float can be declared exactly if the bounds are floats (an int is none); otherwise TypeError is raised.
* `C70_decimal_declared`: C70. A Decimal can be declared exactly if the bounds are decimals or their texts; otherwise TypeError is raised.
* `C70_time_declared`: C70. A Time can be declared exactly if the bounds are times or their texts; otherwise TypeError is raised.
* `C70_date_declared`: C70. A Date can be declared exactly if the bounds are dates or their texts; otherwise TypeError is raised. (Datetimes as bounds are not represented.)
* `C70_binary_declared`: C70. A Binary can be declared exactly if the lengths are ints that are not negative; otherwise TypeError is raised.
* `C70_text_declared`: C70. A Text without pattern can be declared exactly if the lengths are ints that are not negative.
* `C70_enumeration_declared`: C70. An Enumeration can be declared exactly if its members are values that need no conversion and nothing else is to be ignored; otherwise TypeError is raised.
* `C70_email_declared`: C70. An Email declared both `multiple` and `extended` is a ValueError.
* `C70_empty_range`: C70, deviation. Nothing compares the bounds: declared with a minimum above the maximum, a field accepts no value except None.
* `C70_nonempty_empty`: C70, deviation. `nonempty` is overruled by a `min_length` of 0, and it has no such meaning for sequences and maps.
* `C70_map`: C70. A Map accepts a dict exactly if the key field (if none is declared: nothing but texts) accepts its keys, the value field its values, and the result has every key declared as required, listed or as the words of a text.
* `C70_tuple`: C70. A Tuple accepts a list or tuple exactly if it is as long as the list of declared fields and each of them accepts its item.
* `C70_union`: C70. A Union accepts a value exactly if some declared field accepts it and all before reject its type.
* `C70_token`: C70. A Token accepts exactly the tokens with the declared number of segments.
* `C70_definition`: C70. A Definition accepts, as native values, exactly the fields of a declared type — listed, or among the words of a text; any field, if none or an empty list is given.

### C71 Where a field sits does not change what it does (proved)

Processing a value with a field at one place of a schema (that is, with one ancestry) and at another gives the same result, or the same exception - the same class, the same error entries, the same offending value - in which only the locations differ, each of them below the respective place. In particular a value is accepted by a field inside a structure, sequence, map, tuple or union exactly if the field alone accepts it, with the same result, and the class of the error, which decides whether a union goes on to its next field, is the same. The same holds for partial processing.

*Modelled and proved:* Relational proof over all processing functions (`Moved` in Spec/Moved.lean relates two outcomes): C71_moved, C71_subset_moved; C71_alone, C71_accepts and C71_rejects are the consequences a user sees. The two places must not be the empty ancestry, which stands for the name of the field itself (C71_alone covers it).

*In* `Props/Locality.lean`:
* `C71_moved`: C71. Where a field sits does not change what it does. Processing at two places gives the same result, or the same exception in which only the locations differ, all of them below the place.
* `C71_subset_moved`: The same for `process(..., partial=True)`.
* `C71_alone`: C71. What a field does as part of a schema is what it does alone; alone, it is located at its own name.
* `C71_accepts`: C71. Whether a value is accepted and what it becomes does not depend on the place.
* `C71_rejects`: C71. So does what kind of exception it is rejected with: the class that unions look at is the same.

### C72 What was read can be written, and is read back as the same value (proved)

A native value that came out of inbound processing (of native or serialized data) can be serialized with the same field without an error, and reading the serialized value gives that native value again. For schemas that contain no Object, Definition or Surrogate field and no local-time DateTime, whose unique sequences, map keys and discriminators are of types serialized as themselves (text, numbers, flags, tokens, ...), the first part needs no assumption about the values at all. The second part then holds of whatever was read of data as formats have it (any data without datetime objects, with existing days and with times of whole seconds), provided that defaults are such data too, that there is no Error field, that years below 1000 are padded by the platform or excluded by a minimum, and that alternatives of unions are told apart by the types they write and read; in such schemas different values that were read are written differently. The other cases are as follows: it needs the conversions of the environment to succeed (time zones, import paths, descriptions), and it fails for unique sequences whose items only differ in what is not serialized, for required keys and for discriminators that look different when serialized, and for values that were not read by the field itself (a required member with a default can be left out when reading, but not when writing; a datetime object given to a Date field, or a default with a fraction of a second, is written without its time or fraction).

*Modelled and proved:* C72_fixed: a fixed point of native inbound processing can be serialized, given `Sendable` for the fields and values at hand (unions of any alternatives included: `rejects_out` shows that an alternative refusing the type of a native value inbound refuses it outbound too). C72_written adds C02 (results are fixed points, under `Settled`), C72_schema replaces the condition on values by one on the schema (`Sends`), C72_read_back adds C03. C72_wire replaces the remaining conditions on values by ones on the schema (`Rereads`) and on the data read (`ArrivingAt`), by induction on the depth with the acceptance lemmas of every field type in both directions; C72_apart follows (different values are written differently). C72_unique_fails, C72_required_key_fails, C72_discriminator_fails, C72_default_fails, C72_native_fails, C72_default_time_fails and C72_year_fails are the exceptions.

*In* `Props/Sendable.lean`, `Props/Wire.lean`:
* `C72_fixed`: C72. A native value that inbound processing leaves as it is can be serialized. (The restrictions need only hold of the values at hand that are themselves left as they are.)
* `C72_written`: C72. What inbound processing accepted, of native or serialized data, can be serialized.
* `C72_read_back`: C72. What was read can be written, and is read back as the same value.
* `C72_schema`: C72. In these schemas everything that is accepted can be serialized.
* `C72_unique_fails`: Two times that differ by microseconds are different, and serialized the same.
* `C72_required_key_fails`: Required keys are looked for among the serialized keys.
* `C72_discriminator_fails`: The variant is looked for by the serialized discriminator.
* `C72_default_fails`: A member filled with its default when read has to be there when written: the value must come out of reading.
* `C72_wire`: C72. What was read of data from outside can be written, and is read back as the same value: no assumption on the values is left, only on the schema.
* `C72_apart`: C72. In these schemas values that were read and differ are written differently.
* `C72_native_fails`: A datetime object given to a Date field is kept when read, and written as a day.
* `C72_default_time_fails`: A default is read as well: a time with a fraction is not written entirely.
* `C72_year_fails`: Where the platform does not pad years, early ones are not read back, unless the field excludes them.

### C73 Relaxing a schema keeps what was accepted (proved)

If each field of a schema is replaced by one that demands no more (lower minimum, higher maximum, pattern, constant, segment count, uniqueness or required keys dropped, enumeration values, field types, variants or further union fields added, null allowed, required members made optional, strictness dropped), then everything the old schema accepted is accepted by the new one with the very same result, in both phases, native and serialized. In a strict structure optional members without a default may be added as well. The limits are as follows: adding a member to a structure that ignores unknown keys, relaxing a union field other than the last, adding a default, and no longer stripping a text can all change or break what was accepted before.

*Modelled and proved:* Spec/Relax.lean says when one field demands no more than another (one level, with a relation R for the sub-fields, so that recursive schemas are covered); it mentions orders of dates, times, decimals and floats as relations of their own. C73_relaxed is proved by induction on the call depth with the acceptance characterizations of each container; results are equal, not merely both accepted. A NaN float bound is excluded, as every float is within it. Union fields other than the last stay the same. The limits are exhibited by C73_added_member_fails, C73_union_fails, C73_default_fails and C73_strip_fails. Ex.newer applies it to two versions of a recursive schema.

*In* `Props/Relax.lean`:
* `C73_relaxed`: C73. If every field of a schema is replaced by one that demands no more — bounds widened, a pattern, a constant or uniqueness dropped, values and variants added, null allowed, members made optional, and, where unknown keys were rejected, optional members added — then whatever was accepted still is, in both directions, native or serialized, with the same result. Schemas may be recursive.
* `C73_added_member_fails`: Deviation: a structure that ignores unknown keys may not get a member: what was ignored is now looked at.
* `C73_union_fails`: Deviation: relaxing a field of a union that is not the last one changes what is read.
* `C73_default_fails`: Deviation: a default, where there was none, is filled in.
* `C73_strip_fails`: Deviation: a text that is no longer stripped may be too long.

### C74 Processing changes no existing object and builds its own containers (proved)

Processing a value, in either direction, partial or not, accepted or rejected, and unless it unserializes by a schema with Definition or Surrogate fields (see C92), leaves every object that existed before the call as it was: the value itself, the defaults declared in the schema, and everything else. Carried out on objects it computes what processing of values computes, with the same exceptions. Apart from containers made by the call, the result contains at most objects that the value or the declared defaults are made of; and when every field of the schema is structural or has values without parts (anything but Field, Object, Definition, Error, Surrogate and an Enumeration of containers), all containers of the result are new, so no later change of the value or of a default shows in the result, and no change of the result shows in the value. The limit is exact: an untyped Field hands out the very container it was given, and the list or dict declared as its default is put into every result, so that changing it in one result changes the others and the schema.

*Modelled and proved:* Model/Heap.lean restates process of all fields as code on a heap of list, tuple, dict and set cells, with explicit allocation and writes (append, d[k]=v, names.remove). C74_untouched: every cell of the old heap is unchanged, for any input including cyclic objects. C74_refines: the outcome is that of Model/Process on the values read off the heap, exceptions included. C74_shares_at_most: the result reads off new cells and those of any set of cells from which value and defaults can be read. C74_fresh: with PartFree schemas it reads off new cells alone; C74_independent and C74_input_independent state this as non-interference. C74_partial_processing: the same for partial=True. C74_untyped and C74_default_handed_out give the limit as equations, C74_shared_default a run of two calls and an append. Exceptions hold contents rather than references; preprocessors are excluded from all but C74_untouched. First claimed of all schemas. That is false of the code: Definition and Surrogate, unserializing, take fieldtype out of the dicts they are given (field.py:70). C74_description_taken is the counterexample, Definition() emptying {'fieldtype': 'integer'}; the theorems assume Spared (no such field, or not unserializing), Lemmas/HeapQuiet.lean shows that then nothing is taken, and C92 says what is taken otherwise.

*In* `Props/Consume.lean`, `Props/Sharing.lean`:
* `C74_description_taken`: The claim C74 was first made of every field. It is false of Definition: what it is given is emptied.
* `C74_untouched`: Whatever it is given - also values and schemas that it rejects, and objects that contain themselves - processing that reads no field descriptions leaves every object that existed before as it was: the value, the defaults of the fields, everything else.
* `C74_refines`: Processing as it is carried out on objects computes the same as the function on values of the other properties: the same result, or the same exception.
* `C74_shares_at_most`: The result is put together from new objects and, at most, from objects that the value and the defaults are made of.
* `C74_fresh`: When every field has values without parts, or is structural, all containers of the result are new.
* `C74_independent`: So what is done afterwards to the objects that were there before the call cannot be seen in the result.
* `C74_input_independent`: And what is done to the result's new objects cannot be seen in the value that was processed.
* `C74_partial_processing`: The same holds of `process(..., partial=True)`.
* `C74_untyped`: The limit: an untyped field hands out the container it was given.
* `C74_default_handed_out`: The limit for defaults: the container declared as the default of an untyped member is itself put into the result.
* `C74_shared_default`: The default list of `Structure({'tags': Field(default=[])})` ends up in the results of two calls. Appending to it in the first result changes the second, and the schema.

### C75 Merging and nested assignment touch only the dicts they are meant to (proved)

recursive_merge(original, addition) updates the original in place: if no dict nested in the original is reached twice and none of them is part of the addition, then exactly the original and the dicts nested in it through dicts may change, no object is created, the addition and every other object keep their content, and the original reads as the merged value of C48. Under a key of the addition the result holds the original's own dict where both hold dicts, and otherwise the very object of the addition (not a copy); other keys keep their objects. Hence a second merge into the same original changes the first addition; with a dict shared between two keys of the original both change; and if the addition is part of the original the merge can raise RuntimeError half way (all exhibited). traverse_to_key changes nothing and returns the object itself; set_nested_value changes one entry of the dict that traverse_to_key finds for the path without its last segment, and nothing when it raises.

*Modelled and proved:* Model/HeapUtil.lean restates the three helpers on the heap of C74, iteration over a dict whose size changes included. C75_merge (frame and value, for every depth from some bound on), C75_merge_objects (which object is under which key), C75_traverse, C75_traverse_untouched, C75_set, C75_set_one (any heap, shared or not). Unsharedness is the inductive Owned of Spec/HeapUtil.lean, which lists the addresses of the nested dicts. C75_first_addition_changes, C75_shared_original and C75_addition_inside exhibit what sharing does.

*In* `Props/MergeShare.lean`:
* `C75_merge`: if no dict is met twice in the original, and none of its dicts is part of the addition, then merging updates exactly these dicts in place and returns the original: it becomes the merged value, and every other object, the addition and all of its parts included, keeps its content; no object is made.
* `C75_merge_objects`: which objects the merged dict holds. Under a key of the addition: the original's dict, if both hold a dict there, and otherwise the very object that the addition holds. Under other keys: what was there.
* `C75_traverse_untouched`: traverse_to_key changes nothing.
* `C75_traverse`: traverse_to_key finds the object itself, which reads as the value of C49.
* `C75_set_one`: set_nested_value changes one entry of one dict: the one that traverse_to_key finds for the path without its last segment. If it raises, it changes nothing.
* `C75_set`: set_nested_value on an object whose own dicts are not shared does what C49 says; it raises exactly when C49 says so, and then nothing has changed.
* `C75_first_addition_changes`: dicts of the addition become part of the original, so that a second merge into the original changes the first addition: `first = {'x': {}}` becomes `{'x': {'y': 1}}`.
* `C75_shared_original`: why the dicts of the original must not be shared: with one dict under two keys, merging under the first key also changes what is under the second.
* `C75_addition_inside`: why the addition must not be part of the original: it then changes while it is iterated over, and merging raises RuntimeError, having changed it.

### C76 A schema without some of its members accepts the corresponding part of everything (proved)

Let one schema be obtained from another by leaving out members of structures, at any depth through sequences, tuples, maps and structures, recursive schemas included, for instance by `filter`. For every value that the larger schema accepts there is exactly one value that lacks the entries of the left-out members and is otherwise the same. The smaller schema accepts it, in the same direction and mode, and its result is the result of the larger schema without the entries of the left-out members. So members do not influence each other. Conditions: no preprocessors on the containers, no key order, no polymorphic structures that change, and no default on a member that itself loses members. Deviations, shown with witnesses: `filter` does not filter defaults, so a member whose default gives a removed member rejects the empty input that was accepted before; and it does not filter key orders, so that every dict then fails with a KeyError.

*Modelled and proved:* Spec/Trim.lean defines when one schema is another without some members (`Narrower`, `Narrows`, in the style of C73) and when a value is another without their entries (`Trim`). C76_narrow: processing carries the relation over from values to results, by induction on the call depth. C76_exists, C76_unique: there is exactly one such value. filter_narrows and C76_filter: `filter` gives such schemas. C76_default_kept, C76_key_order_kept: the deviations. Unique sequences need no exception because their items must be hashable, hence contain no dicts.

*In* `Props/Trim.lean`:
* `C76_unique`: C76. There is at most one such value.
* `C76_narrow`: C76. What a schema accepts, less the entries of some of its members, is accepted by the schema without these members, and the result is the same, less the entries of these members: native or serialized, in both directions, whatever the depth of the members, recursive schemas included.
* `C76_exists`: C76. For every accepted value there is one without the entries of the left-out members (and by `C76_unique` only one).
* `C76_filter`: C76. Filtering a schema: whatever the schema accepts has exactly one part without the entries of the members that `filter` removed; the filtered schema accepts that part, and its result is the same part of the result.
* `C76_default_kept`: C76. A default is not filtered: a member with the default {'name': 'jo', 'phone': 7} keeps it when its 'phone' is removed, and the empty input, accepted before, is then rejected.
* `C76_key_order_kept`: C76. A key order is not filtered either: it still names the removed members, and every dict fails with a KeyError.

### C77 The text of an error lists every mistake once, numbered, and can be read back (proved)

str(error) (format_errors) is the line 'validation failed' followed by one numbered paragraph per entry of the error itself and of every error without structure nested in it, at any depth and in order; a paragraph starts with the capitalized title, the location and the message, followed by the field, the value unless it is None, and captured tracebacks. The lines starting with '[' are exactly the first lines of paragraphs, so they count the mistakes, and the text determines the list of paragraphs. For errors raised by processing there is exactly one paragraph per rejected place. Making the text raises exactly when repr of a listed field raises or a listed value is a tuple that does not have one element (deviation: '%r' % value takes a tuple apart; so str() of the error for Text given a pair raises TypeError, and a tuple of one is shown as its element). Further deviations: entries of nested errors that also have a structure are left out; error objects accepted as values next to a wrong member are listed as errors.

*Modelled and proved:* Model/ErrText.lean models __str__, format_errors, _format_errors and _format_structure; what the field of an exception object shows (FieldError flags, repr) and its tracebacks are functions of the object, quantified over. Spec/ErrText.lean states which errors are listed (WithinErr, listed), the paragraphs (Paragraph) and the layout of lines (blocks). C77_nodes/C77_found: what is listed; C77_text, C77_starts: paragraphs and lines; C77_unambiguous: the text determines the paragraphs; C77_raises: exactly when it fails; C77_process, C77_validation: errors raised by processing (with C08) for schemas accepting no error objects, for which C77_no_error_values gives a sufficient condition (with C01); C77_tuple_value, C77_single_tuple, C77_accepted_listed, C77_entries_dropped: deviations. Located.tuple (C08) was strengthened for this: the sub-fields are resolved.

*In* `Props/ErrText.lean`:
* `C77_nodes`: The nodes the text is about are the error itself, if it has entries, and the errors without structure inside it.
* `C77_found`: whatever error without structure is found by following indices and keys is among them.
* `C77_text`: the text of an error is a headline followed by one numbered paragraph for each entry of each error that is listed, in order.
* `C77_starts`: the lines of the text that start with a bracket are exactly the first lines of its paragraphs, so they count the entries; the line for an entry whose title and message take one line says its title, location and message.
* `C77_unambiguous`: the text determines the paragraphs.
* `C77_raises`: the text can be made unless the `repr` of a field raises or a value is a tuple that does not have one element.
* `C77_process`: the errors a field raises list one entry for each node, provided none of the fields accepts error objects as values.
* `C77_validation`: the text of an error a field raises can be made, with as many numbered lines as there are errors, unless the `repr` of a field raises or one of the values is a tuple that does not have one element.
* `C77_no_error_values`: a schema without plain, Object and Error fields, and without error objects in enumerations, accepts no error objects.
* `C77_two`: Two members are wrong.
* `C77_tuple_value`: Deviation: the text of the error for a tuple of two cannot be made, whatever the world is like.
* `C77_single_tuple`: Deviation: a tuple of one is shown as its element.
* `C77_accepted_listed`: Deviation: an error object accepted by an Error field is listed next to the error of the member that is wrong.
* `C77_entries_dropped`: Deviation: entries of a nested error that also has a structure are left out, those of the outermost one are not.

### C78 The generated documentation of a field says what the field declares, and its text can be read back (proved)

From field.describe() DocumentationGenerator._document_field makes a block that has the field's name and lists, in this order and exactly as far as they are set and can be described: type (with the type of the keys for the values of a Map), description, notes, nonnull, ignore_null, required (except in the role 'schema'), constant, default, title, then what the kind of field adds: limits of numbers, texts and sequences, unique, the values of an Enumeration and required keys in ascending order, and one block per part (members, items, values, variants in order of their identities). It succeeds exactly if no documented part is an obstacle, and otherwise raises what one of them raises. Deviations: the generator as shipped raises AttributeError for every Structure that has members (_collate_fields does not exist) and every generator raises NameError for a Union that has fields; Enumerations of other values than texts raise TypeError, so do required keys and identities that cannot be sorted; limits of Date, Time and DateTime and patterns are never stated; the upper limit of a Decimal is called min; variants leave out members called 'type' whatever the discriminator is called. Every option written is one the directive 'field' accepts (flags without a value) except notes. The rendered text determines the blocks, with depth, names and options, if no name has several lines and no value a blank line; a blank line in a description makes later options such as required unreadable. The line shown for a field is name, type, subtype, key, constant or else default, limits, flags, title; example and notes are never shown.

*Modelled and proved:* C78_says: the block is one that `Documents` (Spec/Doc) describes; C78_possible, C78_raises: success exactly without `Obstacle`; C78_shipped_structure, C78_union: deviations; C78_options, C78_notes: options known to the directive; C78_read, C78_text: reading the rendered text (reader in Spec/DocText); C78_lost: a blank line loses options; C78_signature, C78_ignored: what the directive shows. Induction on the depth of the description and on the block tree. Values of parameters are simple data or of a type that cannot be described (DocSimple).

*In* `Props/Doc.lean`, `Props/DocText.lean`:
* `C78_says`: the documentation generated from the description of a field says exactly what `Documents` lists: in a block with the name of the field its type, description, notes, flags, constant, default and title as far as they are set and can be described, then what the kind of field adds, then one block for each part.
* `C78_possible`: which fields can be documented: those with no obstacle in any part that is documented.
* `C78_raises`: what is raised for fields that cannot be documented is what one of the obstacles raises.
* `C78_shipped_structure`: the generator as it is cannot document a Structure that has members: it calls a method it does not have.
* `C78_union`: no generator can document a Union, whatever method it is given to list members.
* `C78_options`: every option the generator writes is one the directive `field` has, except `notes`; those that are flags are written without a value.
* `C78_notes`: the directive has no option `notes`.
* `C78_read`: from the text of a documentation its blocks can be read, each with its depth, name and options, provided no name has several lines and no value has blank lines.
* `C78_text`: so different documentations have different texts.
* `C78_ignored`: `notes`, were it accepted, and `example`, which is, would not be shown.
* `C78_signature`: the line shown for a field: the name, then type, subtype, key, constant or else default, limits, flags and title, as far as they are given.
* `C78_block`: a structure block shows its name, and then its contents if there are any.
* `C78_lost`: a description that has a blank line ends the options: `required` is lost.

### C79 repr(field) lists exactly what the field sets, tells fields apart, and can be made for recursive schemas unless they recur through sequences and maps alone (proved)

`repr(field)` is the class name followed by the parameters the field sets, in one fixed order (name, those of the type, constant, default, nonnull, required, ignore_null, title), each with the repr of its value; nested fields appear as they would appear alone. A tuple or dict of fields that is already being shown appears as dots, so schemas that contain themselves through structures, tuples or unions can be shown. For a schema of finitely many objects repr can be made exactly if no field in it has a default or title that is a tuple of other than one value, or required keys that cannot be sorted (TypeError), and no field contains itself through sequences and maps alone (RecursionError at any stack depth). Provided the reprs of values can be told from what follows them, two fields with the same repr have the same class and show the same parameters with the same texts. Exceptions exhibited: a default that is a tuple of one value is shown as that value, the value of a constant and false constants are not shown, every Email shows strip=False.

*Modelled and proved:* Model/Repr.lean works on a graph of cells with the tuples and dicts in progress (Py_ReprEnter). Spec/Repr.lean says per key what a field shows (shownAt), how it is written (Renders, DepictsCell), what cannot be shown (CannotShow) and what a loop is (DirectChain). C79_text, C79_alone, C79_depth; C79_possible (iff, for finitely many objects), C79_enough (a bound on the depth), C79_raises, C79_endless; C79_unambiguous under SelfDelimiting; C79_recursive, C79_sequence_of_itself and C79_shown_wrong are concrete. repr of values is a parameter and does not raise.

*In* `Props/Repr.lean`, `Props/ReprText.lean`:
* `C79_text`: the text of an object that is not in progress is what `DepictsCell` says, in terms of the texts of the objects it refers to: for a field the class and, in a fixed order, the keys it shows.
* `C79_depth`: more depth never changes a text.
* `C79_alone`: an object is shown inside of others as it is shown alone, unless a tuple or dict it shows is in progress.
* `C79_possible`: for an object that shows finitely many objects, `repr` can be made, given enough depth, exactly if none of them is a field with something that cannot be shown, and none shows itself through sequences and maps only.
* `C79_enough`: how much depth is enough.
* `C79_raises`: `repr` raises nothing but RecursionError, and TypeError where a field has something that cannot be shown.
* `C79_endless`: a field that shows itself through sequences and maps only raises RecursionError whatever the depth, unless something cannot be shown.
* `C79_unambiguous`: two fields with the same text have the same class and show the same keys, each with the same text.
* `C79_recursive`: a structure that contains itself is shown, the second time by dots.
* `C79_sequence_of_itself`: a sequence of itself cannot be shown.
* `C79_shown_wrong`: a default that is a tuple of one value is shown as the value, one of two values makes `repr` fail; the value of a constant is not shown, nor is a constant that is false; every Email shows `strip=False`.

### C80 Extracting with parameters takes what the wanted fields take, as a filtered schema would (proved)

extract(subject, **params) takes from the subject exactly what the fields wanted by the parameters take: a member, item, entry or tuple value whose field is not wanted is left out, with everything below it, and everything else is extracted as without parameters. It succeeds exactly when the wanted part of the subject has the shape of the schema, whatever the rest looks like, and raises FieldExcludedError exactly when the field itself is not wanted. Extracting in two steps is extracting once: if the first extraction wants all that the second wants and keeps the shape (all values of tuples, and discriminators with truthy identities), the second gives the same from its result as from the subject, so extracting again with the same parameters changes nothing. For parameters that are neither None nor equal to False it has the same outcome, exceptions included, as filter(all=True, **params).extract(subject), whenever that schema can be filtered, no structure loses all members and discriminators are wanted. Schemas have no unions and no extractors here. Deviations, shown with witnesses: tuples close up, so that extracting again raises IndexError; a discriminator that is not wanted is dropped, so that extracting again raises KeyError; a union counts as excluded as soon as one of its fields is, although a later one would do; the parameter False excludes fields without the attribute, which filter keeps; filter returns a structure none of whose members are wanted unfiltered.

*Modelled and proved:* Spec/Screen: a big-step relation `Screened` on schemas and subjects, parametrised by the set of wanted fields. C80_exact: extraction returns w iff Screened; C80_excluded; C80_after (two steps), C80_again; C80_filter (equality of outcomes with the filtered schema, polymorphic structures included). Witnesses: C80_tuple_moves, C80_discriminator_dropped, C80_union_excluded, C80_false_parameter, C80_none_wanted.

*In* `Props/ScreenFilter.lean`:
* `C80_exact`: C80. Extracting with parameters, for schemas without unions and extractors, given enough stack for the nesting of the subject: the call returns exactly what the fields wanted by the parameters take from the subject, and returns nothing else from nothing else.
* `C80_excluded`: C80. FieldExcludedError is raised exactly when the field itself is not wanted; fields below never make it raise this.
* `C80_after`: C80. Extracting in two steps: when the first extraction wants everything that the second one wants, and keeps the shape (all values of tuples, and discriminators, whose identities are truthy), then the second extraction gives the same from the result of the first as from the original subject.
* `C80_again`: C80. Extracting again with the same parameters changes nothing, when the parameters keep the shape.
* `C80_filter`: C80. Extracting with parameters is extracting by the filtered schema: for parameters that are neither None nor equal to False, `f.extract(v, **params)` and `f.filter(all=True, **params).extract(v)` have the same outcome, results and exceptions alike, provided that the schema can be filtered, that no structure loses all its members, and that discriminators are wanted.
* `C80_tuple_moves`: C80. A tuple loses the values of fields that are not wanted, and the others move up: extracting again from what was extracted raises IndexError.
* `C80_union_excluded`: C80. A union does not go on to the next field when one is not wanted: the whole union counts as excluded, although its second field is wanted and takes the value.
* `C80_false_parameter`: C80. The parameter False: filtering keeps a field without the attribute, extraction excludes it.
* `C80_none_wanted`: C80. A structure none of whose members are wanted gives nothing, while filtering returns it unfiltered.
* `C80_discriminator_dropped`: C80. A discriminator that is not wanted is dropped although the variant was chosen by it: extracting again raises KeyError.

### C81 Extracting, instantiating and interpolating change no existing object and build their own containers (proved)

On the heap of mutable objects, extract, instantiate and interpolate change no list, tuple or dict that exists when they are called, whether they succeed or raise, provided that the user's extractors, instantiators, attribute getters and the template engine do not. Their outcome is that of the functions on values, and a result consists only of new objects and of objects the subject (the attributes found, the parameters) consists of. Without extractors or instantiators the containers of a result that belong to Sequence, Tuple, Map and Structure fields are new and pairwise different, even where one object occurs several times in the subject or the whole container is a parameter; the containers of two results are different. A field without parts hands out the very object it found: so changing a list in the result of extracting by an untyped Field changes the subject, and interpolating an untyped Field from '${p}' returns the parameter object itself.

*Modelled and proved:* Model/HeapExtract.lean models the three methods once more on the heap. _untouched: no cell below the old length changes. _refines: Computes (same outcome as the value model, result made of K and new cells). _own: relation Copied of Spec/Traverse.lean, with the list of containers made, which has no repetition and only new addresses. C81_extract_leaf, _extract_shares, _extract_separates and _interpolate_shares show what is and is not shared. The items of a container are read when a loop over it begins; dict keys of heap cells are compared by value.

*In* `Props/Traverse.lean`:
* `C81_extract_untouched`: C81. Extracting changes no object that was there before, whether it succeeds or not, provided that the user's functions do not.
* `C81_instantiate_untouched`: C81. The same of instantiating.
* `C81_interpolate_untouched`: C81. The same of interpolating, provided that the template engine changes no object.
* `C81_extract_refines`: C81. On the heap, extracting gives what it gives on values, and the result consists of new objects and of objects that the subject or the attributes of user objects consist of.
* `C81_instantiate_refines`: C81. The same of instantiating.
* `C81_interpolate_refines`: C81. The same of interpolating, where `K` includes what the parameters consist of.
* `C81_extract_own`: C81. Without extractors, the result of extracting is, along the schema, made of new containers, no one of which occurs twice; a field without parts hands out the very object that was found, in the container or as an attribute.
* `C81_instantiate_own`: C81. The same of instantiating without instantiators.
* `C81_interpolate_own`: C81. The result of interpolating, too, is made of its own containers along the schema, even where a whole container comes from a parameter; only what a field without parts returns may be an object of the parameters.
* `C81_results_apart`: C81. The containers of the results of two calls are different ones.
* `C81_subject_independent`: C81. Whatever is done to containers made by extracting, the subject stays what it was.
* `C81_extract_leaf`: C81. A field without parts hands out the subject itself, container or not.
* `C81_extract_shares`: C81. A container that a field without parts hands out is shared with the subject: extracting `[x, x]`, with `x` an empty list, by `Sequence(Field())` gives a new list whose items are `x` itself, and appending to the first item of the result changes both items of it and both items of the subject.
* `C81_extract_separates`: C81. With `Sequence(Sequence(Field()))` the two items become different lists: appending to the first item of the result changes neither its second item nor the subject.
* `C81_interpolate_shares`: C81. An untyped field interpolated from `${p}` returns the parameter object itself, so that changing the result changes the caller's parameters; a sequence returns a new list.

### C82 clone(**params) is the copy of the field in which exactly what the parameters name is changed (proved)

For every field f built by the constructors and every call f.clone(**params): (1) without parameters the call, which goes through f.__dict__ and the constructor, gives the structural copy of C53, with the same failures (AttributeError where a field has messages of its own, RecursionError for schemas that are cyclic or hold undefined placeholders). (2) With parameters naming attributes (name, default, constant, nonnull, required, ignore_null, description, title, notes, the three callables, and the bounds, lengths, patterns and flags of each class) the result is the copy of f in which these and no other attributes have the values given; a parameter that no constructor names becomes the aspect of that name, except that None and names with a leading underscore change nothing, so an aspect cannot be removed that way. `aspects` replaces all aspects before the other parameters add theirs. `nonempty=True` wins over nonnull and required and sets a minimum length of 1 on Text, Binary and Email unless there is one; `nonempty=False` changes nothing. (3) The clone processes every value like the changed field. (4) `errors=` replaces the messages, and makes a field with messages of its own cloneable, where clone() raises AttributeError; an Email keeps its own. (5) `item=`, `values=`, `fields=` and `structure=` take the place of the old fields, which are not copied, so the call succeeds whatever they are, and the new ones are taken as they are, except that members without a name get one. (6) Deviation: an Enumeration given another `enumeration` keeps the text describing the old values as its aspect `representation`.

*Modelled and proved:* C82_plain relates the generic code of Model/CloneArgs (fieldDict, cloneLoop, newField) to the structural clone of C53; C82_changes is the equation for all parameters against the separate relation Changes of Spec/CloneParams; C82_behaves follows with C53_behaves. C82_errors, C82_replaces, C82_stale are the remaining clauses. Hypotheses: Made (what the constructors establish) at every child and at the changed field. Parameters whose values the constructors convert (bounds given as texts) or refuse, and `representation` given as a parameter, are outside the relation. Where two arguments are wrong, which error is raised is not represented.

*In* `Props/CloneParams.lean`:
* `C82_plain`: C82. `field.clone()` with no arguments is the copy that C53 is about.
* `C82_changes`: C82. Keyword arguments: the clone is the clone of the field with the aspects and errors replaced that are given, with the attributes changed that the other arguments name, and with what `nonempty` asks for.
* `C82_behaves`: C82. A clone behaves as the changed field does.
* `C82_errors`: C82. With the argument `errors` a field that has messages of its own can be cloned, other than with `clone()`.
* `C82_replaces`: C82. An argument that holds fields takes the place of the one before; the old one is not copied: it need not be one that can be copied.
* `C82_stale`: C82. An Enumeration given other values keeps the text that names the old ones: as an aspect of the clone.

### C83 Unions of different types round trip (proved)

If the alternatives of a union are for different native types (text, numbers, flags, dates, lists, dicts, ...), then the native values they give tell them apart, so that processing a result again changes nothing. If moreover no alternative writes a type that an earlier one reads (Integer reads texts, Date reads texts, and so on), then what is written tells them apart, and a value accepted once comes back from serialize and unserialize exactly. Through JSON, which turns tuples into lists, the same holds when lists are counted for the tuples written. The order matters: with Integer before Text the text '5' comes back as a number; with Sequence before Tuple a tuple comes back from JSON as a list (both exhibited).

*Modelled and proved:* C83_natives, C83_written and C83_json reduce the conditions NativesApart, WrittenApart and CarriedApart (Spec/Alternatives.lean; assumed of unions in C02, C03, C57, C69, C72) to tables of types (Spec/Types.lean): by typed_result/typed_written what a field gives or writes is of its types, by typed_rejects/read_rejects a value of another type is an InvalidTypeError, which makes the union try the next alternative. C83_round combines them for unions of simple fields. C83_order_fails and C83_json_fails exhibit the two orders that fail.

*In* `Props/Alternatives.lean`:
* `C83_natives`: What alternatives for different types make of a value tells them apart.
* `C83_written`: What alternatives for different types write tells them apart, if what can be written is accepted natively.
* `C83_json`: The same for what comes back through JSON, where tuples become lists.
* `C83_round`: A union of simple fields for different types: a value accepted once comes back when it is written and read.
* `C83_order_fails`: The order matters: with the Integer before the Text, the text '5' comes back as a number.
* `C83_json_fails`: A Sequence before a Tuple reads back the tuples that are written as they are, but takes the lists that JSON makes of them.

### C84 Schemas made by the constructors meet the conditions of the other claims (proved)

Whatever is built by calling constructors on fields so built - structures with named members, polymorphic structures on a name or on a field, placeholders defined by such fields, recursive ones included - has named members, distinct names, and in every variant the discriminator with the identity for its constant. Hence, if no field has a preprocessor, ignore_null is combined neither with a default nor with required, and the alternatives of unions can be told apart, processing the result of processing changes nothing; what was read can be written, and is read back as the same value where the types lose nothing; and clones behave like the original.

*Modelled and proved:* Spec/Composed.lean: `Composed` (made by newStructure/newPolymorphic and the other constructors, parameter conditions `Restrained`, `Portable`), `ComposedDefs` (placeholders). C84_built: Built and GoodNames everywhere (the hypotheses of C29, C30, C34-C36, C53, C76, C80, C82). C84_settled: Settled everywhere (C02). C84_again, C84_written, C84_clone: the consequences. The example is a polymorphic structure that contains itself, made by newPolymorphic. Simplification: the constructors run with the placeholders already defined.

*In* `Props/Composed.lean`:
* `C84_built`: C84. What the constructors make is as C53 and the claims about descriptions, filters and edits ask: members are named, and each variant of a polymorphic structure holds the discriminator with its identity for constant.
* `C84_settled`: C84. With the parameters C02 asks for, what the constructors make is as C02 asks.
* `C84_again`: C84. Processing with a schema made by the constructors: a second pass changes nothing.
* `C84_written`: C84. What a schema made by the constructors has read, it can write; read again, that gives what was read, wherever the types lose nothing when written.
* `C84_clone`: C84. A clone of a schema made by the constructors behaves like the original.

### C85 Changing one part of a value changes the outcome only at that part (proved)

Take a value and a position in it that is reached through items of sequences (without unique), tuples, entries of maps, members of structures and of the variant a discriminator selects, none of these containers having a preprocessor. Replace what is there. If both values are processed (accepted or rejected with a structural error), then everything the two outcomes show at positions off the path to the changed part is the same: results stay the same results and reported errors stay the same errors. At the position itself the outcome shows exactly what the field of that part makes of the part alone. Either both outcomes show the part, or both are rejected by a container on the way to it with the same error that speaks about the container as a whole (a length, an invalid key). An accepted value has its part accepted by the part's own field; replacing the part by another one that this field accepts gives an accepted value whose result is the earlier result with just that part replaced; replacing it by a part that this field rejects gives a rejection whose error shows the part's error at the part's place. If the field of the part accepts or rejects the new part, the changed value is accepted or rejected, no other exception appears. For sequences whose items have to be unique none of this holds: a change of one item can make the whole sequence be rejected.

*Modelled and proved:* `Gap` (Spec/Local.lean) describes the position: a context, the path to the part in the outcome, and the field, location and depth at which the part is processed. `RevealsAt` reads results and error structures alike. Lemmas/Local.lean shows for each container how its outcome depends on the outcome of one part (never processed to the end, rejected as a whole, or open with a hole); Props/Local.lean composes these along the path. C85_unique is the counterexample for unique sequences.

*In* `Props/Local.lean`:
* `C85_elsewhere`: C85. Whatever the outcome shows away from the changed part, the changed value's outcome shows too.
* `C85_there`: C85. What the outcome shows at the part is the outcome of the part's own field.
* `C85_reached`: C85. Both outcomes show the part, or on the way to it a container is rejected as a whole, in both outcomes with the same error.
* `C85_part`: C85. An accepted value has its part accepted by the part's field, and the result of the part is in its place.
* `C85_replace`: C85. An accepted value with a part replaced by another accepted part is accepted, and its result is the earlier result with that part replaced.
* `C85_break`: C85. An accepted value with a part replaced by one that its field rejects is rejected, and the error shows the part's error at the part's place.
* `C85_ends`: C85. If a value is accepted or rejected, so is the value with the part changed, provided that the part's own field accepts or rejects the new part.
* `C85_unique`: C85. Items that have to be distinct are not independent: the same change of the second item leaves the outcome without the first.

### C86 Values are compared, hashed, stored and spelled as Python does (proved)

The Python operations that the other claims are phrased with mean what Python means by them. Equality holds exactly of numbers denoting the same number (1, 1.0, True and Decimal('1.0') are equal, NaN equals nothing), of lists and tuples that are equal item by item, of dicts that are equal entry by entry in any order, of the same object, and of equal content within one type. A value is unhashable exactly when it is, or is a tuple holding, a list, a dict or a surrogate. A value is false exactly when it is None, a zero of any numeric type or something empty. Reading, storing and deleting under a key affect the first entry whose key equals it, in place, and storing under a new key appends. Items are unique exactly when no two of them are equal. Numbers are written in decimal without leading zeros, lower case, joining, splitting and stripping text are what they are in Python.

*Modelled and proved:* The model's operations are related to inductive descriptions in Spec/Python.lean, so that the other claims, which are phrased with them, do not depend on how the model computes them.

*In* `Props/Python.lean`:
* `C86_equal_iff`: C86. `==` on the values the library handles.
* `C86_hashable_iff`: C86. A value can be hashed unless a list, dict or surrogate has to be.
* `C86_falsy_iff`: C86. `bool(v)`.
* `C86_get`: C86. `d[k]` is the value of the first entry whose key equals `k`.
* `C86_set`: C86. `d[k] = v` replaces the value of the entry whose key equals `k` in place, or appends an entry.
* `C86_del`: C86. `del d[k]` removes the entry whose key equals `k`.
* `C86_distinct_iff`: C86. `len(set(l)) == len(l)`.
* `C86_numeral`: C86. `str(n)`.
* `C86_integer`: C86. `str(i)`.
* `C86_index_step`: C86. The step of an identity into a list.
* `C86_lower`: C86. `s.lower()`.
* `C86_join`: C86. `sep.join(parts)`.
* `C86_split`: C86. `s.split(sep)`: the parts, in which the separator does not occur, joined by it are the text.
* `C86_strip`: C86. `s.strip()`.

### C87 Asking describe() for additional parameters adds exactly those the fields have, at every level, and changes nothing else (proved)

Let p be the dict given as describe(parameters=p, verbose=...). With an empty p the description is that of describe(verbose=...). Otherwise, whenever both descriptions exist: under each name of p for which the field has an attribute other than None, not the given default (unless verbose), the description has that attribute - simple data as it is, a field by its own description - unless the field's class states that name itself (the set bounds of Date, DateTime, Decimal and Time, the parts of fields with parts, the default of fields with parts other than Union); under every other name, except those of the parts, it has exactly what it has without p. The parts - item, key, value, values, fields, members, discriminator and members of every variant - are described with the same p, in their places and order. If fields occurring as attribute values can be described or are left out, there is a description with p exactly if there is one without.

*Modelled and proved:* Model: describeW with descExtra (second source of the loop), a copy of describe that passes the further parameters on; `is` between attribute and default is an arbitrary relation, class attributes are an arbitrary function (Outer.attr). C87_none: empty dict. C87_own: the field itself, with the spec relations Added, NotAdded, StatedByClass, PartName. C87_parts: nested descriptions (TellsParts); for polymorphic structures with different identities that serialize to themselves, and if descriptions of field values describe themselves. C87_possible: existence. Names in the dict are distinct (it is a dict).

*In* `Props/DescribeWith.lean`:
* `C87_own`: C87. What asking for further parameters adds to what is said about the field itself.
* `C87_none`: C87. Nothing asked for is the plain description.
* `C87_parts`: C87. The parts of the field are described with the same further parameters, in their places and order.
* `C87_possible`: C87. Asking for further parameters does not decide whether there is a description, if fields that are values of attributes can be described or are left out.

### C88 Filtering again changes nothing, and filtering in steps is filtering once (proved)

What filter(all, **p) returns is returned as it is, the same object, when it is filtered by the same parameters again. Filtering in two steps, f.filter(all=True, **p).filter(all=True, **q), has the outcome of f.filter(all=True, **p, **q), results and exceptions alike, whenever the first step succeeds; so the order of the steps does not matter where both orders succeed. A field the first step leaves out is left out by both together. Schemas have no polymorphic structures here and the key fields of maps have no fields below them; parameters name attributes that every field has or aspects, and for the second claim no structure loses all its members. Deviations, shown with witnesses: a structure none of whose members pass both filters is returned unfiltered by the one filter while the two steps leave the members that pass the first; a first step may raise CannotFilterError for a list that both filters together leave out; and a polymorphic structure whose discriminator does not pass is built anew every time.

*Modelled and proved:* C88_again (same object again), C88_steps (the equation for outcomes, exceptions included), C88_gone, C88_order; by induction on the call depth, with the composition of outcomes stated in Spec/FilterTwice.lean. Deviations: C88_emptied, C88_first_raises, C88_polymorphic_again.

*In* `Props/FilterTwice.lean`:
* `C88_again`: C88. Filtering again changes nothing: what a filter returns is returned as it is, the same object, by the same filter.
* `C88_steps`: C88. Filtering in steps is filtering once: where the first step succeeds, `f.filter(all=True, **p).filter(all=True, **q)` has the outcome of `f.filter(all=True, **p, **q)`, results and exceptions alike, unless some structure loses all its members.
* `C88_gone`: C88. A field that the first filter leaves out is left out by both together.
* `C88_order`: C88. The order of the steps does not matter: where both ways succeed, the results are equal.
* `C88_emptied`: C88. A structure that loses all its members: a structure with a member that is required and one that cannot be null is returned unfiltered by a filter for both, while in two steps the first member remains.
* `C88_first_raises`: C88. A first step that raises: a required list of optional numbers cannot be filtered by `required`, although a filter for both, and the steps in the other order, leave the list out.
* `C88_polymorphic_again`: C88. A polymorphic structure whose discriminator does not pass: it is stored again by the constructor, so that filtering again builds an equal field instead of returning the field itself.

### C89 Data that was read survives being made into objects and back (proved)

For a schema without unions, preprocessors and key_order whose fields have either no instantiator and extractor or a pair that undo each other, and whose polymorphic identities are truthy: if process() accepted or read w, no dict in w has an entry that is None, and instantiate(w) returned x, then extract(x) returns exactly w, with members in the same order. When instantiators accept what they are given, instantiate(w) does succeed. Data from outside that was read, instantiated, extracted and serialized again is read as what was read first.

*Modelled and proved:* C89_cycle, C89_instantiable, C89_wire (with C72). Deviations: C89_key_order (order changes), C89_falsy_identity (KeyError), None members are dropped (C31_none_dropped).

*In* `Props/Cycle.lean`:
* `C89_key_order`: C89. With `key_order` the members are read in that order and extracted in the declared one.
* `C89_falsy_identity`: C89. A variant whose identity is falsy is read, but cannot be made into an object.

### C90 A schema can be sent as JSON (proved)

The description of a schema can be written as JSON text, and reading that text gives the very same description; so whoever receives the text reconstructs a field that gives the same result as the field described for every value, phase and serialization flag. It follows that two schemas whose descriptions have the same JSON text behave the same. This holds for all schemas a description carries (C29) whose constants, defaults, enumerations, aspects and required keys are made of None, booleans, numbers, texts, lists and dicts with text keys, and whose identities are texts. It fails for identities that are numbers (the reconstructed field refuses what the original accepts), and the default of a Tuple becomes a list.

*Modelled and proved:* C90_text: by induction over the call depth every description of an exchangeable schema is made of what JSON keeps (describe_kept), hence C56 applies. C90_exchanged adds C29. C90_same_text: equal texts, equal behaviour. C90_identities and C90_tuple_default are concrete deviations.

*In* `Props/Exchange.lean`:
* `C90_text`: C90. The description of a schema can be written as JSON, and reading the text gives the very same description.
* `C90_exchanged`: C90. The field that whoever receives the text reconstructs from it behaves the same.
* `C90_same_text`: C90. Schemas with the same text behave the same.
* `C90_identities`: Identities that are numbers become texts: the field that was sent accepts `{'kind': 1}`, the one received refuses it.
* `C90_tuple_default`: The default of a Tuple becomes a list.

### C91 A transformer that relaxes fields relaxes the schema (proved)

When every field a transformer answers with demands less than the field it was asked about (wider bounds, more values, no longer required, nullable), the schema that `transform` gives accepts every value that the original schema accepts, in both phases and with or without serialization, with the same result; for instance a schema for updates, derived from one for creation by making members optional, accepts whatever creates. This holds as long as nothing is replaced inside of a union and fields with parts have no preprocessor; inside of a union it fails, because the relaxed alternative may take over what a later one accepted.

*Modelled and proved:* C91_lenient: the relation between a field and what transform makes of it, closed under naming of members and copying of key fields, is a relaxation in the sense of C73 (Len.relaxes), so C73_relaxed applies. C91_leaves: the case of simple fields. C91_union_fails: concrete deviation. Not covered: map key fields that are not simple fields.

*In* `Props/Lenient.lean`:
* `C91_lenient`: C91. When a transformer replaces fields by ones that demand less, the transformed schema demands less: it accepts whatever the original accepts, with the same result.
* `C91_leaves`: C91. In particular when only simple fields are replaced.
* `C91_union_fails`: Deviation: inside of a union a field that demands less may take over what another one accepted.

### C92 Reading a description takes its field types out of it (proved)

`Field.reconstruct(description)`, successful or not, makes no objects and changes none except that dicts met in the description lose their entry `fieldtype`. If no dict with `fieldtype` occurs twice in the description and it is accepted, exactly these dicts lose it, all of them, and what is left of the description is itself without any `fieldtype`; the field is the one its value describes. So a description can be read once: reading the same object again, after success or failure, raises ValueError and changes nothing. A Definition field that unserializes a dict, and a Surrogate field with the entry `__schema__` of its dict, do exactly this to the caller's objects, whatever the outcome, and a Definition refuses the same dict as invalid the second time. A description in which one dict occurs at two places is refused although its value describes a field.

*Modelled and proved:* Model/HeapReconstruct.lean is reconstruct, construct and _construct_parameter on heap objects, with pop as a write. C92_only_types: the frame condition, by induction on depth, for every outcome and any heap. C92_exact: simulation between it and Model/Describe.reconstruct over the relation Described, which lists the dicts with fieldtype in the order they are met. C92_left_over: what the object reads as afterwards. C92_once: the second call. C92_definition, C92_surrogate: hProcess of the two fields leaves old cells as hReconstruct does; C92_definition_once: the second call is refused, for environments whose reconstruct refuses dicts without fieldtype (noTypeNoField derives this from the model of reconstruct). C92_shared: the concrete refused description. Not modelled: what the schema found in __schema__ then does to the other entries of a surrogate's dict, and the outcome of Definition on shared descriptions, which in hProcess is that of the value.

*In* `Props/Consume.lean`:
* `C92_only_types`: Whatever it is given - accepted or refused, shared, or containing itself - reading a description makes no objects, and changes none but by taking the entry `fieldtype` out of dicts met in the description.
* `C92_exact`: If no dict with `fieldtype` is met twice in the object, then it is read as its value is, and afterwards all of these dicts, and no others, are without `fieldtype`.
* `C92_left_over`: What is left is the description without any of its `fieldtype` entries.
* `C92_once`: So it works once: when a description has been read, or refused, reading the same object again raises ValueError, and changes nothing.
* `C92_definition`: Unserializing a dict by a Definition field does to the objects that exist what reading it as a description does, whether it is accepted or refused.
* `C92_definition_once`: So a dict can be given to a Definition field once: after that it is refused as invalid, whatever the outcome was the first time.
* `C92_surrogate`: A dict given to a Surrogate field loses what reading its entry `__schema__` as a description takes.
* `C92_shared`: A field is not read off a description as its value is if the same dict occurs twice: the second time it is no longer a description. The value `{'fieldtype': 'tuple', 'values': [t, t]}` describes a field; made with the same dict for both items it is refused.

### C93 A structure is made of the caller's dicts (proved)

Structure(structure, polymorphic_on=...) keeps the dicts and fields it is given and writes into them: '*' is removed from the caller's dict of variants, the common members and the discriminator are entered in the caller's dicts of members, and fields without name are named. If every identity has a dict of its own and no unnamed field is entered under two names, the result is the structure those values describe, with the same exceptions. Whatever is shared and however it ends, no other dict is changed, no named field is changed, and an unnamed one at most receives one of the names it is entered under. If two identities share one dict, every value of the earlier identity is refused by the structure made, in both phases. Making a structure of the dicts once more with the same discriminator yields an equal structure; with another discriminator the earlier one has become a required member of every variant. A plain structure made of a dict keeps that dict; a field without name entered twice is named by the first entry.

*Modelled and proved:* C93_separate relates the model with addresses (Model/Assemble) to the model by values (Model/Construct) on which C66 and the rest are proved; C93_touches is the frame condition for arbitrary sharing; C93_shared covers one dict for two identities; C93_again and C93_other_name cover using the dicts again; C93_plain and C93_first_name plain structures. Not modelled: placeholders among the members, which _prevalidate_structure replaces in the dict, and generate_default.

*In* `Props/Assemble.lean`:
* `C93_separate`: If no dict is used for two identities and no field without name under two names, a structure is made of the caller's objects as it is made of their values, and with the same exceptions.
* `C93_touches`: Whatever is shared, and whether it succeeds or not, making a structure writes to no dict but the ones given, and changes no field, except that a field in one of these dicts which had no name may be given one under which it is entered.
* `C93_shared`: If one dict serves two identities, values of the earlier one are always refused: the discriminator in the dict has the later identity for its constant.
* `C93_again`: Making a structure again of the dicts that a structure was made of gives an equal structure.
* `C93_other_name`: Making a structure of them with another discriminator does not: the earlier discriminator has become a member, which is required.
* `C93_plain`: A plain structure is made of the caller's dict as of its value if no field without name is entered under two names; the dict is kept, not copied.
* `C93_first_name`: A field without name that is entered under two names is named by the first of them.

### C94 Elements own their attributes, except for defaults of direct construction (proved)

An instance of an element class has a `__dict__` of its own. Calling the class sets each attribute to the very object passed for it or, if none was passed, to the very default object declared on the field; so two instances made without a value for an attribute share one mutable default, and appending to it through one of them is seen in the other, in later instances and in the schema. Element.unserialize on a schema whose leaves have values without parts changes no existing object and shares nothing with the value it read; for a structure that lists all its members and in which no member with a default ignores nulls it does not share defaults either, so that whatever is done to one element and what it contains is not seen in another. Element.serialize changes nothing, and on such a schema everything it returns is new. On all inputs the outcomes are those of the value-level model.

*Modelled and proved:* Heap-level model of ElementMeta's defaults, Element.__init__, instantiate, extract, serialize and unserialize (without format and without keys), proved to refine Model/Element.lean and Model/ElementIO.lean and combined with C74, C81 and C01. C94_default_leaks is the concrete witness of the sharing. A null dropped by ignore_null leaves the attribute with the class's own default object, hence the condition in C94_unserialize_copies. Constants of fields are taken to have no parts.

*In* `Props/HeapElement.lean`:
* `C94_class`: C94. A class statement keeps, for each attribute, the default object of the field itself; it fails when it fails on values.
* `C94_classes`: C94. After any sequence of class statements, inheritance included, every class's defaults are such objects.
* `C94_construct`: C94. Calling the class does what it does on values; the `__dict__` is new, and no other object is changed.
* `C94_attributes`: C94. Each attribute of the new instance is the very object that was passed for it or, if none was, the very default object that the class keeps.
* `C94_default_shared`: C94. So two instances made without a value for an attribute share one object, the class's default; their `__dict__`s differ.
* `C94_unserialize`: C94. When every field of the schema has values without parts, or is structural, Element.unserialize gives what it gives on values, changes no object, and makes an instance with a new `__dict__` whose attributes are new objects, default objects of the classes, or objects that the user's instantiators hand out (`K`): nothing of the value that was read is shared.
* `C94_unserialize_copies`: C94. For a structure in which no member that has a default drops nulls and all members are listed, the class's defaults are not shared either: `K` need not contain them.
* `C94_independent`: C94. An element read off objects outlives whatever happens to other objects.
* `C94_elements_apart`: C94. Two elements unserialized by such a structure, without user functions that hand out old objects, have nothing in common: whatever is done to the objects of one, its attributes and what they contain, is not seen in the other.
* `C94_serialize`: C94. Element.serialize gives what it gives on values, changes no object, and returns new objects and at most objects that the instance consists of, defaults, or objects handed out by the user's extractors.
* `C94_serialize_new`: C94. If every field of the schema has values without parts, or is structural, what is returned shares nothing with the instance or with anything else.
* `C94_default_leaks`: C94. `a = A(); b = A(); a.tags.append(7)`: `b.tags` is `[7]` as well, and so is the declared default.

### C95 Editing structures that share their fields (proved)

When structures share field objects, insert, remove and merge edit the structure in place: they have the outcome they have on values, write to no dict but the structure's own and change no field object (merge copies a field it enters under another name), so every other structure keeps its members. extend and replace have the outcome they have on values as long as no field object is given twice, and write to no dict that existed; but they rename the field objects they are given to their keys (replace also those under keys it ignores, extend also those before a value it rejects), so another structure keeps its members if its fields are given under their own names, and otherwise finds one of its members renamed.

*Modelled and proved:* Model/HeapEdit edits field objects and dicts by address; C95_insert, C95_remove, C95_merge, C95_extend, C95_replace relate it to Model/Edit, on which C36 is proved. C95_others, C95_extend_touches, C95_replace_touches and C95_kept are the frame conditions, C95_extend_called and C95_replace_called the renaming in general, C95_extend_elsewhere, C95_replace_ignored, C95_extend_failed and C95_extend_twice concrete witnesses. Plain structures whose members have names, as after construction.

*In* `Props/HeapEdit.lean`:
* `C95_insert`: C95. `insert` has the outcome it has on values, and edits the structure in place.
* `C95_remove`: C95. `remove` has the outcome it has on values, and edits the structure in place.
* `C95_merge`: C95. `merge` has the outcome it has on values, and edits the structure in place: fields entered under another name are copied.
* `C95_others`: C95. Editing one structure in place leaves all others alone.
* `C95_extend`: C95. `extend` has the outcome it has on values if the members have names and no field is given twice.
* `C95_replace`: C95. `replace` has the outcome it has on values under the same conditions.
* `C95_extend_touches`: C95. Whatever is shared and whether or not it succeeds, `extend` changes no dict and no field object but for the names of the fields given; the new structure has a dict of its own, of copies and the fields given.
* `C95_replace_touches`: C95. The same for `replace`.
* `C95_kept`: C95. So another structure (the one extended included) is as before if none of its fields is given under a name it does not have.
* `C95_extend_called`: C95. After `extend` every field given is called by its key, wherever else it is used.
* `C95_replace_called`: C95. The same goes for `replace` if it replaces anything: also the fields under keys it ignores are renamed.
* `C95_extend_elsewhere`: C95. Extending one structure with the field of another under a new name renames the field there: the other structure, which is not involved, has another member than before, and its messages speak of `w`.
* `C95_replace_ignored`: C95. `replace` renames a field it ignores.
* `C95_extend_failed`: C95. An `extend` that fails has renamed the fields before the culprit.
* `C95_extend_twice`: C95. A field given twice is one object with the last name; on values the structure would have two fields.

### C96 A document read in one format can be passed on in another (proved)

What structured text, query strings, CSV tables, JSON and (for schemas without Tuple fields) XML documents are read as, before any field sees it, is plain data: None, booleans, numbers and texts in lists and in dicts keyed by texts. Hence, for a schema whose fields meet the conditions of C57 and a field that unserializes such a document to a value: serialize(value, 'json') succeeds and unserializing its text gives the same value, with no condition on the document or the value; two documents, of the same format or different ones, are read as the same value exactly if their values are written as the same JSON text; and in any other format the value comes back, up to the order of dict entries, if that format carries what the field writes, in particular YAML and XML.

*Modelled and proved:* C96_structured_data, C96_query_data, C96_csv_data, C96_json_data and C96_xml_data show by induction over each reader that its results are PlainData (Spec/PassOn.lean); C96_json then follows with C57_data, C96_json_apart from it, C96_carried with C68_reorder, C96_yaml and C96_xml with the round trips of those formats. C96_xml_data asks for a schema without Tuple fields, because the XML reader gives a tuple for these (an example shows it). Whether a format carries what is written (the hypotheses Yaml.Carries and XmlValue of C96_yaml and C96_xml) is a condition on the serialized value.

*In* `Props/PassOn.lean`:
* `C96_structured_data`: what is read from structured text is plain data.
* `C96_query_data`: what is read from a query string is plain data.
* `C96_csv_data`: what is read from a CSV table is plain data.
* `C96_xml_data`: what is read from XML by a schema without Tuple fields is plain data.
* `C96_json_data`: what is read from JSON is plain data.
* `C96_json`: whatever was read from a format that gives plain data can be written to JSON and is read back as the same value.
* `C96_json_apart`: documents of such formats are read as the same value if and only if the values are written as the same JSON text.
* `C96_carried`: whatever was read from a format that gives plain data can be written in any format that carries what is written, up to the order of dict entries, and comes back the same up to that order.
* `C96_yaml`: whatever was read from such a format and has a YAML text that YAML carries comes back from YAML, if the reader of YAML reads the documents it should.
* `C96_xml`: the same for XML.

### C97 A description is made of its own objects (proved)

describe() changes no object that exists when it is called, whatever the field holds as default, constant, aspects and other parameters and whatever is passed as keyword parameters, also if it fails. Its outcome depends only on the values of these objects, not on how they are shared; and the description it returns is put together from new containers alone, no container being used in it twice, even where the field's own objects are shared (a default [d, d] is described with two dicts). So later changes to the description do not reach the field, nor changes to what the field holds the description; and although Field.reconstruct takes the description apart (C92), a field can be described and rebuilt any number of times with the same outcome and without a trace in what it holds.

*Modelled and proved:* Model/HeapDescribe.lean models Field.describe and Field._describe_parameter on the heap; the describe methods of all field classes end in it, the structural ones passing the descriptions of their parts and the serialized default as keyword parameters, which may be any objects here. C97_untouched holds for every heap, also cyclic ones. C97_own relates the outcome to descBase (the model of describe on values, used by C32 and others) and gives OwnSince (Spec/HeapDescribe.lean). C97_apart, C97_reread and C97_again follow, the latter two with C92_exact. The description of a Field object held as a value is modelled as built anew.

*In* `Props/HeapDescribe.lean`:
* `C97_untouched`: describing changes no object there is, whatever the field holds, described or not.
* `C97_own`: the outcome is that on values; the description is put together from new containers only, none of them used twice, however the objects the field holds are shared.
* `C97_apart`: nothing done to the description later is seen in what the field holds, and nothing done to that is seen in the description.
* `C97_reread`: a description is read as its value is, whatever has been done to other objects since; reading it makes no objects and changes none but the description's own.
* `C97_again`: a field can be described, rebuilt from the description, described again and rebuilt again, each time with the same outcome and without a trace in what it holds; the two descriptions have no containers in common.

### C98 A clone shares nothing that can be changed with the original but its default (proved)

Cloning a field changes no object, whatever the field holds, and uses the parameters passed to clone() as they are. Every attribute not passed is given to the clone as a deep copy: it has the same value, and every list and dict in it is new; only tuples in which nothing can be changed are the original's. So what is later done to the lists and dicts of the one is not seen in the other. The one exception is the default, which the clone gets as the very object the original has, unless another is passed: a list appended to through the clone's default is changed in the original. Reading a description after copying it, which interpolating a dynamic surrogate does, changes nothing that existed before, although Field.reconstruct takes the descriptions it reads apart (C92).

*Modelled and proved:* copy.deepcopy with its memo is modelled for lists, tuples and dicts on heap cells; the model proves that the copy is made of cells allocated since, or of tuples without lists and dicts in them. The sharing of the default is proved with a witness (C98_default_shared). Not modelled: fields held as attributes as objects of their own (deepcopy clones them in turn; here they are values), sets among attributes, user objects with their own copying, the constructor call made with the arguments.

*In* `Props/HeapClone.lean`:
* `C98_copy_untouched`: copying changes no object, whatever is copied, also objects that contain themselves.
* `C98_copy`: a copy has the value of the object, and is made of containers of its own, except for tuples in which nothing can be changed.
* `C98_new`: the lists and dicts met in a copy are new.
* `C98_reconstruct`: reading a description after copying it, as the interpolation of dynamic surrogates does (surrogate.py:162), changes nothing that existed before.
* `C98_apart`: what is done to the lists and dicts there were is not seen in a copy, and what is done to those of the copy not in them.
* `C98_untouched`: cloning changes no object, whatever the attributes are.
* `C98_clone`: the clone is made with the parameters given as they are, with the very object the field has as its default unless another is given, and with copies of the values of all other attributes, in their order.
* `C98_default`: whenever cloning succeeds, whatever the attributes are, the parameters given are used as they are, and without one called `default` the clone has the field's own object.
* `C98_default_shared`: so a default that is appended to through the clone is changed in the original.

### C99 Interpolation depends only on the parameters referred to, and more parameters only add entries (proved)

Interpolating a subject depends on nothing but the template engine's answers to what is asked in it: the expressions of the references in the places its fields are in charge of, the non-empty texts of Text, Email and Token fields, the dicts of Surrogate fields, and the same inside the values of references given for whole containers. So parameters that are not referred to do not matter. If further parameters are defined, those referred to and defined before keeping their values and the texts of templates being rendered as before, then a subject that is interpolated both times gives the same value with entries added to structures and maps in it, in their places and with nothing removed, replaced or reordered; a subject refused before for another reason than an undefined parameter is still refused; and one that was interpolated before does not come to lack a parameter. It may, however, be refused now, as the value of the new parameter may be.

*Modelled and proved:* What is asked is defined on its own (Asks), following the places fields are in charge of and the values of references; that a text of a template is rendered as before is a condition, since jinja renders undefined variables in templates as nothing. C99_more_fails is the witness that more parameters may make a subject be refused.

*In* `Props/Asked.lean`:
* `C99_more`: with more parameters (those defined before having the values they had, as far as they are asked for), interpolation that succeeds both times gives the same value with entries added to its dicts; what was refused for another reason than an undefined parameter is still refused; and what succeeded does not become undefined.
* `C99_mentioned`: the outcome depends on nothing but the answers to what is asked, so parameters that are not referred to do not matter.
* `C99_more_fails`: but a parameter that is now defined may be refused, so that what succeeded without it fails.

### C100 A schema without some of its members interpolates the corresponding part (proved)

If a schema interpolates a subject, then the schema with members left out at any depth (as filter() leaves them out, or in any other way) interpolates the same subject too, entries of members it does not have being ignored, and gives exactly the part of the result that belongs to the remaining members: the same containers, items and entries in the same order, without the entries of the members left out. If the first lacks a parameter, so does the second; leaving members out never makes a parameter be missed. A subject that is refused for another reason may be interpolated without some members.

*Modelled and proved:* The relations between schemas (Narrows) and values (Trim, with C76_unique) are those of C76, in Spec/Trim.lean. C100_narrow by induction on the call depth; C100_filter for the results of filter. C100_narrow_more is the witness that less may be refused. Polymorphic structures and unions are covered where they stay the same.

*In* `Props/Narrowed.lean`:
* `C100_narrow`: what a schema interpolates, it interpolates without some of its members too, to the corresponding part; and the parameters it lacks are lacking too.
* `C100_filter`: in particular with the schema `filter` gives.
* `C100_narrow_more`: a subject refused because of one member may be interpolated without it.

### C101 The order of dict entries in a subject matters to interpolation only for the order of maps (proved)

Interpolating two subjects that differ only in the order of the entries of dicts in them, at any depth, either succeeds for both and the results differ only in that way; or raises UndefinedParameterError for both; or fails otherwise for both, though perhaps with different exceptions. The members of the dict for a structure may even be given in any order without any difference: the result has the order of the schema.

*Modelled and proved:* Proved for all schemas, subjects, reorderings and call depths by induction on the call depth (Spec/Reordered: AgreeUpTo, KeyedOnce, OrderlySurrogates; `SameData` of Spec/Instantiate is the relation on values). C101_reordered is the whole claim, C101_succeeds its consequence for successful calls, C101_members the equality for the members of a structure, C101_failure_differs the witness that the exception may depend on the order. Hypothesis: the template engine and surrogate.interpolate are parameters of the model, the latter assumed not to depend on the order of entries.

*In* `Props/Reordered.lean`:
* `C101_reordered`: interpolating subjects that differ only in the order of dict entries gives results that differ only in that way, or fails for both; and lacks a parameter for both or for neither.
* `C101_succeeds`: in particular the one succeeds iff the other does.
* `C101_members`: a structure decides the order of its members, so that reordering its subject changes nothing at that level.
* `C101_failure_differs`: which failure is reported may depend on the order.

### C102 The order of dict entries in a subject matters to extraction only for the order of maps, except below unions (proved)

Extracting from two subjects that differ only in the order of the entries of dicts in them, at any depth, either succeeds for both and the results differ only in that way; or raises FieldExcludedError for both; or fails otherwise for both, though perhaps with different exceptions. The dict for a structure may be given in any order without any difference: the result has the order of the schema. Schemas have no unions here, for which the claim is false: a union goes on to its next field only after CannotExtractError, and a map raises whatever the first entry that cannot be extracted raises, so that the order of the entries can decide between extracting and an IndexError (shown with a witness).

*Modelled and proved:* Proved for all schemas without unions, all subjects, reorderings, parameters and call depths by induction on the call depth (Spec/ReorderedExtract: TakenAlike, OrderlyExtractors, OrderlyAttributes, TextIdentities; Spec/Reordered: KeyedOnce). C102_reordered is the whole claim, C102_succeeds its consequence for successful calls, C102_members the equality for the members of a structure, C102_union_order the counterexample for unions: Union((Map(Tuple((Integer(),))), Map(Integer()))) extracts {'x': 1, 'y': []} but raises IndexError for {'y': [], 'x': 1}. The restriction to text identities matters only for a falsy identity, where the identities are looked up as members.

*In* `Props/ReorderedExtract.lean`:
* `C102_reordered`: extracting from subjects that differ only in the order of dict entries gives results that differ only in that way, or fails for both; and says that the field is excluded for both or for neither.
* `C102_succeeds`: in particular the one succeeds iff the other does.
* `C102_members`: the members of a structure are extracted in the order of the schema, whatever the order of the subject.
* `C102_union_order`: below a union order does matter. A member of the union that fails with another exception than CannotExtractError ends the search for one that does not fail, and which exception a map raises depends on the order of its entries.

## Statements that were refined
The wording first written down, before the proofs showed what the code does:

* **C01** (first version): Whenever process() returns a value for an inbound candidate (native or serialized), that value conforms to the schema: every leaf has the field's native type and satisfies its bounds, lengths, pattern or enumeration; every sequence/tuple/map/structure has the declared shape; required keys are present; strict structures hold no undeclared key; None appears only where nonnull is not set.
* **C02** (first version): For a schema without unions, enumeration ignored values or preprocessors, feeding the native value returned by inbound processing back through inbound processing returns exactly the same value (stripping, defaults and null-dropping are all applied once and for all). With unions this fails, and the failure is exhibited.
* **C03** (first version): If serialize(v) succeeds then unserialize of the result gives what native inbound processing of v gives: same leaves (text stripped, dates, times, decimals, binary, integers decoded back), same containers, defaults filled in.
* **C08** (first version): Every error nested in the error raised by process() has an identity that is its parent's identity extended by exactly one step, '.name' for structure members, '[i]' for sequence and tuple items and '[key]' for map items; the outermost identity is the caller's ancestry or the field's own name. 'required' and 'unknown' errors sit at the structure itself.
* **C15** (first version): A native value is accepted iff it is an int other than True/False with minimum <= v <= maximum, and is returned unchanged; serialized, the decimal text of any integer (with optional sign and surrounding whitespace) is read back as that integer; booleans are rejected in both modes; type failures are InvalidTypeError, bound failures carry 'minimum'/'maximum'.
* **C19** (first version): Serializing any finite decimal and unserializing the text returns a decimal with the same sign, the same digits and the same exponent; bounds are inclusive.
* **C21** (first version): Text accepts exactly strings whose (stripped, unless strip=False) form has length between the bounds and matches the pattern, returns that form, and never returns text with leading or trailing whitespace when strip is on. nonempty text is never empty or all whitespace.
* **C26** (first version): On any candidate, processing raises only scheme exceptions except for an explicitly listed set of causes (unresolved placeholders whose key is absent, unhashable items of a unique sequence, malformed base64, NaN against decimal bounds, datetime against Date bounds, key_order naming unknown keys, recursion exhaustion, user callables).
* **C29** (first version): Reconstructing the description of a field yields a field that processes every value the same way, provided the field uses only describable parameters (no pattern, preprocessor, ignored_values, segments, key_order, and natively serializable defaults) and no structure key or default key is named 'fieldtype'.
* **C30** (first version): Extracting from nested dicts/lists with a structure schema returns only declared, present, non-None members, recursively; declared members with values are all kept; extracting again returns the same.
* **C31** (first version): With instantiators and extractors that are mutually inverse, instantiate followed by extract returns the (None-free) value.
* **C32** (first version): An Element built from keyword values has exactly the schema's attributes, defaults filled; a polymorphic Element is instantiated as the registered subclass for its identity.
* **C33** (first version): screen(**p) is true iff every non-None parameter equals the field's attribute; filter(all=False, **p) keeps a field iff some parameter matches, filter(all=True, **p) iff all do (missing attribute counts as False), and with no parameters returns the field itself.
* **C34** (first version): Filtering a structure keeps exactly the members that pass the filter. In the code nested members are always filtered with all=True, and a structure none of whose members pass is returned unfiltered; both deviations are exhibited.
* **C35** (first version): transform returns the transformer's replacement when it returns a field, the field itself untouched when it returns False or changes nothing below, and otherwise a copy in which exactly the changed descendants are replaced.
* **C36** (first version): insert, remove, replace, extend act on the key/field mapping like a finite map; merge(prefer=True) overrides. merge without prefer is documented to skip keys already present and merge all others, but stops at the first such key; the deviation is exhibited.
* **C37** (first version): generate_defaults returns for each declared key the field's default, else its constant; sparse omits the None ones; a polymorphic structure yields one mapping per identity.
* **C38** (first version): interpolate on a value without variables behaves as identity on already-native values, replaces a whole-string ${expr} by its native value, and drops structure/map members whose parameter is undefined.
* **C39** (first version): For every string, the serialized form contains no unescaped structural character and unserializing it gives the string back, unless it is empty or spells true/false/null.
* **C40** (first version): Any nesting of dicts and lists with safe text leaves (no comma, no backslash trouble, no reserved word, no ||n|| token) is read back exactly; the unsafe leaves really do break it, including a leaf spelled ||0|| being replaced by another part of the document.
* **C41** (first version): Encoding a mapping of safe values and decoding it returns the mapping; entries whose text is empty are lost.
* **C42** (first version): Serializing rows of non-structural columns and unserializing returns the rows with null and empty cells dropped, for cells that hold no CR LF; quoting is never broken by quotes, commas or newlines inside cells.
* **C43** (first version): Serializing a value with its schema to an element tree and back returns the value, for schemas of structures, maps, sequences, tuples and text/boolean/integer leaves with non-empty text.
* **C44** (first version): YAML serialization emits one well-indented block per mapping/sequence level and quotes exactly the strings it deems to need it; it is not injective: text that looks like a number is emitted like the number, so no reader can restore both.
* **C45** (first version): serialize() of a structural error returns the list of its own errors (or None) and a structure mirroring the error tree: one entry per child for lists (None where the child is fine), one entry per failing child for dicts; it is cached until forced.
* **C46** (first version): After any sequence of format class definitions, looking a format up by name, mimetype, dotted extension or class yields the last class registered under that token; reading by path uses the lower-cased last extension.
* **C47** (first version): A field class's error table and parameter table are those of its bases overlaid with its own declarations, own declarations winning, the first base winning over later ones.
* **C48** (first version): recursive_merge(a, b) gives at every path: b's value where b has a non-dict there, otherwise the merge of the two dicts, otherwise a's value; keys only in a survive; merging the same addition twice changes nothing.
* **C49** (first version): After set_nested_value(d, path, v) succeeds, traverse_to_key(d, path) returns v and every path that is not an extension of it is unchanged; both fail with the same error kind on the same missing or non-dict prefix.
* **C50** (first version): minimize_string collapses whitespace runs and is idempotent; indent prefixes every line (but optionally the first) and preserves the number of lines; pluralize(word, 1) is the word and otherwise applies the first matching rule.
* **C51** (first version): A surrogate serialized under version k of its schemas carries __version__ exactly when k > 1 and is unserialized under schema k; an out-of-range version is an error.
* **C52** (first version): In simple mode a subject is evaluated iff it is a single ${...} with no inner '}' and only surrounding whitespace; the evaluated expression is the trimmed inner text; any other text is returned unchanged and the empty string gives ''.
* **C53** (first version): A clone of a field processes every value as the original; cloning never terminates on a field that can reach itself.
* **C56** (first version): Exactly the values made of None, booleans, numbers, texts, and lists, tuples and dicts of them with such keys have a JSON text. json.unserialize(json.serialize(v)) is v, except that tuples come back as lists and keys as texts, provided keys stay distinct as texts ({1: a, '1': b} comes back with one entry, exhibited). The text is printable ASCII, and equal texts are read as equal values.
* **C57** (first version): If field.serialize(v) succeeds and the value meets the restrictions of C03 and JSON (no bytes; unconverted data is JSON data; map keys written as texts, or as integers by an Integer field), then field.serialize(v, 'json') succeeds and field.unserialize of the text gives exactly what native inbound processing of v gives; an accepted value comes back unchanged. A value field.process rejects is not written. A Binary field writes bytes, so its values cannot be written to JSON (TypeError). Tuples in a plain Field come back as lists, a None key of an Integer-keyed map is rejected (exhibited).
* **C61** (first version): format_structure(value, masks=...) reveals nothing about what stands under a masked key, at any depth of dicts, lists and tuples: two values that differ only there, or in the order of dicts, give the same text, or both raise. Every other text, number, ... appears in the text by its repr, every key of a shown dict by the repr of its str, masked ones followed by ***MASKED***. It fails, with TypeError, exactly if a shown dict has keys that cannot be sorted, or if abbreviate is set and a shown text has more than four characters: abbreviate_string raises TypeError on every text it would have to shorten. A tuple of one is written without its comma.
* **C70** (first version): The keyword arguments of a field's constructor determine what it accepts. An Integer, Float, Decimal, Date, Time or DateTime accepts exactly the values of its type from the declared minimum to the declared maximum, both inclusive; a bound that is missing or None does not restrict; bounds of a Decimal, Date, Time and DateTime may be given as texts. A Binary and a pattern-less Text accept exactly the values whose length (after stripping, unless strip is declared false) is between the declared lengths, where nonempty without min_length means at least 1. An Email accepts what its flags declare, a Sequence the lists of a declared length whose items its item field accepts (all different if declared unique), an Enumeration the declared members. A declared constant is the only value accepted. None is accepted exactly if neither nonnull nor nonempty is declared; required is declared by required or nonempty. Arguments of the wrong type are a TypeError (bounds of a wrong type, negative lengths, members that need conversion), and Email(multiple, extended) is a ValueError. Two deviations from what one might expect: bounds are not compared with each other, so that a field may be declared that accepts nothing but None; and nonempty is overruled by min_length=0 and does not keep sequences and maps from being empty.
* **C72** (first version): A native value that came out of inbound processing (of native or serialized data) can be serialized with the same field without an error, and reading the serialized value gives that native value again. For schemas that contain no Object, Definition or Surrogate field and no local-time DateTime, whose unique sequences, map keys and discriminators are of types serialized as themselves (text, numbers, flags, tokens, ...), this needs no assumption about the values at all. The other cases are as follows: it needs the conversions of the environment to succeed (time zones, import paths, descriptions), and it fails for unique sequences whose items only differ in what is not serialized, for required keys and for discriminators that look different when serialized, and for values that were not read by the field itself (a required member with a default can be left out when reading, but not when writing).
* **C74** (first version): Processing a value, in either direction, partial or not, accepted or rejected, leaves every object that existed before the call as it was: the value itself, the defaults declared in the schema, and everything else. Carried out on objects it computes what processing of values computes, with the same exceptions. Apart from containers made by the call, the result contains at most objects that the value or the declared defaults are made of; and when every field of the schema is structural or has values without parts (anything but Field, Object, Definition, Error, Surrogate and an Enumeration of containers), all containers of the result are new, so no later change of the value or of a default shows in the result, and no change of the result shows in the value. The limit is exact: an untyped Field hands out the very container it was given, and the list or dict declared as its default is put into every result, so that changing it in one result changes the others and the schema.

## Axioms per theorem

* `Classical.choice`, `Quot.sound`, `propext`: C01_conforms, C01_key_order_hides_required, C01_preprocessor_may_give_null, C01_required_null_dropped, C02_datetime_constant_fails, C02_idempotent, C02_ignored_null_default_fails, C02_ignored_null_required_fails, C02_ignored_value_fails, C02_object_fails, C02_preprocessor_fails, C02_text_constant_fails, C02_union_fails, C03_datetime_in_date_fails, C03_default_fails, C03_keys_collapse, C03_microseconds_fail, C03_round_trip, C03_serialize_unserialize, C03_union_fails, C04_ignored_as_null, C04_null_accepted, C04_null_rejected, C04_null_rejected_root, C05_key_set, C05_not_a_structure, C05_required_key_dropped_counterexample, C05_structure_accepts_iff, C06_structure_fails_iff, C07_map_report, C07_sequence_report, C07_structure_report, C07_tuple_report, C08_discriminator_identity, C08_identity, C08_locations, C08_object_identity, C08_subset_locations, C08_union_identity, C09_duplicate, C09_max_length, C09_min_length, C09_not_a_list, C09_sequence_accepts_iff, C09_unhashable_counterexample, C100_filter, C100_narrow, C100_narrow_more, C101_failure_differs, C101_members, C101_reordered, C101_succeeds, C102_members, C102_reordered, C102_succeeds, C102_union_order, C10_length, C10_not_a_tuple, C10_tuple_accepts_iff, C11_collapsing_keys, C11_invalidkeys, C11_map_accepts_iff, C11_map_entries, C11_not_a_map, C12_union_first, C12_union_none, C12_validation_error_is_final, C13_discriminator_error, C13_dispatch, C13_identity_in_result, C13_required, C13_unrecognized, C14_partial, C14_partial_complete, C14_partial_poly, C15_bool_rejected, C15_maximum, C15_minimum, C15_native_iff, C15_read, C15_serialize, C15_text, C15_type_rejected, C16_bad_text, C16_bounds, C16_datetime_counterexample, C16_native_iff, C16_round_trip, C16_serialize, C16_text_iff, C16_unpadded_counterexample, C17_bad_text, C17_bounds, C17_native_iff, C17_round_trip, C17_serialize, C17_text_iff, C18_bad_text, C18_bounds, C18_native_iff, C18_round_trip, C18_round_trip_micro, C18_serialize, C18_text, C18_zone, C19_bounds, C19_nan_counterexample, C19_native_iff, C19_read, C19_round_trip, C19_serialize, C19_text, C19_type_rejected, C20_lengths, C20_malformed_counterexample, C20_native_iff, C20_round_trip, C20_serialize, C20_type_rejected, C21_blank, C21_bounds, C21_iff, C21_no_outer_whitespace, C21_nonempty, C21_nonempty_counterexample, C21_type_rejected, C22_iff, C22_newline_counterexample, C22_rejected, C23_iff, C23_newline_counterexample, C23_rejected, C24_iff, C24_redefine_append, C24_redefine_replace, C24_redefine_total, C24_rejected, C25_enumeration_counterexample, C25_native, C25_result, C25_serialized, C25_structural_counterexample, C25_text_counterexample, C26_every_exception_has_a_cause, C26_other_exceptions_occur, C26_tidy_schema, C27_default_diverges, C27_more_stack, C27_schema_nesting, C27_schema_nesting_no_overflow, C27_union_diverges, C27_value_nesting, C27_value_nesting_no_overflow, C28_placeholder, C29_aspect_cls, C29_datetime_bounds, C29_default_lost, C29_default_null, C29_default_serialized, C29_described, C29_describes, C29_kept, C29_lost, C29_member_fieldtype, C29_nothing_set, C29_once, C29_recursive, C29_round_trip, C29_stated, C29_undefined, C29_underscore, C30_again, C30_falsy_identity, C30_members, C30_part, C30_succeeds, C30_union_again, C31_discriminator, C31_none_dropped, C31_roundtrip, C31_union, C32_attributes, C32_captured, C32_completed, C32_key, C32_poly_attributes, C32_registered, C32_taken_over, C32_value, C33_filter_gone, C33_filter_leaf, C33_filter_no_params, C33_missing, C33_screen, C34_cannot_filter, C34_nested_all, C34_none_left, C34_own_errors, C34_rest_passes, C34_structure, C35_behaves, C35_process, C35_replaced, C36_extend, C36_insert, C36_merge_prefer, C36_merge_until, C36_remove, C36_replace, C36_stored, C37_defaults, C37_identity, C37_poly, C37_total, C38_entries, C38_enumeration, C38_evaluated_again, C38_items, C38_members, C38_members_total, C38_native_refused, C38_numbers, C38_other_type, C38_reference, C38_reference_container, C38_reference_number, C38_slots, C38_unchanged, C38_union, C39_empty, C39_reserved, C39_roundtrip, C39_scalars, C40_backslash, C40_brace, C40_comma, C40_marker, C40_roundtrip, C40_single_empty, C40_terminates, C41_foreign, C41_not_text, C41_roundtrip, C42_blank_line, C42_extra_cells, C42_foreign, C42_no_columns, C42_nul, C42_refused, C42_roundtrip, C42_short_row, C42_unix, C42_unknown_column, C43_carriage, C43_empty_text, C43_falsy, C43_leaf_text, C43_roundtrip, C43_sequence, C43_tuple, C44_float_lost, C44_injective, C44_lost, C44_round_trip, C45_error_value, C46_by_path, C46_extension, C47_types, C48_idempotent, C48_keys, C48_order, C48_paths, C48_self, C49_failures, C49_others, C49_read_back, C51_construct, C51_dynamic, C51_from_the_end, C51_interpolated_latest, C51_out_of_range, C51_reread, C51_roundtrip, C51_serialize, C51_unserialize, C51_untagged, C52_iff, C53_attributes, C53_behaves, C54_empty, C54_iff, C55_colliding_keys, C55_key_order_twice, C55_serialized, C55_telling, C56_carried_written, C56_injective, C56_keys_collapse, C56_read, C56_round_trip, C56_unambiguous, C57_apart, C57_binary, C57_data, C57_json, C57_none_key, C57_rejected, C57_round_trip, C57_tuple_in_any, C57_wire, C58_binary_loses, C58_carriage, C58_emptied, C58_json, C58_missing, C58_missing_false, C58_others, C58_read_back, C58_rejected, C59_ends, C59_itself, C59_raises, C59_unknown, C59_visit, C59_walk, C60_boolean, C60_definition_in, C60_definition_native, C60_error_native, C60_error_pairs, C60_float_bool, C60_float_in, C60_float_native, C60_float_out, C60_nan, C60_object_in, C60_object_native, C60_object_out, C60_surrogate_native, C60_valid_surrogates, C61_keys, C61_literal, C61_masked, C61_shown, C62_class, C62_colons, C62_member, C62_object, C63_field_round_trip, C63_lost, C63_name, C63_name_injective, C63_name_reads, C63_repr, C63_succeeds, C63_there_and_back, C64_default_read, C64_defaults, C64_generated, C64_get_none, C64_get_structure, C64_get_tuple, C64_has_required, C64_no_required, C64_outbound, C64_poly, C64_polymorphic, C64_required_deviations, C64_required_rejects, C65_json, C65_none_replaced, C65_poly, C65_same, C65_structure, C65_value, C65_value_none, C66_accepts, C66_built, C66_built_field, C66_default, C66_default_kept, C66_default_plain, C66_default_unknown, C66_identity, C66_key_order, C66_key_order_refused, C66_key_order_text, C66_own_errors, C66_rejects, C67_enumeration_counterexample, C67_leaf, C67_leaf_failing, C67_leaf_serialized, C67_leaf_unreadable, C67_map, C67_none_counterexample, C67_null, C67_poly, C67_sequence, C67_structure, C67_tuple, C67_union, C67_wrong_type, C68_collapsing_keys, C68_rejected_type, C68_reorder, C69_accepted, C69_query, C69_query_blank, C69_structured_numbers, C69_structured_text, C69_xml, C69_yaml, C70_binary, C70_binary_declared, C70_common, C70_date, C70_date_declared, C70_datetime, C70_decimal, C70_decimal_declared, C70_definition, C70_email, C70_email_declared, C70_empty_range, C70_enumeration, C70_enumeration_declared, C70_enumeration_ignored, C70_float, C70_float_declared, C70_integer, C70_integer_declared, C70_map, C70_nonempty_empty, C70_null, C70_sequence, C70_text, C70_text_declared, C70_time, C70_time_declared, C70_token, C70_tuple, C70_union, C71_accepts, C71_alone, C71_moved, C71_rejects, C71_subset_moved, C72_apart, C72_default_fails, C72_default_time_fails, C72_discriminator_fails, C72_fixed, C72_native_fails, C72_read_back, C72_required_key_fails, C72_schema, C72_unique_fails, C72_wire, C72_written, C72_year_fails, C73_added_member_fails, C73_default_fails, C73_relaxed, C73_strip_fails, C73_union_fails, C74_default_handed_out, C74_description_taken, C74_fresh, C74_independent, C74_input_independent, C74_partial_processing, C74_refines, C74_shared_default, C74_shares_at_most, C74_untouched, C74_untyped, C75_addition_inside, C75_first_addition_changes, C75_merge, C75_merge_objects, C75_set, C75_set_one, C75_shared_original, C75_traverse, C75_traverse_untouched, C76_default_kept, C76_exists, C76_filter, C76_key_order_kept, C76_narrow, C76_unique, C77_accepted_listed, C77_found, C77_no_error_values, C77_nodes, C77_process, C77_raises, C77_starts, C77_text, C77_tuple_value, C77_two, C77_unambiguous, C77_validation, C78_possible, C78_raises, C78_read, C78_says, C78_shipped_structure, C78_text, C78_union, C79_alone, C79_depth, C79_endless, C79_enough, C79_possible, C79_raises, C79_sequence_of_itself, C79_text, C79_unambiguous, C80_after, C80_again, C80_discriminator_dropped, C80_exact, C80_excluded, C80_false_parameter, C80_filter, C80_none_wanted, C80_tuple_moves, C80_union_excluded, C81_extract_leaf, C81_extract_own, C81_extract_refines, C81_extract_separates, C81_extract_shares, C81_extract_untouched, C81_instantiate_own, C81_instantiate_refines, C81_instantiate_untouched, C81_interpolate_own, C81_interpolate_refines, C81_interpolate_shares, C81_interpolate_untouched, C81_results_apart, C81_subject_independent, C82_behaves, C82_changes, C82_errors, C82_plain, C82_replaces, C82_stale, C83_json, C83_json_fails, C83_natives, C83_order_fails, C83_round, C83_written, C84_again, C84_built, C84_clone, C84_settled, C84_written, C85_break, C85_elsewhere, C85_ends, C85_part, C85_reached, C85_replace, C85_there, C85_unique, C86_del, C86_distinct_iff, C86_equal_iff, C86_falsy_iff, C86_get, C86_hashable_iff, C86_index_step, C86_integer, C86_numeral, C86_set, C86_strip, C87_none, C87_own, C87_parts, C87_possible, C88_again, C88_emptied, C88_first_raises, C88_gone, C88_order, C88_polymorphic_again, C88_steps, C89_falsy_identity, C89_key_order, C90_exchanged, C90_identities, C90_same_text, C90_text, C90_tuple_default, C91_leaves, C91_lenient, C91_union_fails, C92_definition, C92_definition_once, C92_exact, C92_left_over, C92_once, C92_only_types, C92_shared, C92_surrogate, C93_again, C93_other_name, C93_plain, C93_separate, C93_shared, C93_touches, C94_attributes, C94_class, C94_classes, C94_construct, C94_default_leaks, C94_default_shared, C94_elements_apart, C94_independent, C94_serialize, C94_serialize_new, C94_unserialize, C94_unserialize_copies, C95_extend, C95_extend_called, C95_extend_touches, C95_replace, C95_replace_called, C95_replace_touches, C96_carried, C96_csv_data, C96_json, C96_json_apart, C96_json_data, C96_query_data, C96_structured_data, C96_xml, C96_xml_data, C96_yaml, C97_again, C97_apart, C97_own, C97_reread, C97_untouched, C98_apart, C98_clone, C98_copy, C98_copy_untouched, C98_default, C98_default_shared, C98_new, C98_reconstruct, C98_untouched, C99_mentioned, C99_more, C99_more_fails

* `Quot.sound`, `propext`: C35_only_recursion, C35_own_errors, C35_unchanged, C41_unescaped, C41_written, C42_written, C43_poly, C43_union, C44_block, C44_flow, C44_number_text, C44_quoting, C44_refused, C45_attributes, C45_cached, C45_cached_total, C45_first, C45_forced, C45_mirror, C45_pair, C45_unserialize, C45_unserialize_structural, C46_by_name, C46_inherited, C46_lookup, C46_missing, C46_urlencoded_unreachable, C47_errors, C47_errors_kept, C47_parameters, C47_parameters_kept, C50_indent, C50_indent_lines, C50_minimize, C50_minimize_idempotent, C50_minimize_words, C50_plural_h, C50_plural_quy, C50_plural_sibilant, C50_plural_y, C52_evaluated, C52_unchanged, C52_unique, C53_cyclic, C53_only_recursion, C53_succeeds, C56_printable, C56_written_iff, C61_abbreviate, C61_formatted, C61_singleton, C62_colon, C62_dotted, C62_has_name, C62_module, C62_named, C63_always_lost, C63_consistent, C63_fixed, C63_kept, C63_local, C63_local_instant, C63_merged, C63_named, C63_right_wall, C78_block, C78_ignored, C78_options, C79_recursive, C79_shown_wrong, C86_lower, C93_first_name, C95_extend_elsewhere, C95_extend_failed, C95_extend_twice, C95_kept, C95_merge, C95_others, C95_replace_ignored

* `propext`: C35_poly, C36_insert_errors, C36_merge_stops, C39_escaped, C40_tuple, C41_not_mapping, C44_datetime_lost, C45_nested_errors_lost, C46_by_class, C47_diamond, C50_plural_eau, C50_plural_ife, C50_plural_lf, C50_plural_newline, C50_plural_other, C50_singular, C52_full, C52_not_text, C53_enumeration_aspect, C53_own_errors, C54_init, C62_main, C62_plain, C63_nameless, C77_entries_dropped, C77_single_tuple, C78_lost, C78_notes, C78_signature, C86_join, C86_split, C95_insert, C95_remove

* none: C63_skipped

