{"id": "C01", "title": "Accepted values conform to the schema", "statement": "Whenever process() returns a value for an inbound candidate (native or serialized), that value conforms to the schema: every leaf has the field's native type and satisfies its bounds, lengths, pattern or enumeration; every sequence/tuple/map/structure has the declared shape; required keys are present; strict structures hold no undeclared key; None appears only where nonnull is not set (or comes out of a preprocessor or an imported Object). 'Required' means: named in key_order if there is one, and not ignore_null, since a required member given as None with ignore_null is dropped and accepted; both gaps are exhibited. The same holds for native outbound processing.", "quantifier": "every schema (including recursive ones built with Undefined), every candidate value, both serialized flags, every recursion depth", "why_tests_cant": "the space of nested schemas times candidate values is infinite; a test shows one schema with one value", "anchors": ["scheme/field.py:Field.process", "scheme/fields/structure.py:Structure.process", "scheme/fields/*.py:_validate_value"]}
{"id": "C02", "title": "Processing a native result again changes nothing", "statement": "For a schema without preprocessors, whose unions have alternatives that can be told apart by native values (what one of them makes of a value the ones before it rejected, they reject as well; see C83), and without the combinations shown to fail: ignore_null with a default, with required or with ignored enumeration values, a Text constant that stripping changes, a DateTime constant, a non-null Object, feeding the native value returned by inbound processing back through inbound processing returns exactly the same value (stripping, lower-casing, defaults and null-dropping are all applied once and for all). Each excluded combination is exhibited failing.", "quantifier": "every preprocessor-free schema whose unions can be told apart, every candidate, every depth", "why_tests_cant": "idempotence must hold for every nesting of fields and every value", "anchors": ["scheme/field.py:Field.process", "scheme/fields/structure.py:Structure.process"]}
{"id": "C03", "title": "Serialize then unserialize is native inbound processing", "statement": "If serialize(v) succeeds then unserialize of the result succeeds exactly when native inbound processing of v does, and gives the same value: same leaves (text stripped, dates, times, decimals, binary, integers decoded back), same containers, defaults filled in. In particular a value accepted by inbound processing comes back from serialize/unserialize exactly. This holds for values made of faithfully serialized parts; outside it are unions whose alternatives cannot be told apart by what is written (see C83), preprocessors, members absent whose default means something else read as serialized, a datetime given to a Date, times with microseconds, years below 1000 where strftime does not pad, non-null Object, Definition, Error and Surrogate values, and map keys that become equal when serialized. Such a union, defaults, datetimes in Date, microseconds and collapsing keys are exhibited failing.", "quantifier": "every schema (recursive ones included) built from the round-tripping field types, every value the schema accepts outbound, every depth", "why_tests_cant": "a codec round trip over arbitrarily nested schemas and unbounded values cannot be enumerated", "anchors": ["scheme/field.py:Field.serialize/unserialize", "scheme/fields/*.py:_serialize_value/_unserialize_value"]}
{"id": "C04", "title": "Null handling", "statement": "process(None) returns None for every field type when nonnull is unset and raises a ValidationError with exactly the token 'nonnull' located at the field when it is set; no preprocessor, constant, codec or validator is consulted. An Enumeration treats each of its ignored_values exactly as None.", "quantifier": "every field type, every parameter setting, both phases, both serialized flags, every ancestry", "why_tests_cant": "ranges over all fields, phases and parameters", "anchors": ["scheme/field.py:Field._is_null", "scheme/fields/enumeration.py:Enumeration._is_null"]}
{"id": "C05", "title": "Structure key set", "statement": "A successful Structure.process of a dict returns exactly these keys: each declared key that was given (unless its field has ignore_null and the value is None), plus, inbound and non-partial, each absent declared key whose field has a non-None default; each with the value its field's processing gives to the given value or the default. Outbound never fills defaults. Undeclared keys never survive.", "quantifier": "every structure, every input dict, both phases", "why_tests_cant": "quantifies over every combination of present/absent/None keys and field flags", "anchors": ["scheme/fields/structure.py:Structure.process"]}
{"id": "C06", "title": "Structure fails exactly when some key is bad", "statement": "Structure.process of a dict raises a validation error if and only if some given (or defaulted) declared key fails its field, or a required declared key is absent with no usable default (non-partial), or strict is set and an undeclared key is given.", "quantifier": "every structure whose children raise only structural errors, every dict", "why_tests_cant": "an iff over all inputs", "anchors": ["scheme/fields/structure.py:Structure.process"]}
{"id": "C07", "title": "Every failure is reported, not just the first", "statement": "When a Structure, Sequence, Tuple or Map fails because of children, the error raised carries a structure with an entry for every child: the child's own error where it failed, the child's processed value where it succeeded; required and unknown keys each get their own entry.", "quantifier": "every structural field, every candidate with any number of failing children", "why_tests_cant": "tests exhibit one or two simultaneous failures", "anchors": ["scheme/fields/structure.py:Structure.process", "scheme/fields/sequence.py:Sequence.process", "scheme/fields/map.py:Map.process", "scheme/fields/tuple.py:Tuple.process"]}
{"id": "C08", "title": "Error locations are the path to the value", "statement": "Every error nested in the error raised by process() has an identity that is its parent's identity extended by exactly one step, '.name' for structure members, '[i]' for sequence and tuple items and '[key]' for map items; the outermost identity is the caller's ancestry or the field's own name. 'required' and 'unknown' errors sit at the structure itself. Deviations, each exhibited: a bad discriminator's error is raised on its own at '.name' in place of the structure's error; serializing an Object without import path reports '(unknown)'. Errors raised inside describe() of a field value or by a surrogate keep the location those gave them.", "quantifier": "every schema, every failing value, at any depth", "why_tests_cant": "paths must be right at every depth of every error tree", "anchors": ["scheme/field.py:Field.process", "scheme/fields/structure.py:Structure.process", "scheme/exceptions.py:StructuralError"]}
{"id": "C09", "title": "Sequence length, order and uniqueness", "statement": "Sequence.process of a list returns a list of the same length whose i-th element is the item field's result on the i-th input; it succeeds only if min_length <= len <= max_length (both inclusive) and, when unique is set, no two results are equal; violations give tokens min_length, max_length, duplicate. A non-list is an InvalidTypeError.", "quantifier": "every item field, every list, every bound", "why_tests_cant": "unbounded list lengths and contents", "anchors": ["scheme/fields/sequence.py:Sequence.process"]}
{"id": "C10", "title": "Tuple arity and positions", "statement": "Tuple.process accepts a list or tuple of exactly the declared arity and returns a tuple whose i-th element is the i-th field's result on the i-th input; any other length gives token 'length', any other type InvalidTypeError.", "quantifier": "every list of fields, every candidate", "why_tests_cant": "unbounded arity and values", "anchors": ["scheme/fields/tuple.py:Tuple.process"]}
{"id": "C11", "title": "Map keys and required keys", "statement": "Map.process applies the key field to each key (or demands text keys) and the value field to each value; any bad key rejects the whole map with 'invalidkeys'; every required key missing from the processed keys is reported 'required'; on success with distinct processed keys the result has exactly one entry per input entry.", "quantifier": "every key/value field, every dict, every required_keys list", "why_tests_cant": "unbounded dict sizes; key collisions only appear for particular key fields", "anchors": ["scheme/fields/map.py:Map.process"]}
{"id": "C12", "title": "Union takes the first member that does not reject the type", "statement": "Union.process behaves exactly as the first member field (in declaration order) whose processing does not raise InvalidTypeError, including raising that member's ValidationError; if every member raises InvalidTypeError so does the union, with token 'invalid'.", "quantifier": "every union, every value", "why_tests_cant": "any number of members in any order", "anchors": ["scheme/fields/union.py:Union.process"]}
{"id": "C13", "title": "Polymorphic dispatch", "statement": "A polymorphic structure processes a value against the variant selected by the (processed) discriminator: absent or None discriminator gives 'required', an unrecognised one 'unrecognized', otherwise the result is that of a plain structure with that variant's fields; the discriminator in the result is the variant's identity.", "quantifier": "every set of variants, every discriminator field, every value", "why_tests_cant": "unbounded variants and values", "anchors": ["scheme/fields/structure.py:Structure.process", "scheme/fields/structure.py:Structure.__init__"]}
{"id": "C14", "title": "Partial processing", "statement": "With partial=True absent keys are neither defaulted nor required, and every given key is treated exactly as without partial.", "quantifier": "every structure and every sub-dict", "why_tests_cant": "all subsets of keys", "anchors": ["scheme/fields/structure.py:Structure.process"]}
{"id": "C15", "title": "Integer field", "statement": "A native value is accepted iff it is an int other than True/False with minimum <= v <= maximum, and is returned unchanged; serialized, a value is accepted iff int() makes of it an integer within the bounds (and equal to the constant): texts and ASCII bytes in decimal notation with optional sign, surrounding whitespace and single underscores between digits, and also floats and decimals, whose fractional part is silently dropped; booleans are rejected in both modes; type failures are InvalidTypeError, bound failures carry 'minimum'/'maximum'.", "quantifier": "all integers, all bounds, all strings", "why_tests_cant": "infinitely many integers and boundary pairs", "anchors": ["scheme/fields/integer.py:Integer"]}
{"id": "C16", "title": "Date text codec", "statement": "The serialized form of a date with a four-digit year is YYYY-MM-DD, and unserializing it returns the same date; every accepted text denotes a real calendar date. For years below 1000 on platforms whose strftime does not pad %Y the round trip fails.", "quantifier": "every calendar date, every string", "why_tests_cant": "3.6 million dates and infinitely many malformed strings", "anchors": ["scheme/fields/date.py:Date"]}
{"id": "C17", "title": "Time text codec", "statement": "The serialized form of a time is HH:MM:SS and unserializing it returns the same time with the microseconds dropped; bounds are inclusive.", "quantifier": "every time of day, every string", "why_tests_cant": "86 400 values times arbitrary strings and bounds", "anchors": ["scheme/fields/time.py:Time"]}
{"id": "C18", "title": "DateTime text codec and zone normalisation", "statement": "A validated datetime always carries the field's own zone; the serialized form is the UTC wall clock YYYY-MM-DDTHH:MM:SSZ; unserializing it gives the same instant in the field's zone with microseconds dropped.", "quantifier": "every datetime, zone and bound (zone conversion is a parameter with a stated inverse law)", "why_tests_cant": "unbounded instants and zones", "anchors": ["scheme/fields/datetime.py:DateTime"]}
{"id": "C19", "title": "Decimal text codec", "statement": "Serializing any decimal and unserializing the text returns a decimal with the same sign, the same digits and the same exponent; natively a value is accepted iff it is a decimal within the inclusive bounds; serialized, a value is accepted iff Decimal() makes of it a decimal within them: texts of a decimal, with optional sign, point, exponent, surrounding whitespace and underscores anywhere, or of an infinity or nan, and also booleans, integers, floats and triples. A nan checked against a bound raises decimal.InvalidOperation.", "quantifier": "every coefficient, sign and exponent", "why_tests_cant": "unbounded digits and exponents", "anchors": ["scheme/fields/decimal.py:Decimal"]}
{"id": "C20", "title": "Binary codec", "statement": "Binary serialization is url-safe base64 (only A-Z a-z 0-9 - _ and '=' padding, length a multiple of 4) and unserializing returns the original bytes.", "quantifier": "every byte string", "why_tests_cant": "unbounded byte strings", "anchors": ["scheme/fields/binary.py:Binary"]}
{"id": "C21", "title": "Text stripping, length and pattern", "statement": "Text accepts exactly strings whose (stripped, unless strip=False) form has length between the bounds and matches the pattern, returns that form, and never returns text with leading or trailing whitespace when strip is on. nonempty text is never empty or all whitespace, unless min_length=0 is passed explicitly, which defeats nonempty (exhibited).", "quantifier": "every string, all parameter settings", "why_tests_cant": "unbounded strings", "anchors": ["scheme/fields/text.py:Text"]}
{"id": "C22", "title": "Token grammar", "statement": "Token accepts exactly colon-separated segments, each beginning and ending with a word character and containing only word characters and -+. ; with segments=n there are exactly n segments. One trailing newline is also accepted (a defect of the $ anchor).", "quantifier": "every string, every segment count", "why_tests_cant": "unbounded strings", "anchors": ["scheme/fields/token.py:Token"]}
{"id": "C23", "title": "UUID grammar", "statement": "UUID accepts exactly lower-case 8-4-4-4-12 hexadecimal text, returned unchanged. One trailing newline is also accepted (a defect of the $ anchor).", "quantifier": "every string", "why_tests_cant": "unbounded strings", "anchors": ["scheme/fields/uuid.py:UUID"]}
{"id": "C24", "title": "Enumeration membership", "statement": "Enumeration accepts exactly the values equal to a member and returns them unchanged; redefine('append') accepts exactly old plus new members, redefine('replace') exactly the new ones.", "quantifier": "every member list, every value", "why_tests_cant": "unbounded member lists", "anchors": ["scheme/fields/enumeration.py:Enumeration"]}
{"id": "C25", "title": "Constant", "statement": "A non-structural field with a constant accepts (non-null) only values equal to the constant and rejects others with InvalidTypeError. Structural fields ignore the parameter, and an Enumeration raises KeyError instead; both deviations are exhibited.", "quantifier": "every field type, every constant, every value", "why_tests_cant": "all pairs of values", "anchors": ["scheme/field.py:Field.process"]}
{"id": "C26", "title": "Only scheme errors escape", "statement": "On any candidate, processing raises only scheme exceptions except for an explicitly listed set of causes (unresolved placeholders, user error messages with other parameters, unhashable items of a unique sequence, unhashable or tuple map keys, unhashable identities, malformed base64, NaN against decimal bounds, datetime against Date bounds, a zone conversion failing, key_order naming unknown keys or used with polymorphism, an Enumeration's constant, serialized error pairs, surrogates, values that are fields, recursion exhaustion, user preprocessors).", "quantifier": "every schema without those causes, every candidate", "why_tests_cant": "absence of a crash for all inputs", "anchors": ["scheme/field.py:Field.process", "scheme/fields/*.py"]}
{"id": "C27", "title": "Recursion terminates", "statement": "Processing with a non-recursive schema needs a call depth bounded by the schema's nesting, whatever the value; with a recursive schema that only recurses through containers and has no defaults, by the value's nesting. More stack never changes an answer.", "quantifier": "every schema and value", "why_tests_cant": "termination over all inputs; a recursive schema whose default re-enters itself diverges", "anchors": ["scheme/field.py:Undefined", "scheme/fields/structure.py:Structure.process"]}
{"id": "C28", "title": "Undefined placeholders: history", "statement": "After any interleaving of creating holders of a placeholder and calling define(), a holder created before the first define() uses the field of the last define() (none if never defined), and a holder created later uses the field that was current at its creation.", "quantifier": "every sequence of holder creations and define() calls", "why_tests_cant": "all operation histories", "anchors": ["scheme/field.py:Undefined", "scheme/fields/sequence.py:Sequence._define_undefined_field"]}
{"id": "C29", "title": "describe/reconstruct round trip", "statement": "Reconstructing the description of a field (verbose or not) yields a field of the same name that processes every value the same way in both phases and at every call depth, provided every field of the schema is describable: no preprocessor, own error messages, pattern, ignored_values, segments or key_order; constant and default made of natively serializable values (defaults of structural fields None, or not empty and equal to what they serialize to); DateTime bounds in UTC and bounds in whole seconds; no member, identity or default key named 'fieldtype'; aspects not named like a parameter. The description states the type, the name, the flags and every title, note, description and aspect made of natively serializable values, however false, and the reconstructed field has the same (except aspects whose name begins with an underscore, which are dropped). Describing such a schema succeeds exactly when it is finitely nested with all placeholders defined (recursive schemas cannot be described). Outside these conditions information is lost or changed: patterns, ignored values, segments, key orders, empty and non-native defaults are dropped, structural defaults come back serialized, local DateTime bounds are shifted, and a description can be reconstructed only once because reconstruct removes 'fieldtype' from it.", "quantifier": "every describable schema, every value, both phases", "why_tests_cant": "all nested schemas", "anchors": ["scheme/field.py:Field.describe", "scheme/field.py:FieldMeta.reconstruct", "scheme/field.py:Field._construct_parameter"]}
{"id": "C30", "title": "extract never invents data", "statement": "Extracting (strict, without extractors) from nested dicts/lists returns only declared, present, non-None members, recursively, and all of those; it succeeds exactly when the subject has the shape of the schema; for schemas without unions and truthy identities extracting again returns the same. With unions, or with a falsy identity, extracting again can lose data or raise; both are exhibited.", "quantifier": "every extractor-free schema, every subject", "why_tests_cant": "all nested subjects", "anchors": ["scheme/fields/structure.py:Structure.extract", "scheme/fields/sequence.py:Sequence.extract"]}
{"id": "C31", "title": "instantiate then extract is the identity", "statement": "For schemas without unions in which every field has neither instantiator nor extractor, or an extractor that undoes its instantiator, instantiating a native value without None members and extracting from the result returns the value, up to the order of dict entries. Unions can never be instantiated; None members are dropped; a discriminator with an instantiator is not recognised on extraction; all three are exhibited.", "quantifier": "every schema and valid value", "why_tests_cant": "all nested values", "anchors": ["scheme/fields/*.py:instantiate/extract", "scheme/element.py:Element"]}
{"id": "C32", "title": "Element attributes and round trip", "statement": "An Element built from keyword values has exactly the attributes its schema declares (those of the variant its discriminator names, for a polymorphic schema), each the given value or else the member's default; other keywords are dropped and the keyword self is refused. Extracting an instantiated dict gives the dict restricted to the members and completed by defaults. A polymorphic value becomes the last class of the family that has (or inherits) its identity, and the class asked if there is none. A schema's values are instantiated by the last class without an identity that sets or inherits the schema, so a plain subclass takes over the schema of its base.", "quantifier": "every schema, every keyword set, every registration history", "why_tests_cant": "unbounded schemas and registrations", "anchors": ["scheme/element.py:Element", "scheme/element.py:ElementMeta"]}
{"id": "C33", "title": "screen and filter decisions", "statement": "screen(**p) is true iff every non-None parameter equals the field's attribute, where a missing attribute equals none of them; filter(all=False, **p) of a field without children keeps it iff some parameter matches, filter(all=True, **p) iff all do, where a missing attribute counts as False, and with no parameters it returns the field itself. filter of any field returns None iff the field itself fails this test.", "quantifier": "every field and every parameter set", "why_tests_cant": "all parameter combinations", "anchors": ["scheme/field.py:Field.screen", "scheme/field.py:Field.filter"]}
{"id": "C34", "title": "filter on structures", "statement": "Filtering a structure that passes yields a structure whose members are exactly those that pass the filter, in order, each filtered in turn; the structure itself is returned when no member changes. In the code nested members are always filtered with all=True, and a structure none of whose members pass is returned unfiltered; a sequence, map or tuple whose child fails raises CannotFilterError; all three deviations are exhibited.", "quantifier": "every structure and parameter set", "why_tests_cant": "all nested structures", "anchors": ["scheme/fields/structure.py:Structure.filter", "scheme/fields/structure.py:Structure._filter_structure", "scheme/fields/map.py:Map.filter"]}
{"id": "C35", "title": "transform", "statement": "transform returns the transformer's replacement when it returns a field, the field itself untouched when it returns False or changes nothing below, and otherwise a copy in which exactly the changed descendants are replaced; replacing descendants by ones that behave the same gives a field that behaves the same. Polymorphic structures cannot be transformed below (AttributeError), exhibited.", "quantifier": "every schema, every transformer", "why_tests_cant": "all schemas and callbacks", "anchors": ["scheme/field.py:Field.transform", "scheme/fields/structure.py:Structure.transform"]}
{"id": "C36", "title": "Structure editing operations", "statement": "insert, remove, replace, extend act on the key/field mapping like a finite map, keeping the order of keys; members not mentioned are copied so that they behave the same; merge(prefer=True) overrides. merge without prefer is documented to skip keys already present and merge all others, but merges exactly the entries before the first such key; the deviation is exhibited.", "quantifier": "every structure, every sequence of edits", "why_tests_cant": "all edit histories", "anchors": ["scheme/fields/structure.py:Structure.insert/remove/replace/extend/merge"]}
{"id": "C37", "title": "Generated defaults", "statement": "generate_defaults returns for each declared key the field's default, else its constant; sparse omits the None ones; a polymorphic structure yields one mapping per identity, or the one of a given identity; an identity given for a plain structure, or an unknown one, is a ValueError.", "quantifier": "every structure", "why_tests_cant": "all structures", "anchors": ["scheme/fields/structure.py:Structure.generate_defaults"]}
{"id": "C38", "title": "Interpolation leaves variable-free values alone", "statement": "Interpolating a native value without variables returns it unchanged (structure members possibly in another order); a text that is a whole ${expr} is replaced by the native value of the expression (converted for number types; for containers the value is interpolated in turn, so references inside it are evaluated as well, and None or text is refused); structure and map members whose parameter is undefined are dropped while sequences pass the failure on; unions interpolate nothing but None, and plain and Object fields refuse native values that are not texts; an Enumeration is interpolated to one of its values only; a tuple with too few values is refused and further values are dropped; a subject of another type than the container's is refused.", "quantifier": "every schema, subject and parameter set (template engine a parameter)", "why_tests_cant": "all nested subjects", "anchors": ["scheme/interpolation.py", "scheme/fields/*.py:interpolate"]}
{"id": "C39", "title": "Structured text scalar escaping", "statement": "Every bracket in the structured text of a string is escaped; reading it back gives the string exactly when the string is neither empty nor a spelling of true, false or null in any case; a spelling of those words is read as the value it names, the empty text cannot be read at all; booleans and null always come back, integers come back when parsing numbers is asked for.", "quantifier": "every string", "why_tests_cant": "unbounded strings with arbitrary backslash/bracket runs", "anchors": ["scheme/formats/structuredtext.py:StructuredText"]}
{"id": "C40", "title": "Structured text round trip", "statement": "A nesting of dicts and lists whose keys and leaves avoid commas, doubled or trailing backslashes, unpaired brackets, reserved words and spellings of the internal ||n|| markers is read back as the same data; reading any text ends, with a value or an error; each of the exclusions is necessary: a leaf spelled ||0|| is replaced by another part of the document, a comma splits a leaf, a backslash or a brace makes the document unreadable, and a list holding one empty text is read as the empty list.", "quantifier": "every nested value", "why_tests_cant": "unbounded nesting depth and width", "anchors": ["scheme/formats/structuredtext.py:StructuredText"]}
{"id": "C41", "title": "Url-encoded round trip", "statement": "Encoding a mapping with any text keys, whose values are nulls, booleans, texts that structured text carries or nestings of them, and decoding it returns the same entries in the same order, except that entries whose value is the empty text are lost; anything but a mapping is refused, and anything but a text is refused when decoding. Names and values are written with letters, digits and _.-~+% only, the first four kinds standing for themselves. A query written by another program, with whatever characters percent-encoded in either case, + or %20 for blanks, & or ; between parameters, and parameters without a value in between, is read as the one this format writes for its entries.", "quantifier": "every mapping", "why_tests_cant": "unbounded strings; every byte value", "anchors": ["scheme/formats/urlencoded.py:UrlEncoded"]}
{"id": "C42", "title": "CSV round trip", "statement": "Writing a list of structures as CSV and reading it back returns, for every row, each requested column that is declared and not structural, with null and empty cells dropped and CR LF sequences inside texts removed; quotation marks, commas, single CR or LF and every other character but NUL survive in names and cells of up to 131072 characters; a table without any such column loses its rows, a header naming anything else is refused, and a text with NUL is written but cannot be read. A table written by another program is read alike, whichever cells are quoted and whatever line ends surround it; cells beyond those of the header are ignored, a row with fewer is refused (a blank line between rows is an IndexError), and a table whose lines end in line feeds alone is refused by the csv module.", "quantifier": "every table", "why_tests_cant": "unbounded tables and cell contents", "anchors": ["scheme/formats/csv.py:Csv"]}
{"id": "C43", "title": "XML tree round trip", "statement": "Serializing a value with its schema to an XML document, with or without the preamble, and reading the document returns the same data (only the order of dict entries may differ), for schemas of structures, maps, sequences, tuples and leaves whose names and keys are XML names: None anywhere, booleans, integers, floats whose text reads as the same float, and non-empty text of characters XML allows without carriage returns, whatever markup characters it contains. Whatever document is read, a sequence or tuple gets one item for each subelement, and a document with more elements than a tuple has values is refused (one with fewer gives a shorter tuple). A field with parts takes any value that counts as false except None (0, False, an empty text, list or dict) and writes it as an empty element, which is read as the empty value of the field. Outside of that it deviates: empty text is read as None, a carriage return as a line feed, other contents of a text leaf (numbers in an enumeration) as their text; values of a union raise NotImplementedError and non-empty values of a polymorphic structure KeyError when serialized.", "quantifier": "every schema and conforming value", "why_tests_cant": "unbounded nesting", "anchors": ["scheme/formats/xml.py:Xml"]}
{"id": "C44", "title": "YAML output", "statement": "The YAML text written for a value made of None, booleans, integers, floats whose text has a point, dates, texts, lists and dicts with text keys is read back as the same value (dict entries sorted), at every depth of nesting, so values with the same text are the same; a short one-line text is quoted exactly if it is empty, a word for null or true/false, begins with an indicator, or contains ': ' or ' #'; values containing bytes, times, decimals or other objects anywhere are refused. Not carried are floats whose text has no point (1e+16, 1e-05, inf, nan), which come back as text; texts that YAML reads as something else without quotes: numbers, dates, 'yes', text ending in a colon or with spaces at its ends, keys such as null, several lines without a newline at the end; and zone and microseconds of a datetime.", "quantifier": "every value", "why_tests_cant": "unbounded nesting", "anchors": ["scheme/formats/yaml.py:Yaml"]}
{"id": "C45", "title": "Structural error serialization", "statement": "serialize() of a structural error returns the list of its own errors (or None) and a structure mirroring the error tree: one entry per child for lists (None where the child is fine), one entry per failing child for dicts; it is cached until forced. A nested error with children of its own shows only the children (its own errors are lost), good values that happen to be error objects are shown as failures, and unserialize restores the errors but never a structure of errors; all three exhibited.", "quantifier": "every error tree, every history of appends and serialize calls", "why_tests_cant": "unbounded trees and histories", "anchors": ["scheme/exceptions.py:StructuralError.serialize"]}
{"id": "C46", "title": "Format registry", "statement": "After any sequence of format class definitions, looking a format up by name, mimetype, dotted extension or class yields the last class that answers to it, where a class inherits each attribute it does not assign; reading or writing by path uses the lower-cased extension of the last path component, a named format wins over the path and a named format class over both lookups; url-encoded text can never be reached through Format.serialize or Format.unserialize, every other library format can.", "quantifier": "every registration history and path", "why_tests_cant": "all histories", "anchors": ["scheme/format.py:FormatMeta", "scheme/format.py:Format"]}
{"id": "C47", "title": "Field type registry and inherited errors/parameters", "statement": "A field class knows an error token, and a parameter, by its own last declaration of it and otherwise by the first of its bases that knows it; nothing that it or a class it descends from declares is lost. The tables do not follow Python's method resolution order: in a diamond the inherited entry of the first base wins over the replacement made by a later base. A field type names the last class defined under that lower-cased name, and any other name is refused.", "quantifier": "every class hierarchy", "why_tests_cant": "all hierarchies", "anchors": ["scheme/field.py:FieldMeta"]}
{"id": "C48", "title": "recursive_merge", "statement": "recursive_merge(a, b) gives at every key: the merge of the two values where both hold a dict, otherwise b's value where b has the key, otherwise a's value (likewise at every path); keys keep a's order with b's new ones after them; merging the same addition twice, or a dict with itself, changes nothing.", "quantifier": "every pair of nested dicts", "why_tests_cant": "unbounded nesting", "anchors": ["scheme/util.py:recursive_merge"]}
{"id": "C49", "title": "Nested path access", "statement": "After set_nested_value(d, path, v) succeeds, traverse_to_key(d, path) returns v and every path that is neither a prefix nor an extension of it reads as before; set fails exactly when the path without its last key leads to nothing (KeyError) or to a non-dict (TypeError), as traverse_to_key does for that path.", "quantifier": "every dict, path and value", "why_tests_cant": "all paths", "anchors": ["scheme/util.py:set_nested_value", "scheme/util.py:traverse_to_key"]}
{"id": "C50", "title": "String helpers", "statement": "minimize_string collapses whitespace runs and is idempotent; indent prefixes every line (but optionally the first) and preserves the number of lines; pluralize(word, 1) is the word and otherwise applies the first matching rule to the ending of a word that does not end in a newline (for 'box\\n' the ending is added twice, exhibited).", "quantifier": "every string", "why_tests_cant": "unbounded strings", "anchors": ["scheme/util.py"]}
{"id": "C51", "title": "Surrogate versions", "statement": "A surrogate under version k of its schemas serializes with __version__ exactly when k > 1, and reading the result gives a surrogate of the same class and version whose contents schema k read; a dynamic schema travels as its description and its reconstruction reads the contents. A version beyond the schemas is refused, but zero and negative versions select schemas from the end as far as they reach. Contents without a version are read by the first schema yet interpolated by the last; construct defaults to the last and refuses versions outside. Where SurrogateMeta does not run (Python 3) every serialization fails.", "quantifier": "every schema list and version", "why_tests_cant": "all versions including negative ones", "anchors": ["scheme/surrogate.py:surrogate"]}
{"id": "C52", "title": "Only whole-string variable references are evaluated", "statement": "In simple mode a subject is evaluated iff it is a single ${...} with a non-empty inner text without '}' and only surrounding whitespace; the evaluated expression is the trimmed inner text; any other text is returned unchanged, the empty string gives '', and a subject that is no text is a ValueError.", "quantifier": "every string", "why_tests_cant": "unbounded strings", "anchors": ["scheme/interpolation.py:interpolate_parameters"]}
{"id": "C53", "title": "clone is behaviour preserving", "statement": "A clone of a field processes every value as the original. Cloning succeeds iff the schema is finite, no placeholder in it is undefined and no field in it was given error messages of its own: a field that can reach itself cannot be cloned at any stack depth, and one with own errors raises AttributeError. A cloned Enumeration gains the aspect 'representation'.", "quantifier": "every field graph", "why_tests_cant": "all graphs", "anchors": ["scheme/field.py:Field.clone"]}
{"id": "C54", "title": "Email normalisation and grammar", "statement": "Email.process trims separators (white space , ; :) at both ends and lower-cases (not when extended); with multiple every run of separators becomes one comma. It accepts iff the result is within the length bounds and is empty, an address local-part@domain, with extended also a display name followed by <address>, with multiple a comma separated list of addresses; the normalised text is returned. Pattern, strip and errors arguments are ignored by the constructor.", "quantifier": "every text and every Email field", "why_tests_cant": "unbounded strings; regex semantics", "anchors": ["scheme/fields/email.py:Email"]}
{"id": "C55", "title": "Errors say what is wrong", "statement": "A structural error raised by process() has an error entry of its own or at least one nested error that (recursively) does, so its serialized form is never (None, None) or empty at the failing place. It can only fail when a map's key field turns two given keys into the same one, or key_order names a key twice; both exhibited.", "quantifier": "every field, value, phase", "why_tests_cant": "unbounded nesting; all error paths of all field types", "anchors": ["scheme/exceptions.py:StructuralError", "scheme/fields/structure.py:Structure.process", "scheme/fields/map.py:Map.process"]}
{"id": "C56", "title": "JSON round trip", "statement": "Exactly the values made of None, booleans, numbers, texts, and lists, tuples and dicts of them with such keys have a JSON text. json.unserialize(json.serialize(v)) is v, except that tuples come back as lists and keys as texts, provided keys stay distinct as texts ({1: a, '1': b} comes back with one entry, exhibited). The text is printable ASCII, and equal texts are read as equal values. Conversely, a text is read as v exactly if it is a JSON document standing for v in an independent grammar: white space between tokens, escapes in either case, surrogate pairs as one character, no leading zeros, NaN and Infinity, and of several entries with one name the last value at the first place; so a document stands for one value only. (Texts with lone surrogates are outside the model.)", "quantifier": "every value, every character of every text", "why_tests_cant": "unbounded nesting and text; escapes, surrogate pairs, number grammar", "anchors": ["scheme/formats/json.py:Json"]}
{"id": "C57", "title": "Fields through JSON", "statement": "If field.serialize(v) succeeds and the value meets the restrictions of C03 and JSON (no bytes; unconverted data is JSON data; map keys written as texts, or as integers by an Integer field; what comes back of a union's value is still rejected by the alternatives before the one that wrote it), then field.serialize(v, 'json') succeeds and field.unserialize of the text gives exactly what native inbound processing of v gives; an accepted value comes back unchanged. From restrictions on the schema alone (no Binary, Object, Definition, Surrogate or Error fields; DateTimes in UTC; years from 1000 on unless the platform pads them; map keys of text types or Integer; alternatives of unions for different JSON types; defaults that are JSON data or whole-second dates, times and moments): whatever JSON text field.unserialize reads, the value can be written to JSON again, is read back as the same value, and values that differ get different texts. A value field.process rejects is not written. A Binary field writes bytes, so its values cannot be written to JSON (TypeError). Tuples in a plain Field come back as lists, a None key of an Integer-keyed map is rejected (exhibited).", "quantifier": "every schema, value and document", "why_tests_cant": "unbounded nesting; all combinations of fields", "anchors": ["scheme/field.py:Field.serialize", "scheme/field.py:Field.unserialize", "scheme/formats/json.py:Json"]}
{"id": "C58", "title": "Reading and writing files", "statement": "field.write(path, v) changes no other file; it leaves the file untouched when the field rejects v or there is no such format. What was written is read back by field.read as by unserialize, except that carriage returns the format left in the text become newlines; a value that meets the restrictions of C57 written to a JSON file reads as native inbound processing of it. When the format cannot write the serialized value, the previous contents are lost: the file is empty (a Binary field and JSON, exhibited). Reading a missing file is a ValueError; with quiet=True the field is given False, which a Boolean field reports as the data (exhibited).", "quantifier": "every field, value, path, format and state of the files", "why_tests_cant": "all states of the files and all failing values; unbounded schemas", "anchors": ["scheme/format.py:Format.read", "scheme/format.py:Format.write", "scheme/field.py:Field.read", "scheme/field.py:Field.write"]}
{"id": "C59", "title": "Visiting descriptions", "statement": "Field.visit(field.describe(), callback) calls the callback on the descriptions of the fields the field is made of (item; value and key; values; fields; members; members of all variants), in order, once each, and on nothing else, and returns those parts with the results in their places; an error of the callback ends it. Hence a callback that visits its argument in turn sees every nested field. The description itself is not visited, contrary to the documentation, nor is the polymorphic_on entry. A dict without fieldtype, or of unknown type, is a KeyError.", "quantifier": "every schema that can be described, every callback with any state", "why_tests_cant": "unbounded nesting; arbitrary stateful callbacks", "anchors": ["scheme/field.py:Field.visit", "scheme/field.py:Field._visit_field", "scheme/fields/structure.py:Structure._visit_field", "scheme/fields/map.py:Map._visit_field"]}
{"id": "C60", "title": "Boolean, Float, Object, Definition, Surrogate and Error fields", "statement": "For non-null values, and no preprocessor: Boolean accepts exactly True and False in every mode. Float accepts natively exactly floats neither below the minimum nor above the maximum (so nan passes any bounds, and integers are rejected); serialized it reads whatever float() takes, including booleans, and writes floats as they are. Object accepts anything natively, reads a text by importing it and writes a value by its name. Definition accepts exactly fields of the valid types, and reads a description as the field reconstructed from it. Surrogate accepts exactly surrogates, and with valid_surrogates nothing (AttributeError). Error accepts exactly structural errors; a serialized error that became a list, as through JSON, is rejected, and one without own errors raises TypeError. Accepted native values are returned unchanged; a constant must be met.", "quantifier": "every value, every such field", "why_tests_cant": "all values of every type; unbounded numbers", "anchors": ["scheme/fields/boolean.py:Boolean", "scheme/fields/float.py:Float", "scheme/fields/object.py:Object", "scheme/fields/definition.py:Definition", "scheme/fields/surrogate.py:Surrogate", "scheme/fields/error.py:Error"]}
{"id": "C61", "title": "Formatted structures hide masked values and show all others", "statement": "format_structure(value, masks=...) reveals nothing about what stands under a masked key, at any depth of dicts, lists and tuples: two values that differ only there, or in the order of dicts, give the same text, or both raise. Every other text, number, ... appears in the text by its repr, every key of a shown dict by the repr of its str, masked ones followed by ***MASKED***. It fails, with TypeError, exactly if a shown dict has keys that cannot be sorted, or if abbreviate is set and a shown text has more than four characters: abbreviate_string raises TypeError on every text it would have to shorten. A tuple of one is written without its comma. The text as a whole is the literal of the value: brackets around the literals of the parts in order, commas between them, blanks only where they mean nothing; of the entries of a dict, those written on one line come first, and each of the two groups is in the order of its keys.", "quantifier": "every value, every set of masks", "why_tests_cant": "non-interference relates all pairs of values; unbounded nesting", "anchors": ["scheme/util.py:StructureFormatter", "scheme/util.py:format_structure", "scheme/util.py:abbreviate_string"]}
{"id": "C62", "title": "Identities of objects lead back to the objects", "statement": "import_object of a dotted path returns what its longest importable prefix leads to by the remaining segments as attributes (a path without dots is a module; before a colon stands the module, after it the attributes; several colons are refused), and raises ImportError otherwise. identify_object followed by import_object returns the same object for modules; for a class exactly if no module has its identity as a name and the class is what its module has under its name; for other objects that their module has under a name, whatever has been identified before, if no equal object was. Deviations: the identity of a class defined inside another one leads nowhere, that of a class called like a submodule to the module, that of a class of __main__ is taken for a module, and of equal objects all get the name of the one identified first.", "quantifier": "every arrangement of modules and attributes, every series of calls", "why_tests_cant": "modules nest arbitrarily; the cache makes answers depend on earlier calls", "anchors": ["scheme/util.py:import_object", "scheme/util.py:identify_object"]}
{"id": "C63", "title": "Time zones keep the instant, except near daylight saving changes", "statement": "Converting a datetime to UTC or to a FixedOffsetTimezone keeps the instant. Converting to LOCAL gives the instant plus the offset in force when the wall clock shows its standard time; with a C library that answers rightly wherever only one answer is right, this is the right wall clock except within the hour after a change, and the instant is kept, and converted back, except within an hour of a change; in the hours around the end of daylight saving time it cannot be kept whatever the library answers (instants an hour apart get the same datetime), and skipped wall clocks change by the round trip. Hence a DateTime field with utc=False reads what it wrote for whole seconds as the same datetime exactly if the offset in force is the one at the instant's standard time. Names of nameless zones are distinct, but read in the customary way (+HH:MM) only if the offset is in whole hours, or positive with at least ten minutes: the offset of -90 minutes is called -02:30, that of 65 +01:5. The repr confuses offsets a day apart.", "quantifier": "every offset, instant and wall clock, every behaviour of the C library", "why_tests_cant": "all instants, all zones and all answers of mktime to ambiguous wall clocks", "anchors": ["scheme/timezone.py:FixedOffsetTimezone", "scheme/timezone.py:LocalTimezone", "scheme/fields/datetime.py:DateTime._normalize_value", "scheme/fields/datetime.py:DateTime._serialize_value"]}
{"id": "C64", "title": "Defaults and required members", "statement": "Inbound, a structure treats a dict exactly as the dict with the defaults of absent members added (same acceptance, same result), with native and with serialized values alike; hence a default is read as the values are (with serialized values, the default of a Binary field is base64-decoded). The generated defaults, if no constants are among them, are accepted as the empty dict is. If has_required_fields is True (always for polymorphic structures), the empty dict is rejected; if it is False, the empty dict is accepted inbound exactly if every field accepts its default, and outbound exactly if no member is required at all: defaults do not count there. A key_order that leaves out a required member makes the empty dict acceptable although has_required_fields is True. get returns the declared field of a structure and the field at a position of a tuple, counted from the end if negative, else the given default; on other fields it is a TypeError.", "quantifier": "every structure, every dict, both phases, native or serialized", "why_tests_cant": "all dicts and all combinations of defaults and required members", "anchors": ["scheme/fields/structure.py:Structure.process", "scheme/fields/structure.py:Structure.has_required_fields", "scheme/fields/structure.py:Structure.get", "scheme/fields/tuple.py:Tuple.get", "scheme/field.py:Field.get"]}
{"id": "C65", "title": "Elements survive being written and read", "statement": "An Element whose attributes other than None are accepted unchanged by their fields, written with serialize (natively or to JSON) and read with unserialize, comes back as an instance of the class its schema belongs to (for a polymorphic schema, of the class registered for its identity) with the same attributes, whatever further attributes were set on the instance. The exception: an attribute that is None is not written, and comes back as the default of its member. An Element whose schema is not a structure comes back with its one attribute, but as None instead of an instance if that is None.", "quantifier": "every structure and every attribute values without instantiators below the element, with the restrictions of the round trip of fields", "why_tests_cant": "unbounded schemas and values; combines extraction, processing, formats and instantiation", "anchors": ["scheme/element.py:Element.serialize", "scheme/element.py:Element.unserialize", "scheme/element.py:Element.extract", "scheme/element.py:Element.instantiate"]}
{"id": "C66", "title": "Polymorphic structures are built as declared", "statement": "Structure(variants, polymorphic_on=name) makes, for each identity, in order, a variant of exactly the declared members (those under '*' replace the variant's own of the same name; members without a name take their key) and the discriminator, restricted to that identity. The resulting field accepts a dict exactly when it holds an identity under the name and the plain structure of that variant's members accepts it, with the same result, in which the identity is found under the name; a missing or null identity is reported as required, any other value as invalid at the discriminator. A field given as discriminator is made required and otherwise kept. generate_default=identity gives the defaults (or constants) of that variant together with its identity; an unknown identity, or anything but True for a plain structure, is a ValueError. Deviations: with key_order a polymorphic structure cannot process any dict (TypeError), and an order per identity is refused; a discriminator with its own error messages cannot be used (AttributeError).", "quantifier": "every set of variants and common members, every dict, both phases", "why_tests_cant": "unbounded variants, members and dicts; the behaviour of the built field is compared with the declaration", "anchors": ["scheme/fields/structure.py:Structure.__init__", "scheme/fields/structure.py:Structure._prevalidate_structure", "scheme/fields/structure.py:Structure.process"]}
{"id": "C67", "title": "Preprocessors", "statement": "A field with a preprocessor treats a value as the same field without it treats what the preprocessor makes of the value (for serialized input: of what was read), in either phase; None and, for structural fields, values of the wrong type are not preprocessed. A preprocessor that raises gives an InvalidTypeError with token 'invalid' about the value it was given; from Sequence, Map and Tuple its exception escapes as it is, and an Enumeration raises KeyError. A Union ignores its preprocessor. A preprocessor that returns None does not make the value null: Text rejects it, and a nonnull field that accepts anything returns None.", "quantifier": "every field (Email with its built-in preprocessor apart), every preprocessor, every value", "why_tests_cant": "arbitrary user functions; all fields and values", "anchors": ["scheme/field.py:Field.process", "scheme/fields/sequence.py:Sequence.process", "scheme/fields/map.py:Map.process", "scheme/fields/tuple.py:Tuple.process", "scheme/fields/structure.py:Structure.process", "scheme/fields/union.py:Union.process"]}
{"id": "C68", "title": "The order of dict entries does not matter", "statement": "Two values that differ only in the order of entries of dicts, at any depth, are both accepted or both rejected by a field, in either phase and native or serialized, and the results differ only in such order; also a type is rejected for both or for neither, so a union takes the same member. Excepted are preprocessors, surrogates and errors read from containers, polymorphic structures with a key order, and maps in which two keys become the same: there the last one wins, and order decides (exhibited).", "quantifier": "every schema, every pair of values that differ in order only", "why_tests_cant": "unbounded schemas, values and permutations at every level", "anchors": ["scheme/fields/map.py:Map.process", "scheme/fields/structure.py:Structure.process", "scheme/fields/union.py:Union.process", "scheme/field.py:Field.process"]}
{"id": "C69", "title": "Fields through structured text, query strings, XML and YAML", "statement": "If a field serializes a value, and what it gives is data the format can carry, then the document is written, and reading it with the field does what native inbound processing of the value does, except that dict entries may come in another order; so a value accepted once comes back the same up to that order. In structured text and query strings numbers are read as text, which Integer and Float fields turn back; with parse_numbers integers come back as such. For YAML this is relative to a reader that reads the documents in question. An empty text is dropped from a query string, so that a required member is missing (exhibited).", "quantifier": "every schema without preprocessors whose unions can be told apart, every value within what the format carries, all documents written", "why_tests_cant": "unbounded schemas and values, and the interplay of four grammars with every field type", "anchors": ["scheme/field.py:Field.serialize", "scheme/field.py:Field.unserialize", "scheme/formats/structuredtext.py:StructuredText", "scheme/formats/urlencoded.py:UrlEncoded", "scheme/formats/xml.py:Xml", "scheme/formats/yaml.py:Yaml"]}
{"id": "C70", "title": "A field does what the keyword arguments of its declaration say", "statement": "The keyword arguments of a field's constructor determine what it accepts. An Integer, Float, Decimal, Date, Time or DateTime accepts exactly the values of its type from the declared minimum to the declared maximum, both inclusive; a bound that is missing or None does not restrict; bounds of a Decimal, Date, Time and DateTime may be given as texts. A Binary and a pattern-less Text accept exactly the values whose length (after stripping, unless strip is declared false) is between the declared lengths, where nonempty without min_length means at least 1. An Email accepts what its flags declare, a Sequence the lists of a declared length whose items its item field accepts (all different if declared unique), an Enumeration the declared members (given as a list, a tuple or the words of a text), while what it is declared to ignore counts as None. A Map accepts the dicts whose keys and values its fields accept and that have all required keys (listed, or the words of a text), a Tuple what its fields accept item by item, a Union what its first field accepts that does not reject the type, a Token the tokens with the declared number of segments, a Definition the fields of the declared types. A declared constant is the only value accepted. None is accepted exactly if neither nonnull nor nonempty is declared; required is declared by required or nonempty. Arguments of the wrong type are a TypeError (bounds of a wrong type, negative lengths, members that need conversion), and Email(multiple, extended) is a ValueError. Two deviations from what one might expect: bounds are not compared with each other, so that a field may be declared that accepts nothing but None; and nonempty is overruled by min_length=0 and does not keep sequences and maps from being empty.", "quantifier": "for all keyword arguments, values, phases, locations and environments", "why_tests_cant": "Tests declare a few fields with a few arguments; the claim is that construction followed by processing has exactly the declared meaning for every combination of arguments and every value.", "anchors": ["scheme/field.py:171-212", "scheme/fields/integer.py:20-28", "scheme/fields/float.py:20-28", "scheme/fields/decimal.py:24-48", "scheme/fields/date.py:29-46", "scheme/fields/time.py:25-42", "scheme/fields/datetime.py:26-49", "scheme/fields/text.py:26-46", "scheme/fields/binary.py:21-34", "scheme/fields/sequence.py:43-61", "scheme/fields/enumeration.py:18-41", "scheme/fields/email.py:30-49", "scheme/fields/map.py:43-64", "scheme/fields/tuple.py:28-48", "scheme/fields/union.py:24-42", "scheme/fields/token.py:20-22", "scheme/fields/definition.py:19-39"]}
{"id": "C71", "title": "Where a field sits does not change what it does", "statement": "Processing a value with a field at one place of a schema (that is, with one ancestry) and at another gives the same result, or the same exception - the same class, the same error entries, the same offending value - in which only the locations differ, each of them below the respective place. In particular a value is accepted by a field inside a structure, sequence, map, tuple or union exactly if the field alone accepts it, with the same result, and the class of the error, which decides whether a union goes on to its next field, is the same. The same holds for partial processing.", "quantifier": "All schemas (including recursive ones, unions, polymorphic structures, preprocessors), all values, both phases, native and serialized data, all pairs of places, all call depths.", "why_tests_cant": "The ancestry is passed through every function of the processing and extended at every level; that it influences nothing but the reported locations is a statement about pairs of runs over unboundedly nested schemas, and tests compare single runs at single places.", "anchors": ["scheme/field.py:418-475", "scheme/fields/structure.py:359-448", "scheme/fields/sequence.py:165-209", "scheme/fields/map.py:178-226", "scheme/fields/tuple.py:163-198", "scheme/fields/union.py:98-115"]}
{"id": "C72", "title": "What was read can be written, and is read back as the same value", "statement": "A native value that came out of inbound processing (of native or serialized data) can be serialized with the same field without an error, and reading the serialized value gives that native value again. For schemas that contain no Object, Definition or Surrogate field and no local-time DateTime, whose unique sequences, map keys and discriminators are of types serialized as themselves (text, numbers, flags, tokens, ...), the first part needs no assumption about the values at all. The second part then holds of whatever was read of data as formats have it (any data without datetime objects, with existing days and with times of whole seconds), provided that defaults are such data too, that there is no Error field, that years below 1000 are padded by the platform or excluded by a minimum, and that alternatives of unions are told apart by the types they write and read; in such schemas different values that were read are written differently. The other cases are as follows: it needs the conversions of the environment to succeed (time zones, import paths, descriptions), and it fails for unique sequences whose items only differ in what is not serialized, for required keys and for discriminators that look different when serialized, and for values that were not read by the field itself (a required member with a default can be left out when reading, but not when writing; a datetime object given to a Date field, or a default with a fraction of a second, is written without its time or fraction).", "quantifier": "All schemas under the stated restrictions (including recursive ones), all values that inbound processing accepts, native or serialized, at all places and call depths.", "why_tests_cant": "It links three runs (read, write, read) over all schemas and all accepted values; tests check some values of single types.", "anchors": ["scheme/field.py:418-475", "scheme/fields/structure.py:359-448", "scheme/fields/sequence.py:165-209", "scheme/fields/map.py:178-226", "scheme/fields/datetime.py:65-116", "scheme/fields/union.py:98-115"]}
{"id": "C73", "title": "Relaxing a schema keeps what was accepted", "statement": "If each field of a schema is replaced by one that demands no more (lower minimum, higher maximum, pattern, constant, segment count, uniqueness or required keys dropped, enumeration values, field types, variants or further union fields added, null allowed, required members made optional, strictness dropped), then everything the old schema accepted is accepted by the new one with the very same result, in both phases, native and serialized. In a strict structure optional members without a default may be added as well. The limits are as follows: adding a member to a structure that ignores unknown keys, relaxing a union field other than the last, adding a default, and no longer stripping a text can all change or break what was accepted before.", "quantifier": "All pairs of schemas related level by level in this way (including recursive ones), all values, both phases, native and serialized, all call depths.", "why_tests_cant": "It compares the behaviour of two schemas on all values; tests look at single schemas.", "anchors": ["scheme/field.py:418-475", "scheme/fields/structure.py:359-448", "scheme/fields/union.py:98-115", "scheme/fields/sequence.py:165-209", "scheme/fields/map.py:178-226", "scheme/fields/text.py:65-90", "scheme/fields/decimal.py:85-97"]}
{"id": "C74", "title": "Processing changes no existing object and builds its own containers", "statement": "Processing a value, in either direction, partial or not, accepted or rejected, and unless it unserializes by a schema with Definition or Surrogate fields (see C92), leaves every object that existed before the call as it was: the value itself, the defaults declared in the schema, and everything else. Carried out on objects it computes what processing of values computes, with the same exceptions. Apart from containers made by the call, the result contains at most objects that the value or the declared defaults are made of; and when every field of the schema is structural or has values without parts (anything but Field, Object, Definition, Error, Surrogate and an Enumeration of containers), all containers of the result are new, so no later change of the value or of a default shows in the result, and no change of the result shows in the value. The limit is exact: an untyped Field hands out the very container it was given, and the list or dict declared as its default is put into every result, so that changing it in one result changes the others and the schema.", "quantifier": "all schemas without preprocessors (for the first claim: whose preprocessors leave objects alone), placeholders and recursion included; all heaps, with any sharing among the objects of the value and the defaults; both phases, serialized or not; all values", "why_tests_cant": "Aliasing is invisible to equality assertions on results: a test sees it only if it mutates an object at the right moment and then looks at another one. That no write ever reaches an older object, and that no reference to one leaks into a result, are statements about all executions.", "anchors": ["scheme/field.py:418-475", "scheme/fields/sequence.py:165-209", "scheme/fields/map.py:178-226", "scheme/fields/tuple.py:163-198", "scheme/fields/union.py:98-115", "scheme/fields/structure.py:359-448"]}
{"id": "C75", "title": "Merging and nested assignment touch only the dicts they are meant to", "statement": "recursive_merge(original, addition) updates the original in place: if no dict nested in the original is reached twice and none of them is part of the addition, then exactly the original and the dicts nested in it through dicts may change, no object is created, the addition and every other object keep their content, and the original reads as the merged value of C48. Under a key of the addition the result holds the original's own dict where both hold dicts, and otherwise the very object of the addition (not a copy); other keys keep their objects. Hence a second merge into the same original changes the first addition; with a dict shared between two keys of the original both change; and if the addition is part of the original the merge can raise RuntimeError half way (all exhibited). traverse_to_key changes nothing and returns the object itself; set_nested_value changes one entry of the dict that traverse_to_key finds for the path without its last segment, and nothing when it raises.", "quantifier": "for all heaps, originals, additions, paths and values", "why_tests_cant": "tests compare values after a call and do not see which objects are shared or changed", "anchors": ["scheme/util.py:142-149", "scheme/util.py:234-262"]}
{"id": "C76", "title": "A schema without some of its members accepts the corresponding part of everything", "statement": "Let one schema be obtained from another by leaving out members of structures, at any depth through sequences, tuples, maps and structures, recursive schemas included, for instance by `filter`. For every value that the larger schema accepts there is exactly one value that lacks the entries of the left-out members and is otherwise the same. The smaller schema accepts it, in the same direction and mode, and its result is the result of the larger schema without the entries of the left-out members. So members do not influence each other. Conditions: no preprocessors on the containers, no key order, no polymorphic structures that change, and no default on a member that itself loses members. Deviations, shown with witnesses: `filter` does not filter defaults, so a member whose default gives a removed member rejects the empty input that was accepted before; and it does not filter key orders, so that every dict then fails with a KeyError.", "quantifier": "all pairs of schemas so related, all filter parameters and call depths, all accepted values, both directions, native and serialized, all locations", "why_tests_cant": "Tests filter a structure or two and look at the resulting fields; that the narrowed schema treats every value, at every depth, as the original treats the rest is a relation between two runs on two different inputs for all schemas.", "anchors": ["scheme/fields/structure.py:227-249", "scheme/fields/structure.py:390-453", "scheme/fields/structure.py:518-532", "scheme/fields/sequence.py:113-123", "scheme/fields/map.py:122-132", "scheme/fields/tuple.py:98-117"]}
{"id": "C77", "title": "The text of an error lists every mistake once, numbered, and can be read back", "statement": "str(error) (format_errors) is the line 'validation failed' followed by one numbered paragraph per entry of the error itself and of every error without structure nested in it, at any depth and in order; a paragraph starts with the capitalized title, the location and the message, followed by the field, the value unless it is None, and captured tracebacks. The lines starting with '[' are exactly the first lines of paragraphs, so they count the mistakes, and the text determines the list of paragraphs. For errors raised by processing there is exactly one paragraph per rejected place. Making the text raises exactly when repr of a listed field raises or a listed value is a tuple that does not have one element (deviation: '%r' % value takes a tuple apart; so str() of the error for Text given a pair raises TypeError, and a tuple of one is shown as its element). Further deviations: entries of nested errors that also have a structure are left out; error objects accepted as values next to a wrong member are listed as errors.", "quantifier": "all error trees, all fields, values and phases, whatever the fields' repr, flags and tracebacks are", "why_tests_cant": "error trees nest to any depth and texts may contain newlines, brackets and digits; tests show a few messages", "anchors": ["scheme/exceptions.py:72-102", "scheme/exceptions.py:133-166", "scheme/util.py:106-118"]}
{"id": "C78", "title": "The generated documentation of a field says what the field declares, and its text can be read back", "statement": "From field.describe() DocumentationGenerator._document_field makes a block that has the field's name and lists, in this order and exactly as far as they are set and can be described: type (with the type of the keys for the values of a Map), description, notes, nonnull, ignore_null, required (except in the role 'schema'), constant, default, title, then what the kind of field adds: limits of numbers, texts and sequences, unique, the values of an Enumeration and required keys in ascending order, and one block per part (members, items, values, variants in order of their identities). It succeeds exactly if no documented part is an obstacle, and otherwise raises what one of them raises. Deviations: the generator as shipped raises AttributeError for every Structure that has members (_collate_fields does not exist) and every generator raises NameError for a Union that has fields; Enumerations of other values than texts raise TypeError, so do required keys and identities that cannot be sorted; limits of Date, Time and DateTime and patterns are never stated; the upper limit of a Decimal is called min; variants leave out members called 'type' whatever the discriminator is called. Every option written is one the directive 'field' accepts (flags without a value) except notes. The rendered text determines the blocks, with depth, names and options, if no name has several lines and no value a blank line; a blank line in a description makes later options such as required unreadable. The line shown for a field is name, type, subtype, key, constant or else default, limits, flags, title; example and notes are never shown.", "quantifier": "all fields and schemas (also recursive ones that can be described), all values of their parameters that are simple data or cannot be described, verbose or not, any role, any method listing members, any indentation", "why_tests_cant": "schemas nest to any depth and every combination of parameters gives other options; the repository has no test of the documentation generator at all", "anchors": ["scheme/doc/generator.py:10-61", "scheme/doc/generator.py:63-237", "scheme/doc/domain.py:86-243", "scheme/field.py:268-335"]}
{"id": "C79", "title": "repr(field) lists exactly what the field sets, tells fields apart, and can be made for recursive schemas unless they recur through sequences and maps alone", "statement": "`repr(field)` is the class name followed by the parameters the field sets, in one fixed order (name, those of the type, constant, default, nonnull, required, ignore_null, title), each with the repr of its value; nested fields appear as they would appear alone. A tuple or dict of fields that is already being shown appears as dots, so schemas that contain themselves through structures, tuples or unions can be shown. For a schema of finitely many objects repr can be made exactly if no field in it has a default or title that is a tuple of other than one value, or required keys that cannot be sorted (TypeError), and no field contains itself through sequences and maps alone (RecursionError at any stack depth). Provided the reprs of values can be told from what follows them, two fields with the same repr have the same class and show the same parameters with the same texts. Exceptions exhibited: a default that is a tuple of one value is shown as that value, the value of a constant and false constants are not shown, every Email shows strip=False.", "quantifier": "for all graphs of field objects, cyclic ones included, all parameters, stack depths and contexts", "why_tests_cant": "The text is made by mutual recursion over an object graph that may be cyclic; whether it ends, and whether different fields can have the same text, are statements about all such graphs. Tests show the repr of a few fields.", "anchors": ["scheme/field.py:214-233", "scheme/fields/structure.py:115-123", "scheme/fields/sequence.py:63-71", "scheme/fields/map.py:66-75", "scheme/fields/tuple.py:50-51", "scheme/fields/union.py:44-45", "scheme/fields/text.py:48-57", "scheme/fields/email.py:51-57", "scheme/fields/date.py:48-54", "scheme/fields/enumeration.py:43-44"]}
{"id": "C80", "title": "Extracting with parameters takes what the wanted fields take, as a filtered schema would", "statement": "extract(subject, **params) takes from the subject exactly what the fields wanted by the parameters take: a member, item, entry or tuple value whose field is not wanted is left out, with everything below it, and everything else is extracted as without parameters. It succeeds exactly when the wanted part of the subject has the shape of the schema, whatever the rest looks like, and raises FieldExcludedError exactly when the field itself is not wanted. Extracting in two steps is extracting once: if the first extraction wants all that the second wants and keeps the shape (all values of tuples, and discriminators with truthy identities), the second gives the same from its result as from the subject, so extracting again with the same parameters changes nothing. For parameters that are neither None nor equal to False it has the same outcome, exceptions included, as filter(all=True, **params).extract(subject), whenever that schema can be filtered, no structure loses all members and discriminators are wanted. Schemas have no unions and no extractors here. Deviations, shown with witnesses: tuples close up, so that extracting again raises IndexError; a discriminator that is not wanted is dropped, so that extracting again raises KeyError; a union counts as excluded as soon as one of its fields is, although a later one would do; the parameter False excludes fields without the attribute, which filter keeps; filter returns a structure none of whose members are wanted unfiltered.", "quantifier": "all schemas without unions and extractors, recursive ones included, all parameters, all subjects, all call depths that suffice for the subject", "why_tests_cant": "tests screen a few hand-written structures; the relation between screening, repeated extraction and filtering ranges over all schemas, parameters and subjects", "anchors": ["scheme/field.py:327-360", "scheme/field.py:484-493", "scheme/fields/structure.py:184-249", "scheme/fields/sequence.py:81-123", "scheme/fields/map.py:90-132", "scheme/fields/tuple.py:68-117", "scheme/fields/union.py:54-74"]}
{"id": "C81", "title": "Extracting, instantiating and interpolating change no existing object and build their own containers", "statement": "On the heap of mutable objects, extract, instantiate and interpolate change no list, tuple or dict that exists when they are called, whether they succeed or raise, provided that the user's extractors, instantiators, attribute getters and the template engine do not. Their outcome is that of the functions on values, and a result consists only of new objects and of objects the subject (the attributes found, the parameters) consists of. Without extractors or instantiators the containers of a result that belong to Sequence, Tuple, Map and Structure fields are new and pairwise different, even where one object occurs several times in the subject or the whole container is a parameter; the containers of two results are different. A field without parts hands out the very object it found: so changing a list in the result of extracting by an untyped Field changes the subject, and interpolating an untyped Field from '${p}' returns the parameter object itself.", "quantifier": "all schemas (also recursive), heaps, subjects with any sharing, parameters, user functions that leave existing objects alone", "why_tests_cant": "Whether a result shares mutable objects with its source shows only when one of them is changed later; tests compare values, which agree either way.", "anchors": ["scheme/field.py:332-416", "scheme/fields/sequence.py:83-163", "scheme/fields/map.py:92-176", "scheme/fields/structure.py:178-338", "scheme/fields/tuple.py:70-161", "scheme/interpolation.py:60-89"]}
{"id": "C82", "title": "clone(**params) is the copy of the field in which exactly what the parameters name is changed", "statement": "For every field f built by the constructors and every call f.clone(**params): (1) without parameters the call, which goes through f.__dict__ and the constructor, gives the structural copy of C53, with the same failures (AttributeError where a field has messages of its own, RecursionError for schemas that are cyclic or hold undefined placeholders). (2) With parameters naming attributes (name, default, constant, nonnull, required, ignore_null, description, title, notes, the three callables, and the bounds, lengths, patterns and flags of each class) the result is the copy of f in which these and no other attributes have the values given; a parameter that no constructor names becomes the aspect of that name, except that None and names with a leading underscore change nothing, so an aspect cannot be removed that way. `aspects` replaces all aspects before the other parameters add theirs. `nonempty=True` wins over nonnull and required and sets a minimum length of 1 on Text, Binary and Email unless there is one; `nonempty=False` changes nothing. (3) The clone processes every value like the changed field. (4) `errors=` replaces the messages, and makes a field with messages of its own cloneable, where clone() raises AttributeError; an Email keeps its own. (5) `item=`, `values=`, `fields=` and `structure=` take the place of the old fields, which are not copied, so the call succeeds whatever they are, and the new ones are taken as they are, except that members without a name get one. (6) Deviation: an Enumeration given another `enumeration` keeps the text describing the old values as its aspect `representation`.", "quantifier": "for all fields (arbitrarily nested and recursive), all lists of distinct parameters, all depths, values, phases, environments", "why_tests_cant": "The claim ranges over every combination of field class and parameters and over nested schemas; the code copies a __dict__ generically, silently drops attributes, and turns unknown ones into aspects, which tests of single parameters do not show.", "anchors": ["scheme/field.py:171-212", "scheme/field.py:250-265", "scheme/fields/text.py:26-46", "scheme/fields/binary.py:21-36", "scheme/fields/enumeration.py:19-41", "scheme/fields/structure.py:57-102"]}
{"id": "C83", "title": "Unions of different types round trip", "statement": "If the alternatives of a union are for different native types (text, numbers, flags, dates, lists, dicts, ...), then the native values they give tell them apart, so that processing a result again changes nothing. If moreover no alternative writes a type that an earlier one reads (Integer reads texts, Date reads texts, and so on), then what is written tells them apart, and a value accepted once comes back from serialize and unserialize exactly. Through JSON, which turns tuples into lists, the same holds when lists are counted for the tuples written. The order matters: with Integer before Text the text '5' comes back as a number; with Sequence before Tuple a tuple comes back from JSON as a list (both exhibited).", "quantifier": "every union with any number of alternatives of such types, every value, every depth", "why_tests_cant": "Which alternative a union takes depends on the types every other alternative accepts in three modes (native, written, read); a test tries particular values on a particular list of alternatives.", "anchors": ["scheme/fields/union.py:98-115", "scheme/field.py:418-475", "scheme/fields/integer.py:48-69", "scheme/fields/text.py:65-90"]}
{"id": "C84", "title": "Schemas made by the constructors meet the conditions of the other claims", "statement": "Whatever is built by calling constructors on fields so built - structures with named members, polymorphic structures on a name or on a field, placeholders defined by such fields, recursive ones included - has named members, distinct names, and in every variant the discriminator with the identity for its constant. Hence, if no field has a preprocessor, ignore_null is combined neither with a default nor with required, and the alternatives of unions can be told apart, processing the result of processing changes nothing; what was read can be written, and is read back as the same value where the types lose nothing; and clones behave like the original.", "quantifier": "all schemas made by constructor calls (unbounded nesting, recursive through placeholders), all values, locations and depths", "why_tests_cant": "The conditions of the other claims speak about the stored form of a schema; that every program that only calls constructors gets such a form is an induction over how schemas are made.", "anchors": ["scheme/fields/structure.py:64-113", "scheme/fields/structure.py:557-574", "scheme/field.py:165-218"]}
{"id": "C85", "title": "Changing one part of a value changes the outcome only at that part", "statement": "Take a value and a position in it that is reached through items of sequences (without unique), tuples, entries of maps, members of structures and of the variant a discriminator selects, none of these containers having a preprocessor. Replace what is there. If both values are processed (accepted or rejected with a structural error), then everything the two outcomes show at positions off the path to the changed part is the same: results stay the same results and reported errors stay the same errors. At the position itself the outcome shows exactly what the field of that part makes of the part alone. Either both outcomes show the part, or both are rejected by a container on the way to it with the same error that speaks about the container as a whole (a length, an invalid key). An accepted value has its part accepted by the part's own field; replacing the part by another one that this field accepts gives an accepted value whose result is the earlier result with just that part replaced; replacing it by a part that this field rejects gives a rejection whose error shows the part's error at the part's place. If the field of the part accepts or rejects the new part, the changed value is accepted or rejected, no other exception appears. For sequences whose items have to be unique none of this holds: a change of one item can make the whole sequence be rejected.", "quantifier": "for all environments, schemas, values, positions, replacements, phases and locations", "why_tests_cant": "tests try single replacements in single documents; that a correction in one place can never disturb the verdict in another needs all schemas and values", "anchors": ["scheme/fields/sequence.py:165-209", "scheme/fields/map.py:178-226", "scheme/fields/structure.py:359-448", "scheme/fields/tuple.py:163-197"]}
{"id": "C86", "title": "Values are compared, hashed, stored and spelled as Python does", "statement": "The Python operations that the other claims are phrased with mean what Python means by them. Equality holds exactly of numbers denoting the same number (1, 1.0, True and Decimal('1.0') are equal, NaN equals nothing), of lists and tuples that are equal item by item, of dicts that are equal entry by entry in any order, of the same object, and of equal content within one type. A value is unhashable exactly when it is, or is a tuple holding, a list, a dict or a surrogate. A value is false exactly when it is None, a zero of any numeric type or something empty. Reading, storing and deleting under a key affect the first entry whose key equals it, in place, and storing under a new key appends. Items are unique exactly when no two of them are equal. Numbers are written in decimal without leading zeros, lower case, joining, splitting and stripping text are what they are in Python.", "quantifier": "for all values, dicts, keys, lists, numbers, texts and character tables", "why_tests_cant": "These operations are used on every value by every field, with values of every type mixed, at every size; a test compares a few pairs.", "anchors": ["scheme/fields/sequence.py:200-209", "scheme/fields/map.py:188-225", "scheme/fields/enumeration.py:70-80", "scheme/fields/text.py:60-80", "scheme/fields/email.py:55-70", "scheme/exceptions.py:130-155", "scheme/formats/structuredtext.py:27-45"]}
{"id": "C87", "title": "Asking describe() for additional parameters adds exactly those the fields have, at every level, and changes nothing else", "statement": "Let p be the dict given as describe(parameters=p, verbose=...). With an empty p the description is that of describe(verbose=...). Otherwise, whenever both descriptions exist: under each name of p for which the field has an attribute other than None, not the given default (unless verbose), the description has that attribute - simple data as it is, a field by its own description - unless the field's class states that name itself (the set bounds of Date, DateTime, Decimal and Time, the parts of fields with parts, the default of fields with parts other than Union); under every other name, except those of the parts, it has exactly what it has without p. The parts - item, key, value, values, fields, members, discriminator and members of every variant - are described with the same p, in their places and order. If fields occurring as attribute values can be described or are left out, there is a description with p exactly if there is one without.", "quantifier": "for all schemas (also recursive ones), all call depths, all dicts of additional parameters, all attributes of field classes, every meaning of object identity, both values of verbose", "why_tests_cant": "The tests of describe never pass parameters to nested fields; no finite set of schemas and attribute names shows that the additional loop neither overwrites what a class states about itself nor gets lost on some path to a nested field.", "anchors": ["scheme/field.py:276-331", "scheme/field.py:237-244", "scheme/fields/sequence.py:73-79", "scheme/fields/map.py:77-88", "scheme/fields/tuple.py:53-66", "scheme/fields/union.py:47-52", "scheme/fields/structure.py:144-168", "scheme/fields/structure.py:511-516", "scheme/fields/date.py:56-63", "scheme/fields/datetime.py:62-69", "scheme/fields/decimal.py:58-65", "scheme/fields/time.py:52-59"]}
{"id": "C88", "title": "Filtering again changes nothing, and filtering in steps is filtering once", "statement": "What filter(all, **p) returns is returned as it is, the same object, when it is filtered by the same parameters again. Filtering in two steps, f.filter(all=True, **p).filter(all=True, **q), has the outcome of f.filter(all=True, **p, **q), results and exceptions alike, whenever the first step succeeds; so the order of the steps does not matter where both orders succeed. A field the first step leaves out is left out by both together. Schemas have no polymorphic structures here and the key fields of maps have no fields below them; parameters name attributes that every field has or aspects, and for the second claim no structure loses all its members. Deviations, shown with witnesses: a structure none of whose members pass both filters is returned unfiltered by the one filter while the two steps leave the members that pass the first; a first step may raise CannotFilterError for a list that both filters together leave out; and a polymorphic structure whose discriminator does not pass is built anew every time.", "quantifier": "all schemas so restricted, recursive ones included, all parameters, call depths and values of all", "why_tests_cant": "tests filter a structure or two once; idempotence and the composition law relate several runs on each other's results for all schemas and parameters", "anchors": ["scheme/field.py:Field.filter", "scheme/fields/structure.py:Structure.filter", "scheme/fields/structure.py:Structure._filter_structure", "scheme/fields/sequence.py:Sequence.filter", "scheme/fields/map.py:Map.filter", "scheme/fields/tuple.py:Tuple.filter"]}
{"id": "C89", "title": "Data that was read survives being made into objects and back", "statement": "For a schema without unions, preprocessors and key_order whose fields have either no instantiator and extractor or a pair that undo each other, and whose polymorphic identities are truthy: if process() accepted or read w, no dict in w has an entry that is None, and instantiate(w) returned x, then extract(x) returns exactly w, with members in the same order. When instantiators accept what they are given, instantiate(w) does succeed. Data from outside that was read, instantiated, extracted and serialized again is read as what was read first.", "quantifier": "all schemas of the stated class (any nesting, deferred definitions, polymorphic structures), all inputs, all instantiator/extractor pairs that undo each other, all environments", "why_tests_cant": "Tests try a few schemas and objects; the claim composes three recursive functions over all schemas and all accepted values, and user functions at every level.", "anchors": ["scheme/field.py:327-360", "scheme/field.py:390-406", "scheme/fields/structure.py:184-225", "scheme/fields/structure.py:280-310", "scheme/fields/sequence.py:81-140", "scheme/fields/map.py:90-150", "scheme/fields/tuple.py:68-140"]}
{"id": "C90", "title": "A schema can be sent as JSON", "statement": "The description of a schema can be written as JSON text, and reading that text gives the very same description; so whoever receives the text reconstructs a field that gives the same result as the field described for every value, phase and serialization flag. It follows that two schemas whose descriptions have the same JSON text behave the same. This holds for all schemas a description carries (C29) whose constants, defaults, enumerations, aspects and required keys are made of None, booleans, numbers, texts, lists and dicts with text keys, and whose identities are texts. It fails for identities that are numbers (the reconstructed field refuses what the original accepts), and the default of a Tuple becomes a list.", "quantifier": "all schemas, placeholder definitions, verbosity, call depths, values, phases, serialization flags", "why_tests_cant": "Descriptions nest as deeply as schemas and carry arbitrary constants and defaults; tests compare a handful of descriptions in memory and never send one through a format.", "anchors": ["scheme/field.py:60-83", "scheme/field.py:268-335", "scheme/field.py:543-572", "scheme/fields/structure.py:143-172", "scheme/formats/json.py"]}
{"id": "C91", "title": "A transformer that relaxes fields relaxes the schema", "statement": "When every field a transformer answers with demands less than the field it was asked about (wider bounds, more values, no longer required, nullable), the schema that `transform` gives accepts every value that the original schema accepts, in both phases and with or without serialization, with the same result; for instance a schema for updates, derived from one for creation by making members optional, accepts whatever creates. This holds as long as nothing is replaced inside of a union and fields with parts have no preprocessor; inside of a union it fails, because the relaxed alternative may take over what a later one accepted.", "quantifier": "all schemas, transformers, placeholder definitions, values, phases, serialization flags, call depths", "why_tests_cant": "The claim relates two infinite sets of accepted values for schemas of any shape and any transformer; tests transform a single schema once and look at the resulting objects.", "anchors": ["scheme/field.py:504-513", "scheme/fields/sequence.py:211-222", "scheme/fields/map.py:228-239", "scheme/fields/tuple.py:200-220", "scheme/fields/union.py:117-137", "scheme/fields/structure.py:481-502"]}
{"id": "C92", "title": "Reading a description takes its field types out of it", "statement": "`Field.reconstruct(description)`, successful or not, makes no objects and changes none except that dicts met in the description lose their entry `fieldtype`. If no dict with `fieldtype` occurs twice in the description and it is accepted, exactly these dicts lose it, all of them, and what is left of the description is itself without any `fieldtype`; the field is the one its value describes. So a description can be read once: reading the same object again, after success or failure, raises ValueError and changes nothing. A Definition field that unserializes a dict, and a Surrogate field with the entry `__schema__` of its dict, do exactly this to the caller's objects, whatever the outcome, and a Definition refuses the same dict as invalid the second time. A description in which one dict occurs at two places is refused although its value describes a field.", "quantifier": "all heaps in which no dict has the key `fieldtype` twice (no dict of Python does), all objects as descriptions including shared and cyclic ones, all depths of nesting, all parameters of the two fields", "why_tests_cant": "A test compares the field obtained with the one expected and never looks at its argument again; that the argument has been changed shows only when it is used a second time, and which parts of a nested description have changed depends on where reading it stopped.", "anchors": ["scheme/field.py:60-83", "scheme/field.py:268-275", "scheme/field.py:543-556", "scheme/fields/definition.py:45-50", "scheme/fields/surrogate.py:54-61", "scheme/surrogate.py:186-191"]}
{"id": "C93", "title": "A structure is made of the caller's dicts", "statement": "Structure(structure, polymorphic_on=...) keeps the dicts and fields it is given and writes into them: '*' is removed from the caller's dict of variants, the common members and the discriminator are entered in the caller's dicts of members, and fields without name are named. If every identity has a dict of its own and no unnamed field is entered under two names, the result is the structure those values describe, with the same exceptions. Whatever is shared and however it ends, no other dict is changed, no named field is changed, and an unnamed one at most receives one of the names it is entered under. If two identities share one dict, every value of the earlier identity is refused by the structure made, in both phases. Making a structure of the dicts once more with the same discriminator yields an equal structure; with another discriminator the earlier one has become a required member of every variant. A plain structure made of a dict keeps that dict; a field without name entered twice is named by the first entry.", "quantifier": "All environments, field objects, dicts of members and of variants with any sharing between them, discriminators (by name, and as fields where separate dicts are concerned), key orders, values.", "why_tests_cant": "Tests build each structure from fresh literals, so nothing is shared and nothing is looked at afterwards; which objects are written into, and what that does to a second structure, depends on the aliasing pattern, of which there are unboundedly many.", "anchors": ["scheme/fields/structure.py:64-113", "scheme/fields/structure.py:557-574"]}
{"id": "C94", "title": "Elements own their attributes, except for defaults of direct construction", "statement": "An instance of an element class has a `__dict__` of its own. Calling the class sets each attribute to the very object passed for it or, if none was passed, to the very default object declared on the field; so two instances made without a value for an attribute share one mutable default, and appending to it through one of them is seen in the other, in later instances and in the schema. Element.unserialize on a schema whose leaves have values without parts changes no existing object and shares nothing with the value it read; for a structure that lists all its members and in which no member with a default ignores nulls it does not share defaults either, so that whatever is done to one element and what it contains is not seen in another. Element.serialize changes nothing, and on such a schema everything it returns is new. On all inputs the outcomes are those of the value-level model.", "quantifier": "all programs of element class statements, all schemas, heaps, values, aliasing patterns, keyword arguments, instantiators and extractors that leave objects alone, and all later modifications", "why_tests_cant": "Aliasing shows only when somebody later modifies one of two objects that happen to be the same; tests compare values right after the call, where shared and copied look equal, and no test modifies an element's default.", "anchors": ["scheme/element.py:24-39", "scheme/element.py:72-80", "scheme/element.py:91-124", "scheme/fields/structure.py:251-269", "scheme/fields/structure.py:534-543"]}
{"id": "C95", "title": "Editing structures that share their fields", "statement": "When structures share field objects, insert, remove and merge edit the structure in place: they have the outcome they have on values, write to no dict but the structure's own and change no field object (merge copies a field it enters under another name), so every other structure keeps its members. extend and replace have the outcome they have on values as long as no field object is given twice, and write to no dict that existed; but they rename the field objects they are given to their keys (replace also those under keys it ignores, extend also those before a value it rejects), so another structure keeps its members if its fields are given under their own names, and otherwise finds one of its members renamed.", "quantifier": "every set of field objects and dicts, shared in any way, every structure among them and every argument", "why_tests_cant": "the sharing decides whether an edit is seen elsewhere; a test fixes one sharing, the claim is about all", "anchors": ["scheme/fields/structure.py:Structure.insert/remove/replace/extend/merge", "scheme/field.py:Field.clone"]}
{"id": "C96", "title": "A document read in one format can be passed on in another", "statement": "What structured text, query strings, CSV tables, JSON and (for schemas without Tuple fields) XML documents are read as, before any field sees it, is plain data: None, booleans, numbers and texts in lists and in dicts keyed by texts. Hence, for a schema whose fields meet the conditions of C57 and a field that unserializes such a document to a value: serialize(value, 'json') succeeds and unserializing its text gives the same value, with no condition on the document or the value; two documents, of the same format or different ones, are read as the same value exactly if their values are written as the same JSON text; and in any other format the value comes back, up to the order of dict entries, if that format carries what the field writes, in particular YAML and XML.", "quantifier": "every schema meeting the stated conditions, every document of these formats, every value it is read as", "why_tests_cant": "a test reads some documents; that no document of any of these formats gives a value which JSON cannot pass on needs all texts, all schemas and nesting of any depth", "anchors": ["scheme/field.py:Field.serialize", "scheme/field.py:Field.unserialize", "scheme/formats/json.py", "scheme/formats/structuredtext.py", "scheme/formats/urlencoded.py", "scheme/formats/csv.py", "scheme/formats/xml.py", "scheme/formats/yaml.py"]}
{"id": "C97", "title": "A description is made of its own objects", "statement": "describe() changes no object that exists when it is called, whatever the field holds as default, constant, aspects and other parameters and whatever is passed as keyword parameters, also if it fails. Its outcome depends only on the values of these objects, not on how they are shared; and the description it returns is put together from new containers alone, no container being used in it twice, even where the field's own objects are shared (a default [d, d] is described with two dicts). So later changes to the description do not reach the field, nor changes to what the field holds the description; and although Field.reconstruct takes the description apart (C92), a field can be described and rebuilt any number of times with the same outcome and without a trace in what it holds.", "quantifier": "every heap, every objects held by a field as aspects and parameters and passed as keyword parameters, shared in any way; for the outcome: those that are values whose dict keys are not containers, within the call depth", "why_tests_cant": "tests compare the values of descriptions, which cannot tell a copy from the object itself or one dict from two equal ones; the claim is about all ways of sharing", "anchors": ["scheme/field.py:Field.describe", "scheme/field.py:Field._describe_parameter", "scheme/field.py:FieldMeta.reconstruct"]}
{"id": "C98", "title": "A clone shares nothing that can be changed with the original but its default", "statement": "Cloning a field changes no object, whatever the field holds, and uses the parameters passed to clone() as they are. Every attribute not passed is given to the clone as a deep copy: it has the same value, and every list and dict in it is new; only tuples in which nothing can be changed are the original's. So what is later done to the lists and dicts of the one is not seen in the other. The one exception is the default, which the clone gets as the very object the original has, unless another is passed: a list appended to through the clone's default is changed in the original. Reading a description after copying it, which interpolating a dynamic surrogate does, changes nothing that existed before, although Field.reconstruct takes the descriptions it reads apart (C92).", "quantifier": "every heap, every attributes and parameters, shared in any way and (for what is left alone and for the default) also containing themselves; for the copies: attributes that are values with distinct dict keys, within the call depth", "why_tests_cant": "tests compare the values of a clone with those of the original, which cannot tell a copy from the object itself, and try few ways of sharing", "anchors": ["scheme/field.py:Field.clone", "scheme/field.py:Field.__deepcopy__", "scheme/surrogate.py:surrogate._interpolate_dynamic_surrogate"]}
{"id": "C99", "title": "Interpolation depends only on the parameters referred to, and more parameters only add entries", "statement": "Interpolating a subject depends on nothing but the template engine's answers to what is asked in it: the expressions of the references in the places its fields are in charge of, the non-empty texts of Text, Email and Token fields, the dicts of Surrogate fields, and the same inside the values of references given for whole containers. So parameters that are not referred to do not matter. If further parameters are defined, those referred to and defined before keeping their values and the texts of templates being rendered as before, then a subject that is interpolated both times gives the same value with entries added to structures and maps in it, in their places and with nothing removed, replaced or reordered; a subject refused before for another reason than an undefined parameter is still refused; and one that was interpolated before does not come to lack a parameter. It may, however, be refused now, as the value of the new parameter may be.", "quantifier": "every schema (also recursive ones and polymorphic structures), subject, call depth and pair of parameter sets (the template engine being a parameter)", "why_tests_cant": "the claim compares all pairs of parameter sets on all nested subjects", "anchors": ["scheme/interpolation.py:interpolate_parameters", "scheme/field.py:Field.interpolate", "scheme/fields/structure.py:Structure.interpolate", "scheme/fields/map.py:Map.interpolate", "scheme/fields/sequence.py:Sequence.interpolate"]}
{"id": "C100", "title": "A schema without some of its members interpolates the corresponding part", "statement": "If a schema interpolates a subject, then the schema with members left out at any depth (as filter() leaves them out, or in any other way) interpolates the same subject too, entries of members it does not have being ignored, and gives exactly the part of the result that belongs to the remaining members: the same containers, items and entries in the same order, without the entries of the members left out. If the first lacks a parameter, so does the second; leaving members out never makes a parameter be missed. A subject that is refused for another reason may be interpolated without some members.", "quantifier": "every two schemas related in this way, also recursive ones, every subject, parameter set and call depth (the template engine being a parameter)", "why_tests_cant": "the claim compares all pairs of schemas on all nested subjects and parameter sets", "anchors": ["scheme/fields/structure.py:Structure.interpolate", "scheme/fields/structure.py:Structure._filter_structure", "scheme/fields/sequence.py:Sequence.interpolate", "scheme/fields/map.py:Map.interpolate", "scheme/fields/tuple.py:Tuple.interpolate"]}
{"id": "C101", "title": "The order of dict entries in a subject matters to interpolation only for the order of maps", "statement": "Interpolating two subjects that differ only in the order of the entries of dicts in them, at any depth, either succeeds for both and the results differ only in that way; or raises UndefinedParameterError for both; or fails otherwise for both, though perhaps with different exceptions. The members of the dict for a structure may even be given in any order without any difference: the result has the order of the schema.", "quantifier": "every schema (also recursive ones and polymorphic structures), subject whose dicts have each key once, reordering of it, call depth and set of parameters, for surrogates whose interpolation does not depend on the order of entries", "why_tests_cant": "the claim compares all nested subjects with all their reorderings", "anchors": ["scheme/fields/map.py:Map.interpolate", "scheme/fields/structure.py:Structure.interpolate", "scheme/fields/sequence.py:Sequence.interpolate", "scheme/fields/tuple.py:Tuple.interpolate", "scheme/fields/enumeration.py:Enumeration.interpolate"]}
{"id": "C102", "title": "The order of dict entries in a subject matters to extraction only for the order of maps, except below unions", "statement": "Extracting from two subjects that differ only in the order of the entries of dicts in them, at any depth, either succeeds for both and the results differ only in that way; or raises FieldExcludedError for both; or fails otherwise for both, though perhaps with different exceptions. The dict for a structure may be given in any order without any difference: the result has the order of the schema. Schemas have no unions here, for which the claim is false: a union goes on to its next field only after CannotExtractError, and a map raises whatever the first entry that cannot be extracted raises, so that the order of the entries can decide between extracting and an IndexError (shown with a witness).", "quantifier": "every schema without unions whose polymorphic structures have texts as identities (also recursive ones), screening parameters, subject whose dicts have each key once, reordering of it and call depth; extractors that do not depend on the order; strict, or not strict with attributes of lists and tuples that do not depend on the order of dicts in them", "why_tests_cant": "the claim compares all nested subjects with all their reorderings", "anchors": ["scheme/fields/map.py:Map.extract", "scheme/fields/structure.py:Structure.extract", "scheme/fields/sequence.py:Sequence.extract", "scheme/fields/tuple.py:Tuple.extract", "scheme/fields/union.py:Union.extract"]}
