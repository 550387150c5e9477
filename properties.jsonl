{"id": "C01", "title": "Numeric attribute text means what it says", "statement": "When a numeric attribute (version, length, bit index, id, value ...) is accepted, the value the parser stores is the integer the text denotes (decimal, 0x.. hex, 0.. octal), and text denoting a value outside the target type is rejected.", "quantifier": "every attribute string", "why_tests_cant": "unbounded set of strings; the failing ones sit beyond 2^32", "anchors": ["lib/src/parse/parse_common.cpp:parseStrToUnsigned", "lib/src/parse/parse_common.cpp:parseStrToIntMax", "lib/src/parse/parse_common.cpp:parseStrToUintMax"]}
{"id": "C02", "title": "Accepted names are C identifiers", "statement": "A name is accepted if and only if it is a non-empty string of ASCII letters, digits and underscores that does not start with a digit.", "quantifier": "every string", "why_tests_cant": "infinitely many strings", "anchors": ["lib/src/parse/parse_common.cpp:parseIsValidName"]}
{"id": "C03", "title": "Accepted references are dot-separated paths", "statement": "A reference is accepted if and only if, after an optional '@', it is a '.'-separated path whose components are all non-empty and valid names.", "quantifier": "every string", "why_tests_cant": "infinitely many strings", "anchors": ["lib/src/parse/parse_common.cpp:parseIsValidRefName", "lib/src/parse/parse_common.cpp:parseIsValidExternalRefName"]}
{"id": "C04", "title": "Whitespace trimming and normalisation are canonical", "statement": "Trimming removes exactly the leading and trailing whitespace and nothing else, normalisation maps every whitespace run to one space and keeps every other character in order; both are idempotent.", "quantifier": "every string", "why_tests_cant": "infinitely many strings", "anchors": ["lib/src/parse/parse_common.cpp:parseRemoveHeadingTrailingWhitespaces", "lib/src/parse/parse_common.cpp:parseNormaliseString"]}
{"id": "C05", "title": "Range literals", "statement": "A valid-range literal is accepted exactly when it has the form '[' lo ',' hi ']' with a single comma and no inner ']' after the comma; the parts returned are lo without trailing blanks and hi without leading blanks, and no out-of-bounds access happens for any input.", "quantifier": "every string", "why_tests_cant": "infinitely many strings incl. degenerate ones such as '[,]'", "anchors": ["lib/src/parse/parse_common.cpp:parseRange"]}
{"id": "C06", "title": "Boolean literals", "statement": "A boolean property is accepted iff its lower-cased text is one of true/1/false/0, and the value is the obvious one.", "quantifier": "every string", "why_tests_cant": "infinitely many strings", "anchors": ["lib/src/parse/parse_common.cpp:parseStrToBool"]}
{"id": "C07", "title": "Units text is unambiguous", "statement": "Units lookup ignores case, blanks and tabs, every listed spelling maps to exactly one unit, and every unit is reachable from some spelling.", "quantifier": "every string and every unit", "why_tests_cant": "all spellings and all case/space variants", "anchors": ["lib/src/parse/parse_common.cpp:parseStrToUnits"]}
{"id": "C08", "title": "String values: escapes and external references", "statement": "Where references are supported (DSL 2 on), a string property whose text starts with '^' is the value referenced by the rest of the text; a non-empty run of backslashes at the start that is directly followed by '^' loses its first backslash; any other text is taken literally. Every literal can therefore be written so that it is read back unchanged. Where references are unsupported every text is literal.", "quantifier": "every string", "why_tests_cant": "infinitely many strings", "anchors": ["lib/src/parse/ParseProtocolImpl.cpp:parseStrToStringValue"]}
{"id": "C09", "title": "Integer type bounds are exact", "statement": "For every integer type, length and bit length, the bounds the parser uses are exactly the two's complement (or unsigned, or base-128 variable length) bounds of that representation.", "quantifier": "every type, byte length and bit length", "why_tests_cant": "thousands of combinations, off-by-one prone", "anchors": ["lib/src/parse/ParseIntFieldImpl.cpp:parseCalcMinValue", "lib/src/parse/ParseIntFieldImpl.cpp:parseCalcMaxValue"]}
{"id": "C10", "title": "Accepted integer fields have representable default and special values", "statement": "If an <int> field is accepted, its default value and all its special values are representable in its type and length.", "quantifier": "every int field definition", "why_tests_cant": "unbounded values", "anchors": ["lib/src/parse/ParseIntFieldImpl.cpp:parseUpdateDefaultValue", "lib/src/parse/ParseIntFieldImpl.cpp:parseUpdateSpecials"]}
{"id": "C11", "title": "Valid-range normalisation keeps the set of valid values", "statement": "Sorting and merging the declared valid ranges of an <int> field never changes, for any protocol version, the set of values considered valid.", "quantifier": "every list of declared ranges, every value, every protocol version, every integer type", "why_tests_cant": "merging interacts with versions, signedness and overflow at extreme values", "anchors": ["lib/src/parse/ParseIntFieldImpl.cpp:parseUpdateValidRanges"]}
{"id": "C12", "title": "Normalised valid ranges are sorted and minimal", "statement": "After acceptance the valid ranges are sorted by lower bound and no two ranges of the same version window overlap or touch.", "quantifier": "every list of declared ranges", "why_tests_cant": "unbounded lists", "anchors": ["lib/src/parse/ParseIntFieldImpl.cpp:parseUpdateValidRanges"]}
{"id": "C13", "title": "Serialisation offset keeps the wire value in range", "statement": "When a serialisation offset is accepted, min/max value adjusted by the offset still fit the serialised type.", "quantifier": "every type, offset and range", "why_tests_cant": "extreme values", "anchors": ["lib/src/parse/ParseIntFieldImpl.cpp:parseUpdateSerOffset", "lib/src/parse/ParseIntFieldImpl.cpp:parseUpdateMinMaxValues"]}
{"id": "C14", "title": "Integer specials have unique names", "statement": "In an accepted <int> field no two special values have the same name, and unless duplicates are explicitly allowed no two have the same value; specials inherited through reuse are included.", "quantifier": "every sequence of special definitions", "why_tests_cant": "unbounded lists", "anchors": ["lib/src/parse/ParseIntFieldImpl.cpp:parseUpdateSpecials"]}
{"id": "C15", "title": "Scaling ratio is well formed", "statement": "An accepted scaling ratio has non-zero numerator and denominator and equals the ratio written in the text.", "quantifier": "every scaling text", "why_tests_cant": "unbounded", "anchors": ["lib/src/parse/ParseIntFieldImpl.cpp:parseUpdateScaling"]}
{"id": "C16", "title": "Enum names and values are unique and in range", "statement": "In an accepted <enum> field all value names differ, values differ unless non-unique values were allowed, and each is representable in the underlying type and length.", "quantifier": "every sequence of <validValue> elements", "why_tests_cant": "unbounded lists", "anchors": ["lib/src/parse/ParseEnumFieldImpl.cpp:parseUpdateValues"]}
{"id": "C17", "title": "Enum reverse lookup is the inverse of the value table", "statement": "The value-to-name table lists exactly the (value, name) pairs of the name-to-value table in value order, and the field reports 'unique' exactly if no value occurs twice.", "quantifier": "every accepted enum", "why_tests_cant": "unbounded", "anchors": ["lib/src/parse/ParseEnumFieldImpl.cpp:parseUpdateValues", "lib/src/parse/ParseEnumFieldImpl.cpp:parseIsUnique"]}
{"id": "C18", "title": "Set bits are inside the field and unambiguous", "statement": "In an accepted <set> field every bit index is below the bit length, bit names are unique, and one index is never used by two bits unless non-unique bits are allowed.", "quantifier": "every sequence of <bit> elements", "why_tests_cant": "unbounded lists", "anchors": ["lib/src/parse/ParseSetFieldImpl.cpp:parseUpdateBits", "lib/src/parse/ParseSetFieldImpl.cpp:parseUpdateLength"]}
{"id": "C19", "title": "Bitfield members fill whole bytes", "statement": "An accepted <bitfield> has members whose bit lengths sum to a multiple of 8 not above 64, and its serialised length is that sum in bytes.", "quantifier": "every sequence of members, including replacement after reuse", "why_tests_cant": "unbounded sequences of members and replacements", "anchors": ["lib/src/parse/ParseBitfieldFieldImpl.cpp:parseUpdateMembers", "lib/src/parse/ParseBitfieldFieldImpl.cpp:parseReplaceMembersImpl"]}
{"id": "C20", "title": "Length arithmetic saturates exactly", "statement": "Adding and multiplying serialised lengths gives the exact mathematical result when it is below the 'unlimited' marker and the marker otherwise, never a wrapped value.", "quantifier": "all 64-bit operands", "why_tests_cant": "2^128 operand pairs", "anchors": ["lib/src/parse/parse_common.cpp:parseAddToLength", "lib/src/parse/parse_common.cpp:parseMulLength"]}
{"id": "C21", "title": "Length multiplication never divides by zero", "statement": "Computing the maximal length of any accepted field is free of undefined behaviour.", "quantifier": "every accepted list field", "why_tests_cant": "needs a count prefix with extreme serialisation offset", "anchors": ["lib/src/parse/parse_common.cpp:parseMulLength", "lib/src/parse/ParseListFieldImpl.cpp:parseMaxLengthImpl"]}
{"id": "C22", "title": "Minimal length never exceeds maximal length", "statement": "For every accepted field, however deeply nested, the reported minimal serialised length is at most the reported maximal one.", "quantifier": "every field tree", "why_tests_cant": "unbounded nesting", "anchors": ["lib/src/parse/ParseFieldImpl.cpp:parseMinLength", "lib/src/parse/ParseBundleFieldImpl.cpp:parseMinLengthImpl", "lib/src/parse/ParseListFieldImpl.cpp:parseMinLengthImpl"]}
{"id": "C23", "title": "Reported lengths bound every serialisation", "statement": "Every byte sequence a field can serialise to has a size between the reported minimal and maximal length.", "quantifier": "every field tree and every value of it", "why_tests_cant": "unbounded nesting and values", "anchors": ["lib/src/parse/ParseFieldImpl.cpp:parseMaxLength"]}
{"id": "C24", "title": "Message length accounts for versions", "statement": "The minimal length of a message is the sum of the minimal lengths of those fields that exist in the version the message was introduced; the maximal length is the saturating sum over all fields.", "quantifier": "every message", "why_tests_cant": "unbounded", "anchors": ["lib/src/parse/ParseMessageImpl.cpp:parseMinLength", "lib/src/parse/ParseMessageImpl.cpp:parseMaxLength"]}
{"id": "C25", "title": "Requested minimal length check is honoured", "statement": "If an element requests a minimal length (validateMinLength) and is accepted, its maximal/minimal length equals the request.", "quantifier": "every element and every requested value", "why_tests_cant": "values above 2^31 needed", "anchors": ["lib/src/parse/ParseFieldImpl.cpp:parseVerifyMinLength", "lib/src/parse/ParseMessageImpl.cpp:parseUpdateValidateMinLength"]}
{"id": "C26", "title": "Version windows are consistent", "statement": "In an accepted element sinceVersion <= schema version, sinceVersion is not below the parent's, sinceVersion < deprecated, the deprecated version is not beyond the parent's, and deprecated <= schema version unless never deprecated.", "quantifier": "all version numbers of element, parent and schema", "why_tests_cant": "all combinations of 5 numbers", "anchors": ["lib/src/parse/ParseXmlWrap.cpp:parseCheckVersions"]}
{"id": "C27", "title": "Version windows nest through the whole tree", "statement": "In an accepted message or bundle tree each descendant at any depth exists only while all its ancestors exist.", "quantifier": "every tree depth", "why_tests_cant": "unbounded depth", "anchors": ["lib/src/parse/ParseXmlWrap.cpp:parseGetAndCheckVersions", "lib/src/parse/ParseFieldImpl.cpp:parseUpdateVersions"]}
{"id": "C28", "title": "DSL feature gating is monotone", "statement": "A property or feature supported in DSL version v stays supported in every later DSL version unless it is listed as deprecated, and dslVersion 0 (unspecified) supports everything.", "quantifier": "every property name and DSL version", "why_tests_cant": "all versions", "anchors": ["lib/src/parse/ParseProtocolImpl.cpp:parseIsFeatureSupported", "lib/src/parse/ParseProtocolImpl.cpp:parseIsPropertySupported"]}
{"id": "C29", "title": "Reusing a bundle drops removed members and lifts versions", "statement": "A bundle/message copied into a context introduced at version v contains, in the same order, exactly the members not removed at or before v, each with sinceVersion raised to at least v.", "quantifier": "every member list and version", "why_tests_cant": "unbounded lists", "anchors": ["lib/src/parse/ParseBundleFieldImpl.cpp:parseUpdateMembers", "lib/src/parse/ParseMessageImpl.cpp:parseCloneFieldsFrom", "lib/src/parse/ParseVariantFieldImpl.cpp:parseUpdateMembers"]}
{"id": "C30", "title": "Message ids are unique", "statement": "Unless non-unique ids are allowed, no two messages of an accepted schema have the same id; with non-unique ids allowed no two with the same id have the same order.", "quantifier": "every schema (any nesting of namespaces)", "why_tests_cant": "unbounded nesting of namespaces", "anchors": ["lib/src/parse/ParseNamespaceImpl.cpp:parseValidateAllMessages", "lib/src/parse/ParseSchemaImpl.cpp:parseValidateAllMessages"]}
{"id": "C31", "title": "Message listing is sorted by id then order", "statement": "The list of all messages is a permutation of the defined messages and is sorted by (id, order).", "quantifier": "every schema", "why_tests_cant": "unbounded lists", "anchors": ["lib/src/parse/ParseSchemaImpl.cpp:parseAllMessages", "lib/src/gen/GenGenerator.cpp:genSortMessages"]}
{"id": "C32", "title": "External references round-trip", "statement": "Looking up the external reference string of a field/message/interface returns that very element.", "quantifier": "every element in every namespace tree of every schema", "why_tests_cant": "unbounded nesting and names", "anchors": ["lib/src/parse/ParseNamespaceImpl.cpp:parseFindField", "lib/src/parse/ParseProtocolImpl.cpp:parseFindField", "lib/src/parse/ParseFieldImpl.cpp:parseExternalRef"]}
{"id": "C33", "title": "Schemas only reference schemas parsed before them", "statement": "A reference resolved while schema i is being parsed designates an element of a schema j <= i.", "quantifier": "every sequence of schemas and references", "why_tests_cant": "all orders of schema files", "anchors": ["lib/src/parse/ParseProtocolImpl.cpp:parseCanRefSchema", "lib/src/parse/ParseProtocolImpl.cpp:parseStrToValue"]}
{"id": "C34", "title": "References never form a cycle", "statement": "Because a reference can only resolve to an already defined field, following references and reuse links from any field terminates.", "quantifier": "every sequence of field definitions", "why_tests_cant": "unbounded chains", "anchors": ["lib/src/parse/ParseNamespaceImpl.cpp:parseFindField", "lib/src/parse/ParseRefFieldImpl.cpp:parseImpl"]}
{"id": "C35", "title": "Protocol life cycle", "statement": "parse() is refused after validation, validate() is idempotent, fails when nothing was parsed, and a failed parse leaves previously parsed schemas available.", "quantifier": "every sequence of API calls", "why_tests_cant": "unbounded histories", "anchors": ["lib/src/parse/ParseProtocolImpl.cpp:parse", "lib/src/parse/ParseProtocolImpl.cpp:parseValidate"]}
{"id": "C36", "title": "Condition expressions parse to what they say", "statement": "A condition text 'left OP right' with OP in !=,>=,<=,=,>,< is split at the operator so that printing and re-parsing gives the same expression, spaces around are irrelevant, and unparsable text is rejected.", "quantifier": "every condition string", "why_tests_cant": "infinitely many strings", "anchors": ["lib/src/parse/ParseOptCondImpl.cpp:parse"]}
{"id": "C37", "title": "Condition lists are well formed trees", "statement": "An accepted <and>/<or> condition has at least two sub-conditions at every level and keeps all of them in document order.", "quantifier": "every nesting depth", "why_tests_cant": "unbounded nesting", "anchors": ["lib/src/parse/ParseOptCondImpl.cpp:ParseOptCondListImpl::parse"]}
{"id": "C38", "title": "Accepted frames are well formed", "statement": "An accepted frame has exactly one payload layer, at most one id and one size layer, and id, size and value layers precede the payload.", "quantifier": "every sequence of layers", "why_tests_cant": "unbounded sequences", "anchors": ["lib/src/parse/ParseFrameImpl.cpp:parseUpdateLayers", "lib/src/parse/ParseLayerImpl.cpp:parseVerifySingleLayer", "lib/src/parse/ParseLayerImpl.cpp:parseVerifyBeforePayload"]}
{"id": "C39", "title": "Checksum coverage is well defined", "statement": "In an accepted frame each checksum layer names at least one existing bound, 'from' designates an earlier layer, 'until' a later one, and two suffix layers with 'from' nest (an outer one never starts after an inner one).", "quantifier": "every sequence of layers", "why_tests_cant": "unbounded sequences", "anchors": ["lib/src/parse/ParseChecksumLayerImpl.cpp:parseVerifyImpl", "lib/src/parse/ParseLayerImpl.cpp:parseVerifySuffixLayersOrder", "lib/src/parse/ParseCustomLayerImpl.cpp:parseVerifyChecksumInternal"]}
{"id": "C40", "title": "Layer names in a frame are unique", "statement": "In an accepted frame no two layers have the same name, so 'from'/'until' references are unambiguous.", "quantifier": "every sequence of layers", "why_tests_cant": "unbounded sequences", "anchors": ["lib/src/parse/ParseFrameImpl.cpp:parseUpdateLayers"]}
{"id": "C41", "title": "Sync layer properties never crash the parser", "statement": "Parsing the seekField / verifyBeforeRead / from properties of a sync layer is free of undefined behaviour for every DSL version.", "quantifier": "every combination of properties and DSL versions", "why_tests_cant": "needs an old dslVersion together with a new property", "anchors": ["lib/src/parse/ParseSyncLayerImpl.cpp:parseUpdateVerifyBeforeReadInternal", "lib/src/parse/ParseSyncLayerImpl.cpp:parseUpdateFromInternal"]}
{"id": "C42", "title": "Aliases are unambiguous and resolvable", "statement": "Every alias accepted in a message, interface or bundle has a name that differs (ignoring the case of the first letter) from every field and other alias, and its path resolves to an existing member.", "quantifier": "every list of aliases and every field tree", "why_tests_cant": "unbounded", "anchors": ["lib/src/parse/ParseAliasImpl.cpp:parseVerifyAlias", "lib/src/parse/ParseFieldImpl.cpp:parseVerifyAliasedMember"]}
{"id": "C43", "title": "Copying fields keeps their aliases", "statement": "When fields are copied with their aliases, exactly the aliases whose aliased field was copied are kept.", "quantifier": "every list of fields and aliases", "why_tests_cant": "paths with dots are easily missed", "anchors": ["lib/src/parse/ParseInterfaceImpl.cpp:parseCopyAliases", "lib/src/parse/ParseMessageImpl.cpp:parseCopyAliases"]}
{"id": "C44", "title": "Variant default member exists", "statement": "An accepted variant's default member index is either 'none' or the index of an existing member, the one designated in the definition.", "quantifier": "every member list, reuse chain and default text", "why_tests_cant": "needs reuse, removal and inherited default together", "anchors": ["lib/src/parse/ParseVariantFieldImpl.cpp:parseUpdateDefaultMember", "lib/src/parse/ParseVariantFieldImpl.cpp:parseUpdateMembers"]}
{"id": "C45", "title": "Cloned fields are equal to their originals", "statement": "A field copied by reuse of its container has every attribute of the original (members, aliases, conditions).", "quantifier": "every field tree", "why_tests_cant": "unbounded nesting", "anchors": ["lib/src/parse/ParseBundleFieldImpl.cpp:ParseBundleFieldImpl", "lib/src/parse/ParseBitfieldFieldImpl.cpp:ParseBitfieldFieldImpl", "lib/src/parse/ParseOptionalFieldImpl.cpp:ParseOptionalFieldImpl"]}
{"id": "C46", "title": "Replacing members keeps names and order", "statement": "Replacing members of a reused bundle/bitfield/variant keeps the number, order and names of members, changes exactly the named ones and rejects unknown names.", "quantifier": "every member and replacement list", "why_tests_cant": "unbounded lists", "anchors": ["lib/src/parse/ParseBundleFieldImpl.cpp:parseReplaceMembersImpl", "lib/src/parse/ParseVariantFieldImpl.cpp:parseReplaceMembersImpl", "lib/src/parse/ParseMessageImpl.cpp:parseReplaceFields"]}
{"id": "C47", "title": "Platform lists", "statement": "A message's platform list is sorted, duplicate free and contains only declared platforms: those listed after '+', or all declared except those listed after '-'.", "quantifier": "every platform text", "why_tests_cant": "unbounded strings", "anchors": ["lib/src/parse/ParseMessageImpl.cpp:parseUpdatePlatforms"]}
{"id": "C48", "title": "Member names are unique", "statement": "Sibling members of an accepted bundle, bitfield, variant, message or interface have different names.", "quantifier": "every member list", "why_tests_cant": "unbounded lists", "anchors": ["lib/src/parse/ParseFieldImpl.cpp:parseValidateMembersNames"]}
{"id": "C49", "title": "Text substitution is exact", "statement": "Generator text substitution replaces every non-overlapping occurrence, left to right, and nothing else; it terminates for every non-empty pattern.", "quantifier": "every text, pattern and replacement", "why_tests_cant": "infinitely many strings", "anchors": ["lib/src/gen/util.cpp:genStrReplace"]}
{"id": "C50", "title": "Splitting text loses nothing", "statement": "Splitting a text by a separator set yields exactly the maximal separator-free pieces in order (non-empty ones in compressed mode); joining them restores the text when no separator is trailing.", "quantifier": "every text and separator set", "why_tests_cant": "infinitely many strings", "anchors": ["lib/src/gen/util.cpp:genStrSplitByAnyChar", "lib/src/gen/util.cpp:genStrSplit"]}
{"id": "C51", "title": "Generated integer literals denote the value", "statement": "The C++ literal emitted for an integer denotes exactly that integer and its suffix selects a type that can hold it.", "quantifier": "all 2^64 signed and unsigned values and all widths", "why_tests_cant": "2^64 values; extreme INT64_MIN", "anchors": ["lib/src/gen/util.cpp:genNumToString", "lib/src/gen/util.cpp:genNumToStringWithHexComment"]}
{"id": "C52", "title": "Line wrapping keeps the text", "statement": "Breaking a long description in lines changes nothing but white space at break points and always terminates.", "quantifier": "every text and width", "why_tests_cant": "infinitely many strings", "anchors": ["lib/src/gen/util.cpp:genStrMakeMultiline"]}
{"id": "C53", "title": "Template expansion", "statement": "Expanding a code template replaces each placeholder by its value (indented), leaves all other text unchanged, drops lines that consist of empty placeholders only, and terminates.", "quantifier": "every template and replacement map", "why_tests_cant": "infinitely many templates", "anchors": ["lib/src/gen/util.cpp:genProcessTemplate"]}
{"id": "C54", "title": "Code tidying removes blank space only", "statement": "Tidying generated code removes only blanks before line ends and superfluous newlines: the non-blank characters and their order are unchanged.", "quantifier": "every generated text", "why_tests_cant": "infinitely many texts", "anchors": ["lib/src/gen/util.cpp:genDoTidyCode"]}
{"id": "C55", "title": "Generated files do not collide", "statement": "Two different elements (namespaces, messages, fields, frames, interfaces) of a schema are never written to the same file.", "quantifier": "every pair of elements in every namespace tree", "why_tests_cant": "unbounded trees and names", "anchors": ["lib/src/gen/comms.cpp:genScopeForInternal", "lib/src/gen/comms.cpp:genRelHeaderPathFor"]}
{"id": "C56", "title": "Namespace blocks are balanced", "statement": "In every generated file the closing namespace comments match the opened namespaces in reverse order.", "quantifier": "every element in every tree", "why_tests_cant": "unbounded nesting", "anchors": ["lib/src/gen/comms.cpp:genNamespaceBeginFor", "lib/src/gen/comms.cpp:genNamespaceEndFor"]}
{"id": "C57", "title": "Elements are generated exactly for the supported versions", "statement": "An element is generated iff some version between the minimal remote version and the (forced) schema version contains it, and treated as optional whenever some supported version lacks it.", "quantifier": "all version combinations", "why_tests_cant": "all combinations of 6 numbers", "anchors": ["lib/src/gen/GenSchema.cpp:genDoesElementExist", "lib/src/gen/GenSchema.cpp:genIsElementOptional", "lib/src/gen/comms.cpp:genIsVersionOptionalField"]}
{"id": "C58", "title": "Storage type fits", "statement": "The C++ integer type chosen for a field can represent every value between the field's type bounds.", "quantifier": "every type and length", "why_tests_cant": "all combinations", "anchors": ["lib/src/gen/comms.cpp:genCppIntTypeFor"]}
{"id": "C59", "title": "Include lists are canonical", "statement": "The include list written to a file contains every collected header exactly once, ordered by header name, and does not depend on the order in which the headers were collected.", "quantifier": "every list of includes", "why_tests_cant": "all orders", "anchors": ["lib/src/gen/comms.cpp:genPrepareIncludeStatement"]}
{"id": "C60", "title": "Exactly the requested messages are generated", "statement": "Without a request code is generated for all messages of all schemas; with a platform exactly for the messages that support it in the schemas that declare it, and an unknown platform is refused; with a list of messages exactly for the listed ones, and a list with an unknown message is refused.", "quantifier": "every set of parsed schemas, every platform name and every list file", "why_tests_cant": "unbounded schemas, namespace trees and lists", "anchors": ["lib/src/gen/GenGenerator.cpp:genReferenceRequestedMessagesInternal,genProcessForcedPlatformInternal,genProcessMessagesListFileInternal", "lib/src/gen/GenNamespace.cpp:genSetAllMessagesReferenced"]}
{"id": "C61", "title": "Names for the same set bit agree", "statement": "When several names share a bit index of a set, then in every protocol version where two of them exist they have the same default value, the same reserved flag and the same reserved value.", "quantifier": "every accepted set, reused or not, every pair of names and every version", "why_tests_cant": "unbounded bit lists and reuse chains", "anchors": ["lib/src/parse/ParseSetFieldImpl.cpp:parseUpdateBits"]}
{"id": "C67", "title": "Value layers name a field of all their interfaces", "statement": "In an accepted frame every value layer refers to at least one interface, and the field it names is present in each of them at the same position.", "quantifier": "every frame and every list of interfaces", "why_tests_cant": "unbounded lists of interfaces and fields", "anchors": ["lib/src/parse/ParseValueLayerImpl.cpp:parseUpdateInterfaces,parseUpdateFieldName", "lib/src/parse/ParseInterfaceImpl.cpp:parseFindFieldIdx"]}
{"id": "C68", "title": "References of the generator denote the parsed element", "statement": "Looking an element (field, message, frame, interface) up in the generator by the external reference the parser gives for it, with or without the schema name, returns exactly this element, whichever schema is current; and a message found by any text is the one the text names.", "quantifier": "every parsed protocol, every element, every current schema, every reference text", "why_tests_cant": "unbounded namespace trees and names; binary search over sorted lists", "anchors": ["lib/src/gen/GenGenerator.cpp:genParseExternalRef,genFindField,genGindMessage,genFindFrame,genFindInterface", "lib/src/gen/GenSchema.cpp:genFindField", "lib/src/gen/GenNamespace.cpp:genFindField,genGindMessage,genFindFrame,genFindInterface"]}
{"id": "C69", "title": "Deprecated elements are marked as deprecated", "statement": "In the generated code an element is marked as deprecated iff it is deprecated in the version of the schema the code is generated for.", "quantifier": "all versions", "why_tests_cant": "all combinations of versions", "anchors": ["lib/src/gen/GenSchema.cpp:genIsElementDeprecated"]}
{"id": "C66", "title": "Detached prefixes refer to an earlier number", "statement": "When the length, count or element length of a string, data or list field is given by a sibling (detached prefix), the text names an integer (or a reference to one) that precedes the field in the same bundle or message.", "quantifier": "every accepted bundle and message and every member in it", "why_tests_cant": "unbounded nesting and member lists", "anchors": ["lib/src/parse/ParseBundleFieldImpl.cpp:parseUpdateMembers", "lib/src/parse/ParseStringFieldImpl.cpp:parseVerifySiblingsImpl", "lib/src/parse/ParseListFieldImpl.cpp:parseVerifySiblingsImpl", "lib/src/parse/ParseFieldImpl.cpp:parseProcessSiblingRef"]}
{"id": "C70", "title": "Conditions refer to things that exist and can be compared", "statement": "Every reference in a condition of an accepted optional field, bundle, bitfield or message leads to a field that is in scope (preceding sibling, member, interface field), to a value declared by it, to its size or to its existence, and two sides are only compared when they are comparable; conversely plain references to fields, values, sizes and existence are accepted.", "quantifier": "every accepted field and message, every condition tree", "why_tests_cant": "unbounded condition trees, nesting and reference paths", "anchors": ["lib/src/parse/ParseOptCondImpl.cpp:parseVerifyImpl,parseVerifyComparison,parseVerifySiblingComparison", "lib/src/parse/ParseFieldImpl.cpp:parseProcessSiblingRef", "lib/src/parse/ParseMessageImpl.cpp:parseUpdateSingleCondInternal,parseUpdateMultiCondInternal"]}
{"id": "C71", "title": "Semantic types only on fitting kinds of fields", "statement": "In every accepted field the semantic type version is only given to an int, messageId only to an enum, length only to an int, bitfield or bundle, or to a reference to such a field, and only when the DSL version of the schema supports it; nothing else is refused.", "quantifier": "every accepted field, at every depth, reused and cloned objects included", "why_tests_cant": "unbounded field trees and reuse chains", "anchors": ["lib/src/parse/ParseFieldImpl.cpp:parseVerifySemanticType", "lib/src/parse/ParseFieldImpl.cpp:parseVerifySemanticTypeImpl", "lib/src/parse/ParseRefFieldImpl.cpp:parseVerifySemanticTypeImpl"]}
{"id": "C63", "title": "Data values are written as pairs of hexadecimal digits", "statement": "The text of a default or valid value of a data field is accepted iff, blanks aside, it is a sequence of pairs of hexadecimal digits; the value is exactly the bytes these pairs denote, in order, and every sequence of bytes can be written so.", "quantifier": "every text, every sequence of bytes", "why_tests_cant": "infinitely many texts", "anchors": ["lib/src/parse/ParseDataFieldImpl.cpp:parseStrToValue"]}
{"id": "C64", "title": "Valid values of strings and data are listed completely and in order", "statement": "The valid values of an accepted string or data field are exactly those of the field it reuses together with those declared by it, as attribute or children, each with its versions, in lexicographical order.", "quantifier": "every accepted string and data field", "why_tests_cant": "unbounded lists of values and reuse chains", "anchors": ["lib/src/parse/ParseStringFieldImpl.cpp:parseUpdateValidValues,parseCheckValidValueAsAttr,parseCheckValidValueAsChild", "lib/src/parse/ParseDataFieldImpl.cpp:parseUpdateValidValues"]}
{"id": "C65", "title": "One way to find the end of a sequence", "statement": "The end of an accepted string, data or list field is determined in at most one way: fixed length or count, a length or count prefix (own, referenced or detached), or a termination; and list elements said to have a fixed length have equal minimal and maximal length.", "quantifier": "every string, data and list field of an accepted schema, reused and cloned ones included", "why_tests_cant": "unbounded definitions and reuse chains", "anchors": ["lib/src/parse/ParseStringFieldImpl.cpp:parseUpdateLength,parseUpdateLengthPrefix,parseUpdateHasZeroTermSuffix", "lib/src/parse/ParseDataFieldImpl.cpp:parseUpdateLength,parseUpdatePrefix", "lib/src/parse/ParseListFieldImpl.cpp:parseUpdateCount,parseUpdateCountPrefix,parseUpdateLengthPrefix,parseUpdateTermSuffix,parseUpdateElemFixedLength"]}
{"id": "C73", "title": "Parsing ends, however deep the document", "statement": "For every document, whatever its depth, parsing a field ends with a definite result: the recursion only descends into the document.", "quantifier": "all documents of any depth", "why_tests_cant": "unbounded depth", "anchors": ["lib/src/parse/ParseFieldImpl.cpp:parse", "lib/src/parse/ParseBundleFieldImpl.cpp:parseUpdateMembers", "lib/src/parse/ParseListFieldImpl.cpp:parseCheckElementAsChild", "lib/src/parse/ParseOptionalFieldImpl.cpp:parseCheckFieldAsChild"]}
{"id": "C74", "title": "Values of float fields", "statement": "Default and special values of an accepted float field are values of its type (nan, an infinity, or at most the largest finite number) and exactly what their texts denote; special names are valid and unique; special values are unique unless the field says otherwise, and parseHasNonUniqueSpecials reports exactly whether two are equal, nan included.", "quantifier": "every accepted float field, reused ones included, every text and every special", "why_tests_cant": "unbounded lists of specials, all doubles", "anchors": ["lib/src/parse/ParseFloatFieldImpl.cpp:parseUpdateSpecials,parseUpdateDefaultValue,parseStrToValue,parseHasNonUniqueSpecials", "lib/src/parse/parse_common.cpp:parseStrToDouble"]}
{"id": "C75", "title": "Valid ranges of float fields", "statement": "The values a float field declares valid in each protocol version are exactly those of the declared (and reused) ranges, before and after sorting and merging, also with nan and infinities; the ranges are sorted and do not overlap within a version window; the order of declarations is irrelevant.", "quantifier": "every list of ranges, every protocol version, every double", "why_tests_cant": "all lists and all doubles", "anchors": ["lib/src/parse/ParseFloatFieldImpl.cpp:parseUpdateValidRanges,parseCompareLess,parseCheckFullRangeProps,parseCheckValidRangeProps,parseCheckValidValueProps,parseCheckValidMinProps,parseCheckValidMaxProps"]}
{"id": "C62", "title": "Properties as attributes or child elements, in any order", "statement": "A property of a field may be written as an attribute, as a child element with a value attribute or as a child element with text, anywhere among the others: the result of parsing is the same; the order of attributes does not matter; a property written twice is rejected; the name that is written is the name of the field.", "quantifier": "every document, field, property and position, every nesting", "why_tests_cant": "infinitely many documents and orders", "anchors": ["lib/src/parse/ParseXmlWrap.cpp:parseNodeProps,parseChildrenAsProps,parseNodeValue,parseGetText,parseValidateSinglePropInstance", "lib/src/parse/ParseFieldImpl.cpp:parse"]}
{"id": "C72", "title": "References to values give the declared values", "statement": "A reference to a value (namespaces, field, members, special value, enum value or bit; in the current schema or with @schema) resolves exactly when its names lead to such a declaration, and gives the number, truth value, text, bytes or floating point value declared there; a negative or too large number is refused for unsigned or smaller types.", "quantifier": "every state of the protocol object while documents are processed, every field however nested, every reference made of names", "why_tests_cant": "unbounded nesting and histories", "anchors": ["lib/src/parse/ParseProtocolImpl.cpp:parseStrToValue,parseExternalRef", "lib/src/parse/ParseNamespaceImpl.cpp:parseStrToValue", "lib/src/parse/ParseFieldImpl.cpp:parseStrToValueOnFields", "lib/src/parse/ParseRefFieldImpl.cpp:parseStrToNumericImpl", "lib/src/parse/ParseOptionalFieldImpl.cpp:parseStrToNumericImpl", "lib/src/parse/ParseIntFieldImpl.cpp:parseStrToNumericImpl", "lib/src/parse/ParseEnumFieldImpl.cpp:parseStrToNumericImpl", "lib/src/parse/ParseSetFieldImpl.cpp:parseStrToBoolImpl"]}
{"id": "C76", "title": "Generated integer fields accept exactly the declared valid values", "statement": "The valid() of the generated class of an int field holds exactly for the values in one of the declared valid ranges; when versions are looked at, exactly for those valid in the version of the other side; without ranges every value is valid; the generated options compile (bounds in order, version storage present when the version is asked for).", "quantifier": "every int field with every list of valid ranges, every supported version and every value", "why_tests_cant": "unbounded lists of ranges, all values, all versions", "anchors": ["app/commsdsl2comms/src/CommsIntField.cpp:commsAddValidRangesOptInternal,commsDefValidFuncBodyImpl"]}
{"id": "C77", "title": "Generated enum fields accept exactly the declared numbers", "statement": "The valid() of the generated class of an enum field holds exactly for the numbers of values that the version of the other side has (versions looked at) or that some supported version has (not looked at), whether it is written as ranges or as a search among the enumerators; the generator gives up exactly when no value is supported.", "quantifier": "every accepted enum, every list of values, every version and every number", "why_tests_cant": "unbounded value lists", "anchors": ["app/commsdsl2comms/src/CommsEnumField.cpp:commsPrepareValidRangesInternal,commsDefValidFuncBodyImpl,commsAddValidRangesOptInternal"]}
{"id": "C78", "title": "Generated names of enum values", "statement": "valueName() of the generated class of an enum gives for every number the name to be shown for it (display name or name of the first value with it, with duplicates the first not deprecated one) and null for numbers that are not declared, whether it is written as a table or as a binary search.", "quantifier": "every accepted enum and every number", "why_tests_cant": "unbounded value lists, all numbers", "anchors": ["app/commsdsl2comms/src/CommsEnumField.cpp:commsIsDirectValueNameMappingInternal,commsCommonValueNamesMapDirectBodyInternal,commsCommonValueNameBinSearchPairsInternal", "lib/src/gen/GenEnumField.cpp:genSortedRevValues,genPrepareImpl"]}
{"id": "C79", "title": "Generated enumerations have all values once", "statement": "The generated enumeration has one enumerator for every value the schema version has, with the declared number, in ascending order, plus enumerators for the least, the greatest and the following number whose names do not clash with any other.", "quantifier": "every accepted enum", "why_tests_cant": "unbounded value lists and names", "anchors": ["lib/src/gen/GenEnumField.cpp:genFirstValueStr,genLastValueStr,genValuesLimitStr,genHasValuesLimit", "app/commsdsl2comms/src/CommsEnumField.cpp:commsEnumValues"]}
{"id": "C80", "title": "Generated set fields accept exactly what the reserved bits allow", "statement": "The valid() of the generated class of a set field holds for a version and a value exactly if every bit is declared and not reserved in that version, or has the value it must have where it is reserved; the version is asked for only if it is stored.", "quantifier": "every accepted set, every list of bits, every version and every value", "why_tests_cant": "unbounded bit lists, all 2^64 values and all versions", "anchors": ["app/commsdsl2comms/src/CommsSetField.cpp:commsDefValidFuncBodyImpl,commsAddReservedBitsOptInternal"]}
{"id": "C81", "title": "Generated set fields start with the declared default of every bit", "statement": "The initial value of the generated class of a set field has in every named bit the default declared for it, in the others the common default, and nothing behind the length of the field; the option for small numbers is used only for numbers that fit it.", "quantifier": "every accepted set and every bit", "why_tests_cant": "unbounded bit lists", "anchors": ["app/commsdsl2comms/src/CommsSetField.cpp:commsAddDefaultValueOptInternal"]}
{"id": "C82", "title": "Generated names of set bits", "statement": "bitName() of the generated class of a set gives for every index the name to be shown for the bit (with duplicates the first not deprecated one) and null for bits without a name.", "quantifier": "every accepted set and every index", "why_tests_cant": "unbounded bit lists, all indices", "anchors": ["app/commsdsl2comms/src/CommsSetField.cpp:commsCommonBitNameFuncCodeInternal"]}
{"id": "C83", "title": "Generated access to set bits by name", "statement": "The macros in the generated class of a set give exactly the declared names, each with the declared index, also when only the sequence of names is printed.", "quantifier": "every accepted set, every name and index", "why_tests_cant": "unbounded bit lists", "anchors": ["app/commsdsl2comms/src/CommsSetField.cpp:commsDefBitsAccessCodeInternal"]}
{"id": "C84", "title": "Generated lists of input messages", "statement": "For every namespace with frames, every side (all, client, server) and every platform or bundle, the generated list of input messages has the types of exactly the messages of the namespace and of the namespaces inside that the side may receive and that are of the platform or in the bundle, each once and in ascending order, with an alias and an include for each; lists for different purposes are in different files, written for the namespaces that have a frame and a message in them or inside.", "quantifier": "every reachable protocol, every namespace, side, platform and bundle", "why_tests_cant": "unbounded numbers of messages, namespaces, platforms and bundles", "anchors": ["app/commsdsl2comms/src/CommsInputMessages.cpp:writeFileInternal,commsWriteAllMessagesInternal,commsWritePlatformInputMessagesInternal,commsWriteExtraInputMessagesInternal"]}
{"id": "C85", "title": "Generated message factories create what the id says", "statement": "The generated factory creates for an id and an index exactly the message at the index among the messages with the id that are in the list of input messages, and nothing otherwise; it tells the number of these messages, and whether ids are unique; the list of messages is included; the factory is always written.", "quantifier": "every reachable protocol, every namespace, side, platform, bundle, id below 2^64 and index", "why_tests_cant": "unbounded numbers of messages; all ids and indices", "anchors": ["app/commsdsl2comms/src/CommsMsgFactory.cpp:commsWriteFileInternal,commsGetMsgAllocCodeInternal,commsGetMsgCountCodeInternal"]}
{"id": "C86", "title": "Generated dispatch casts to the type the factory created", "statement": "The generated dispatch function casts a message with an id and an index to exactly the type the factory creates for them, and hands everything else to the common handling.", "quantifier": "every reachable protocol, every namespace, side, platform, bundle, id below 2^64 and index", "why_tests_cant": "unbounded numbers of messages; all ids and indices", "anchors": ["app/commsdsl2comms/src/CommsDispatch.cpp:commsWriteFileInternal,commsCasesCodeInternal"]}
{"id": "C87", "title": "Generated enumeration of message ids", "statement": "The generated MsgId enumeration has the enumerators of the field for message ids if there is exactly one, and otherwise one for each message with the id of the message as value; the names of enumerators differ, and the type of the enumeration holds every value.", "quantifier": "every reachable protocol and namespace", "why_tests_cant": "unbounded numbers of messages and namespaces", "anchors": ["app/commsdsl2comms/src/CommsMsgId.cpp:commsIdsInternal,commsTypeInternal", "lib/src/gen/GenNamespace.cpp:genFindMessageIdFields", "lib/src/gen/GenSchema.cpp:genGetAllMessageIdFields"]}
{"id": "C88", "title": "Conditions in the generated code", "statement": "The C++ expression generated for a condition (of an optional field, or a validity condition) is well formed and, for all contents of the fields, evaluates to true if and only if the condition as written in the schema holds of the values: checks of bits, existence checks, comparisons of numbers, texts, fields and sizes, and nested and/or lists; fields that are missing are never accessed.", "quantifier": "every condition, every list of fields and every contents of the field objects", "why_tests_cant": "conditions, nesting of fields and contents are unbounded", "anchors": ["app/commsdsl2comms/src/CommsOptionalField.cpp:commsDslCondToString", "app/commsdsl2comms/src/CommsField.cpp:commsValueAccessStr,commsCompOptChecks,commsCompValueCastType,commsCompPrepValueStr"]}
{"id": "C89", "title": "Refresh of optional fields", "statement": "The generated refresh function of an optional field with a condition makes the field exist if and only if the condition holds, tells whether that was a change, and a second refresh changes nothing; without a condition nothing happens.", "quantifier": "every condition, contents of the fields and previous mode", "why_tests_cant": "conditions and contents are unbounded", "anchors": ["app/commsdsl2comms/src/CommsOptionalField.cpp:commsDefBundledRefreshFuncBodyImpl"]}
{"id": "C90", "title": "Validity conditions", "statement": "A bundle, bitfield or message with a validity condition is valid if and only if all its fields are valid and the condition holds; without a condition only the fields count.", "quantifier": "every condition and contents of the fields", "why_tests_cant": "conditions and contents are unbounded", "anchors": ["app/commsdsl2comms/src/CommsBundleField.cpp:commsDefValidFuncBodyImpl", "app/commsdsl2comms/src/CommsBitfieldField.cpp:commsDefValidFuncBodyImpl", "app/commsdsl2comms/src/CommsMessage.cpp:commsDefValidFuncInternal"]}
{"id": "C91", "title": "Fields that some versions lack are wrapped", "statement": "A field that some supported version of the protocol lacks, although it has what the field is in, is generated as an optional field that exists exactly in the versions that have the field, and exists by default if and only if some supported version has it; all other fields are generated without such a wrapper, and there are none in code that does not depend on versions.", "quantifier": "every field, place of the field, version and oldest supported version", "why_tests_cant": "versions range over all unsigned numbers; all combinations of added, deprecated and removed", "anchors": ["app/commsdsl2comms/src/CommsField.cpp:commsOptionalDefCodeInternal,commsIsVersionOptional", "lib/src/gen/comms.cpp:genIsVersionOptionalField"]}
{"id": "C92", "title": "Fields are told of the version if it matters", "statement": "The generated bundles, bitfields and variants are told that the version matters for their members if and only if the code depends on versions and some member, at any depth, is missing in some versions or has valid values that differ between versions; for other fields the generated validity check gives the same result for all versions of the field.", "quantifier": "every accepted field, place and version", "why_tests_cant": "nesting of fields is unbounded; all versions and values", "anchors": ["app/commsdsl2comms/src/CommsField.cpp:commsIsVersionDependent", "app/commsdsl2comms/src/CommsIntField.cpp:commsIsVersionDependentImpl", "app/commsdsl2comms/src/CommsEnumField.cpp:commsIsVersionDependentImpl", "app/commsdsl2comms/src/CommsSetField.cpp:commsIsVersionDependentImpl", "app/commsdsl2comms/src/CommsFloatField.cpp:commsIsVersionDependentImpl", "app/commsdsl2comms/src/CommsBundleField.cpp:commsIsVersionDependentImpl", "app/commsdsl2comms/src/CommsListField.cpp:commsIsVersionDependentImpl"]}
{"id": "C93", "title": "Generated float validity and defaults", "statement": "For every float field the generated validity check accepts a value, of the remote version, if and only if it is in a declared valid range (that the version has, if versions are checked), where bounds are numbers of the type; the version is asked for only if it is stored; without ranges every value is valid; the field is constructed with the declared default value.", "quantifier": "every accepted float field, version and value, including infinities and NaN", "why_tests_cant": "all doubles; unbounded lists of ranges", "anchors": ["app/commsdsl2comms/src/CommsFloatField.cpp:commsValueToString,commsDefValidFuncBodyImpl,commsAddVersionOptInternal,commsAddInvalidOptInternal,commsDefConstructBodyImpl"]}
{"id": "C94", "title": "Generated functions for special values", "statement": "For every special value of an int or float field that some supported version has there are functions that return its number, tell whether a field has it, and set it; functions of different values have different names; the table of names lists all special values once, in ascending order of the numbers, and uses only functions that exist.", "quantifier": "every accepted int or float field, version and value", "why_tests_cant": "unbounded lists of special values; all values", "anchors": ["app/commsdsl2comms/src/CommsIntField.cpp:commsCommonSpecialsCodeInternal,commsDefSpecialsCodeInternal,commsCommonSpecialNamesMapCodeInternal", "app/commsdsl2comms/src/CommsFloatField.cpp:commsCommonMembersSpecialsCodeInternal", "lib/src/gen/GenIntField.cpp:genSpecialsSortedByValue", "lib/src/gen/GenFloatField.cpp:genSpecialsSortedByValue"]}
{"id": "C95", "title": "Classes in one scope have different names", "statement": "Within the scope of the fields of a message, and of the members of every field, the names of the declared classes (of the fields, of the structs with their members, of the fields inside version wrappers, of the tuple of all fields) are pairwise different.", "quantifier": "every accepted message and field", "why_tests_cant": "unbounded numbers of fields and all names", "anchors": ["app/commsdsl2comms/src/CommsField.cpp:commsDefCode,commsDefMembersCodeInternal,commsOptionalDefCodeInternal", "app/commsdsl2comms/src/CommsBundleField.cpp:commsDefMembersCodeImpl", "app/commsdsl2comms/src/CommsMessage.cpp:commsWriteDefInternal", "lib/src/gen/GenListField.cpp:genPrepare"]}
{"id": "C96", "title": "Classes are referred to where they are declared", "statement": "The generated code refers to the class of a field by the namespace of the schema (if asked for), the namespaces and structs of what holds the field (namespace, message, interface, layer of a frame), the structs with the members of the fields around it, and its class name; likewise for the definitions common to all options, and for messages, interfaces, frames and layers.", "quantifier": "every field at any depth, in any holder; every message, interface, frame, layer", "why_tests_cant": "nesting depth and names are unbounded", "anchors": ["lib/src/gen/comms.cpp:genScopeFor,genCommonScopeFor,genScopeForInternal"]}
{"id": "C97", "title": "Namespaces and macro names", "statement": "The namespace of the code of a schema is the one given for it by the last item of the namespace option about it, else its name, so that without the option different schemas have different namespaces; for the schema of the protocol an item without a name takes precedence. The macro name of a list of messages consists of the words of its name, in upper case, with underscores between them; different names give different macros.", "quantifier": "every option text, list of schemas and name", "why_tests_cant": "texts are unbounded", "anchors": ["lib/src/gen/GenGenerator.cpp:genSetNamespaceOverride,genPrepare", "lib/src/gen/GenSchema.cpp:genPrepare", "lib/src/gen/util.cpp:genStrToName,genStrToMacroName,genNameToNs", "app/commsdsl2comms/src/CommsInputMessages.cpp"]}
{"id": "C98", "title": "Flat names of C, SWIG and Emscripten", "statement": "The names of classes and functions in the C, SWIG and Emscripten code are the components of the C++ name with underscores between them; elements with different C++ classes get different names.", "quantifier": "every pair of fields or messages, with any names and nesting", "why_tests_cant": "names and nesting are unbounded", "anchors": ["app/commsdsl2c/src/CGenerator.cpp:cNameFor,cScopeToName", "app/commsdsl2swig/src/SwigGenerator.cpp:swigClassName,swigScopeToName", "app/commsdsl2emscripten/src/EmscriptenGenerator.cpp:emscriptenClassName,emscriptenScopeToName"]}
{"id": "C99", "title": "Copied source files", "statement": "Source files of the user are copied to the same relative path with the same content; if the namespace differs from the name of the schema, then files of the include directory of the schema go to that of the namespace, and the namespace of the schema is renamed in them, and nothing else.", "quantifier": "every path and content", "why_tests_cant": "paths and contents are unbounded", "anchors": ["lib/src/gen/GenGenerator.cpp:genCopyExtraSourceFiles"]}
{"id": "C100", "title": "Wire format of generated numeric fields", "statement": "The options generated for an int, enum or set field make it occupy, on its own or as a member of a bitfield or behind a reference, the bits the schema gives it, in the byte order of the schema or its own; every value between its bounds survives being written and read; serialisation offset, display offset, scaling and default value are those of the schema.", "quantifier": "every accepted int, enum and set field and every value", "why_tests_cant": "all types, lengths, offsets and values", "anchors": ["app/commsdsl2comms/src/CommsIntField.cpp:commsAddLengthOptInternal,commsAddSerOffsetOptInternal,commsAddDisplayOffsetOptInternal,commsAddScalingOptInternal,commsAddDefaultValueOptInternal", "app/commsdsl2comms/src/CommsEnumField.cpp:commsAddLengthOptInternal,commsAddDefaultValueOptInternal", "app/commsdsl2comms/src/CommsSetField.cpp:commsAddLengthOptInternal", "app/commsdsl2comms/src/CommsRefField.cpp:commsAddBitLengthOptInternal", "app/commsdsl2comms/src/CommsField.cpp:commsFieldBaseParams"]}
{"id": "C101", "title": "Generated read functions keep the order of members", "statement": "The generated read function of a bundle or message reads its members in order up to the first error, and prepares a member exactly when all members before it have been read and before it is read itself; the members prepared are the optional ones with a condition and those whose length or count is in another field. A message is read only if its read condition holds; the versions of its fields are updated before, and its validity is checked after reading, if that is asked for; the reported error is that of the member that could not be read.", "quantifier": "every list of members, every way members are prepared and read, every input", "why_tests_cant": "unbounded numbers of members; all inputs", "anchors": ["app/commsdsl2comms/src/CommsBundleField.cpp:commsDefReadFuncBodyImpl", "app/commsdsl2comms/src/CommsMessage.cpp:commsDefReadFuncInternal,commsDefReadConditionsCodeInternal", "app/commsdsl2comms/src/CommsOptionalField.cpp:commsDefBundledReadPrepareFuncBodyImpl", "app/commsdsl2comms/src/CommsListField.cpp:commsDefBundledReadPrepareFuncBodyImpl", "app/commsdsl2comms/src/CommsDataField.cpp:commsDefBundledReadPrepareFuncBodyImpl", "app/commsdsl2comms/src/CommsStringField.cpp:commsDefBundledReadPrepareFuncBodyImpl"]}
{"id": "C102", "title": "The generated read function of a variant agrees with trying its members in order", "statement": "If all members of a variant are bundles that start with a fixed key, the generated read function (one switch over the key) reads, for every input, the member that trying all members one after the other would read, with the same content; its case labels are integer constants with pairwise different values, the keys. If the last member has no key, it is read for all other keys.", "quantifier": "every accepted variant, every input, every way to read fields", "why_tests_cant": "unbounded numbers of members; all inputs and key values", "anchors": ["app/commsdsl2comms/src/CommsVariantField.cpp:commsDefReadFuncBodyImpl,commsOptimizedReadKeyInternal", "app/commsdsl2comms/src/CommsIntField.cpp:commsVariantIsValidPropKey,commsVariantIsPropKeyEquivalent,commsVariantPropKeyValueStr"]}
{"id": "C103", "title": "Sorting does not depend on the algorithm", "statement": "The comparators given to std::sort are strict weak orders on the values they are given (else its behaviour is undefined), and what is sorted comes out the same whatever sorting algorithm is used: valid ranges and special values of int and float fields, versions of set bits, includes, platforms, valid values of string and data fields, messages by id and order (and the check of their ids), and ranges and values of enums.", "quantifier": "every list of ranges, special values, names, texts, messages, enum values; every sorting algorithm", "why_tests_cant": "the standard leaves the algorithm open and tests see only one; lists are unbounded", "anchors": ["lib/src/parse/ParseIntFieldImpl.cpp:parseUpdateValidRanges", "lib/src/parse/ParseFloatFieldImpl.cpp:parseUpdateValidRanges", "lib/src/parse/ParseSchemaImpl.cpp:parseAllMessages", "lib/src/parse/ParseNamespaceImpl.cpp:parseValidateAllMessages", "lib/src/gen/GenGenerator.cpp:genSortMessages", "app/commsdsl2comms/src/CommsFloatField.cpp", "app/commsdsl2comms/src/CommsEnumField.cpp", "app/commsdsl2comms/src/CommsSetField.cpp"]}
{"id": "C104", "title": "Command line", "statement": "Every command line without empty texts is read as a sequence of flags, options followed by their values, arguments and unknown options: an option is used exactly if one of its two names is there, its value is the last one given (whatever it looks like) or its default, arguments are kept in their order and all unknown options are reported. The options of each program have distinct names, and every name a program asks for is one of them.", "quantifier": "all lists of options with distinct names, all command lines; all programs of the repository for the list of options", "why_tests_cant": "any sequence of any texts may be given", "anchors": ["lib/src/gen/GenProgramOptions.cpp:genParse,genAdd,genRemove,genIsOptUsed,genValue,genPrepareOpts", "app/commsdsl2comms/src/CommsProgramOptions.cpp", "app/commsdsl2c/src/CProgramOptions.cpp", "app/commsdsl2swig/src/SwigProgramOptions.cpp", "app/commsdsl2tools_qt/src/ToolsQtProgramOptions.cpp"]}
{"id": "C105", "title": "Values of options", "statement": "The input files are the non-empty lines of the list file behind the prefix, in order, and then the arguments; a version given as a decimal number below 2^32 reaches the generator as that number; the version of the code always has at least three parts; a bundle name@path has that name and path; the parts of a plugin description are those between the colons.", "quantifier": "all texts of options and contents of list files", "why_tests_cant": "any text may be given", "anchors": ["lib/src/gen/GenProgramOptions.cpp:genGetInputFiles,genGetMinRemoteVersion,genGetForcedSchemaVersion", "lib/src/gen/util.cpp:genStrToUnsigned,genPathAddElem", "lib/src/gen/GenGenerator.cpp:genGetCodeVersionTokens", "app/commsdsl2comms/src/CommsGenerator.cpp", "app/commsdsl2tools_qt/src/ToolsQtProgramOptions.cpp:toolsGetPlugins"]}
{"id": "C106", "title": "The layers of a generated frame are written in the order of the schema", "statement": "For every accepted frame the generator finds an order in which the layers wrap each other, such that the fields come on the wire in the order of the schema and a checksum or synchronisation layer behind the payload covers exactly the layers from the one its from property names to the one before it; or it reports an error, if a layer behind the payload is of a kind that is written before what it wraps, or a checksum does not end at the payload. The order does not depend on anything else, and it is always found.", "quantifier": "every accepted frame: any number, kinds and order of layers", "why_tests_cant": "the layers are moved around in a loop that starts again until nothing changes; whether it ends, and where, depends on all layers together", "anchors": ["lib/src/gen/GenFrame.cpp:getCommsOrderOfLayers", "lib/src/gen/GenLayer.cpp:genForceCommsOrderImpl,genAdjustSuffixLayersOrder", "lib/src/gen/GenChecksumLayer.cpp:genForceCommsOrderImpl", "lib/src/gen/GenSyncLayer.cpp:genForceCommsOrderImpl", "lib/src/gen/GenCustomLayer.cpp:genForceCommsOrderImpl", "app/commsdsl2comms/src/CommsChecksumLayer.cpp:commsDefBaseTypeImpl", "app/commsdsl2comms/src/CommsSyncLayer.cpp:commsDefBaseTypeImpl"]}
{"id": "C107", "title": "Definitions of the layers of a frame fit together", "statement": "Every layer of a generated frame has one definition, behind the one of the layer it wraps; it refers to that layer by the name it is defined with, has the template parameters for messages exactly if it or a layer inside of it creates messages, and gives them to the wrapped layer exactly if that has them. The stack stands for the outermost layer, and the frame and the scopes of options give parameters exactly where the definitions have them.", "quantifier": "every stack of layers", "why_tests_cant": "any number of layers; the flag is carried from layer to layer", "anchors": ["app/commsdsl2comms/src/CommsFrame.cpp:commsDefLayersDefInternal,commsDefFrameBaseInternal,commsHasIdLayerInternal,commsDefAccessListInternal", "app/commsdsl2comms/src/CommsLayer.cpp:commsDefType", "lib/src/gen/GenLayer.cpp:genTemplateScopeOfComms", "app/commsdsl2comms/src/CommsIdLayer.cpp:commsDefHasInputMessagesImpl", "app/commsdsl2comms/src/CommsCustomLayer.cpp:commsDefHasInputMessagesImpl"]}
{"id": "C108", "title": "The types of options used by the generated code are declared", "statement": "Every text the generated code of a used global field, of a generated message or of a layer refers to behind its options parameter is the name of a type declared by the generated struct DefaultOptions, for each customization level and with or without the main namespace among the options. Every other struct with options (client, server, data view, bare metal, message factory) extends it: whatever it declares is declared there under the same names and names that as its base. The options of the client and the server turn off exactly the functions the side does not need for messages sent by one side, and the options for data views and bare metal give every customizable sequence field its storage.", "quantifier": "every schema the parser accepts, all namespaces, fields inside fields at any depth, messages and frames; all customization levels and structs", "why_tests_cant": "the structs are nested as deep as the namespaces and fields of the schema, and the texts are assembled in two different places", "anchors": ["app/commsdsl2comms/src/CommsDefaultOptions.cpp:commsOptionsBodyInternal", "app/commsdsl2comms/src/CommsNamespace.cpp:commsOptionsInternal", "app/commsdsl2comms/src/CommsField.cpp:commsCustomizationOptionsInternal,commsIsFieldCustomizable,commsAddFieldDefOptions", "app/commsdsl2comms/src/CommsMessage.cpp:commsCustomizationOptionsInternal", "app/commsdsl2comms/src/CommsLayer.cpp:commsCustomizationOptionsInternal", "app/commsdsl2comms/src/CommsFrame.cpp:commsCustomizationOptionsInternal", "app/commsdsl2comms/src/CommsPayloadLayer.cpp"]}
{"id": "C109", "title": "What an element has from the element it reuses", "statement": "Each attribute of a message, interface or field is what the element says, if the DSL version of the schema knows the attribute, or else what the element named by reuse has, or else the default; the code of the reused element is taken over only if reuseCode says so. A field that reuses another field and gives only attributes common to all fields has the content of that field: type, lengths, bits, values, ranges, default, members without those removed before its version, prefixes, conditions.", "quantifier": "every element the parser accepts, all kinds of fields, all attributes and reused elements, members at any depth", "why_tests_cant": "the copy and each of the dozens of updates after it must leave alone what is not given, for all combinations of attributes", "anchors": ["lib/src/parse/ParseFieldImpl.cpp:parseCheckReuse,parse", "lib/src/parse/ParseMessageImpl.cpp:parseReuseMessage", "lib/src/parse/ParseInterfaceImpl.cpp:parseReuseInterface", "lib/src/parse/ParseIntFieldImpl.cpp:parseImpl", "lib/src/parse/ParseFloatFieldImpl.cpp:parseUpdateEndian", "lib/src/parse/ParseBundleFieldImpl.cpp:parseReuseImpl"]}
{"id": "C110", "title": "Asserted lengths of generated messages", "statement": "Every generated message class without variants contains compile time assertions that the minimal number of serialised bytes computed from its field classes equals a number printed by the generator, and likewise for the maximal number unless the length is unlimited. The printed minimum is never above the size of a value of the class and some value has that size; the same holds for the maximum; otherwise the generated code does not compile.", "quantifier": "every accepted message, every version setting of the generator, every value of the generated class", "why_tests_cant": "The number depends on the whole tree of fields, on versions and on saturating arithmetic; tests compile a few protocols.", "anchors": ["app/commsdsl2comms/src/CommsMessage.cpp: commsDefLengthCheckInternal", "app/commsdsl2comms/src/CommsField.cpp: commsMinLength, commsMaxLength, commsHasCustomLength", "app/commsdsl2comms/src/CommsBundleField.cpp: commsMinLengthImpl, commsMaxLengthImpl", "app/commsdsl2comms/src/comms.cpp: genAddLength, genMaxPossibleLength"]}
{"id": "C111", "title": "LaTeX: texts are escaped", "statement": "The LaTeX source written for a name, display name or description of a schema element is typeset as exactly that text: characters LaTeX gives a meaning to are escaped, all others kept, and no text becomes a command or another column of a table.", "quantifier": "every text, whatever characters it has", "why_tests_cant": "Any character combination can occur in a text and escapes interact (the escape of one character contains others); tests use a few names.", "anchors": ["app/commsdsl2latex/src/LatexGenerator.cpp: latexEscString, latexEscDisplayName", "lib/src/gen/util.cpp: genDisplayName", "app/commsdsl2latex/src/LatexEnumField.cpp: latexInfoDetailsImpl", "app/commsdsl2latex/src/LatexSetField.cpp: latexInfoDetailsImpl"]}
{"id": "C112", "title": "LaTeX: labels are unique", "statement": "Two different elements of a protocol, and two different parts of their descriptions (details, fields, members, values, special values, bits), never get the same label, so every reference in the document leads to the place it is meant for.", "quantifier": "every pair of elements of a protocol, however deep, with any names", "why_tests_cant": "Requires injectivity of a text built from paths of any depth.", "anchors": ["app/commsdsl2latex/src/LatexGenerator.cpp: latexLabelId, latexLabelPrefix", "app/commsdsl2latex/src/LatexField.cpp: latexInfoDetails", "app/commsdsl2latex/src/LatexMessage.cpp"]}
{"id": "C113", "title": "LaTeX: table of bits", "statement": "The table of bits of a set has one row for every named bit in order of the indices; every other bit of the field is in exactly one row of reserved bits; the mask of a row has exactly its bits; the table ends with the field; it is written without undefined behaviour.", "quantifier": "every accepted set, member of a bitfield or not", "why_tests_cant": "Any arrangement of named bits, lengths and gaps; tests use a few sets.", "anchors": ["app/commsdsl2latex/src/LatexSetField.cpp: latexInfoDetailsImpl"]}
{"id": "C114", "title": "LaTeX: numbers and tables of values", "statement": "Numbers in the document read, in decimal and in hexadecimal, as the value of the type; the valid ranges listed are those that exist in the generated version; the tables of enum values and special values have one row for each value that exists in the generated version, in order of the values.", "quantifier": "every type, value, list of ranges, accepted enum or int, and version setting", "why_tests_cant": "All 64 bit values of all types and all value tables; unsigned values are kept as signed numbers.", "anchors": ["app/commsdsl2latex/src/LatexGenerator.cpp: latexIntegralToStr", "app/commsdsl2latex/src/LatexIntField.cpp: latexInfoDetailsImpl, latexExtraInfoImpl", "app/commsdsl2latex/src/LatexEnumField.cpp: latexInfoDetailsImpl"]}
{"id": "C115", "title": "LaTeX: lengths", "statement": "The length the document gives for a field or message (a number, a range, or a number with a plus) allows the number of bytes of every value of it.", "quantifier": "every accepted field and message, every version and every value", "why_tests_cant": "All trees of fields and all their values.", "anchors": ["app/commsdsl2latex/src/LatexField.cpp: latexInfoDetails, latexMembersDetails", "app/commsdsl2latex/src/LatexMessage.cpp: latexInfoDetails", "app/commsdsl2latex/src/LatexFrame.cpp"]}
{"id": "C116", "title": "Detached prefixes are handed over before a sequence is read", "statement": "Before the generated code reads a string, data or list whose length, count or element length is in another field, it hands exactly the number that field has to the sequence, as std::size_t, if both fields exist, and nothing otherwise; it never hands over anything for a sequence without such a prefix, and the function that does it is called exactly if there is something to do.", "quantifier": "every list of fields, path to the prefix, supported versions and values of the fields", "why_tests_cant": "The expression follows a path of any depth through bundles, references, optional and version dependent fields, and must check the existence of all of them.", "anchors": ["app/commsdsl2comms/src/CommsListField.cpp: commsDefBundledReadPrepareFuncBodyImpl", "app/commsdsl2comms/src/CommsDataField.cpp: commsDefBundledReadPrepareFuncBodyImpl", "app/commsdsl2comms/src/CommsStringField.cpp: commsDefBundledReadPrepareFuncBodyImpl", "app/commsdsl2comms/src/CommsField.cpp: commsFieldAccessStr, commsValueAccessStr, commsCompOptChecks"]}
{"id": "C117", "title": "Detached prefixes are brought up to date", "statement": "After the generated refresh function of a sequence the detached prefix has the number of elements, of bytes, or the length of an element; the value is one of the type of the prefix; only elements at the end that such a number does not allow are dropped; the function tells whether something has changed and changes nothing when called again.", "quantifier": "every type of prefix, every value and every sequence", "why_tests_cant": "All sequences and all values of the prefix; the interesting ones are longer than the prefix allows.", "anchors": ["app/commsdsl2comms/src/CommsListField.cpp: commsDefBundledRefreshFuncBodyImpl", "app/commsdsl2comms/src/CommsDataField.cpp: commsDefBundledRefreshFuncBodyImpl", "app/commsdsl2comms/src/CommsStringField.cpp: commsDefBundledRefreshFuncBodyImpl"]}
{"id": "C118", "title": "Default values and names in the generated code", "statement": "A newly constructed string or data field of the generated code has exactly the characters or bytes the schema gives as default value, and name() returns the display name of the field or message.", "quantifier": "every accepted string and data field, every default value and every name", "why_tests_cant": "Every text and every sequence of bytes; characters with a meaning in C++ literals are rare in tests.", "anchors": ["app/commsdsl2comms/src/CommsStringField.cpp: commsDefConstructCodeImpl", "app/commsdsl2comms/src/CommsDataField.cpp: commsDefConstructCodeImpl, commsBytesToString", "app/commsdsl2comms/src/CommsField.cpp: commsCommonNameFuncCode", "app/commsdsl2comms/src/CommsMessage.cpp: commsCommonNameFuncInternal"]}
{"id": "C119", "title": "Validity of strings and data in the generated code", "statement": "valid() of a generated string or data field accepts a value if and only if the base class does and the value is one of the valid values of the schema that some supported version has (every value, if the schema lists none).", "quantifier": "every accepted string and data field, version setting and value", "why_tests_cant": "Every list of values, version windows and every string or sequence of bytes; the search needs sorted values.", "anchors": ["app/commsdsl2comms/src/CommsStringField.cpp: commsDefValidFuncBodyImpl", "app/commsdsl2comms/src/CommsDataField.cpp: commsDefValidFuncBodyImpl"]}
{"id": "C120", "title": "The other generators name the classes of the main one", "statement": "The C, SWIG and emscripten interfaces name the class of every field (and of the field inside of its version wrapper) and layer by the namespaces and structs it is declared in, with the class of the options given to exactly the one of them that is a class template; global fields are never in a version wrapper.", "quantifier": "every field at any depth in a namespace, message, interface or layer of a frame, every layer, and all names", "why_tests_cant": "Nesting depth and names are unbounded; the name is put together by cutting a text at the length of another one.", "anchors": ["lib/src/gen/GenField.cpp: genTemplateScopeOfComms", "lib/src/gen/GenLayer.cpp: genTemplateScopeOfComms", "app/commsdsl2c/src/CField.cpp: cCommsType", "app/commsdsl2swig/src/SwigField.cpp: swigClassDeclInternal", "app/commsdsl2emscripten/src/EmscriptenField.cpp"]}
{"id": "C121", "title": "Fields in use are found", "statement": "A global field takes part in the generated code exactly if the schema asks for it, or something that takes part in it (a message or interface that is wanted, a frame, a field in use) refers to it at any depth; every header included by generated code for such a reference is generated; elements that are not in use are prepared no further.", "quantifier": "every finite set of namespaces with fields, interfaces, messages and frames of any depth and number, referring to each other in any acyclic way", "why_tests_cant": "The closure over references goes over namespaces and schemas of any size, and fields are visited on demand, out of the order they are listed in.", "anchors": ["lib/src/gen/GenField.cpp: genSetReferenced, genPrepare, genSetFieldReferencedIfExists", "lib/src/gen/GenListField.cpp", "lib/src/gen/GenMessage.cpp: genPrepare", "lib/src/gen/GenInterface.cpp: genPrepare", "lib/src/gen/GenLayer.cpp: genPrepare", "lib/src/gen/GenSyncLayer.cpp", "lib/src/gen/GenNamespace.cpp: genPrepareInternal", "app/commsdsl2comms/src/CommsSyncLayer.cpp"]}
{"id": "C122", "title": "Order of classes for SWIG", "statement": "In the generated code for SWIG every class is defined once and behind every class it needs (members, element of a list, target of a reference, layers and their fields, the interface of a message) at any depth, also where a field is used before its place in the schema; in the definitions every header and every renaming of operators comes once and behind those it needs; every element in use is there.", "quantifier": "every finite set of namespaces, interfaces, messages, frames and fields of any depth, referring to each other in any acyclic way, both for the code and for the definitions", "why_tests_cant": "Fields are emitted on demand by a recursion over references with flags; the order is a property of all lists it can make.", "anchors": ["app/commsdsl2swig/src/SwigField.cpp: swigAddCode, swigAddDef", "app/commsdsl2swig/src/SwigNamespace.cpp: swigAddCode, swigAddDef", "app/commsdsl2swig/src/SwigInterface.cpp", "app/commsdsl2swig/src/SwigMessage.cpp", "app/commsdsl2swig/src/SwigFrame.cpp", "app/commsdsl2swig/src/SwigLayer.cpp", "app/commsdsl2swig/src/Swig.cpp"]}
{"id": "C123", "title": "Read conditions on interface fields", "statement": "A message with a condition on the fields of its interface is read if and only if the condition holds for the values of these fields; for every such values the generated check compiles to exactly one result.", "quantifier": "every condition (any nesting of lists) on fields of the interfaces at any path, every field of the interfaces, every supported version, all values of the fields", "why_tests_cant": "The generated check is C++ text made from the condition; tests check a few conditions with a few values.", "anchors": ["app/commsdsl2comms/src/CommsMessage.cpp: commsDefReadConditionsCodeInternal", "app/commsdsl2comms/src/CommsOptionalField.cpp: commsDslCondToString, commsFindInterfaceFieldInternal", "app/commsdsl2comms/src/CommsField.cpp: commsVerifyInnerRef"]}
{"id": "C124", "title": "Constructing a message for its interface", "statement": "A message constructed with a condition on the fields of its interface has fields that meet all that the condition asks for and other fields and bits unchanged; if it also is the condition for reading, the message passes its own check.", "quantifier": "every condition that asks for bits of sets and numbers of integers, enums and sets at any path, any order of what is asked for, all values of the fields before", "why_tests_cant": "The statements are generated text; whether later ones undo what earlier ones do depends on all of the condition and of the fields.", "anchors": ["app/commsdsl2comms/src/CommsMessage.cpp: commsPrepareConstructCodeInternal, commsUpdateConstructCodeInternal", "app/commsdsl2comms/src/CommsField.cpp: commsFieldAccessStr", "lib/src/gen/GenField.cpp: genProcessInnerRef"]}
{"id": "C125", "title": "Interface used by a namespace", "statement": "The generated wrappers of the messages and frames of a namespace use the interface declared nearest to it, in the namespace itself or in the innermost one around it, the first by name if there are several; a schema without interfaces gets a default one; with an interface requested on the command line exactly the namespaces inside the namespace of that interface use it and others are left out.", "quantifier": "every accepted sequence of schema files, any nesting of namespaces and distribution of interfaces over them, any requested interface", "why_tests_cant": "The interface depends on which namespaces at any depth have interfaces and on what was marked as referenced before.", "anchors": ["lib/src/gen/GenNamespace.cpp: genFindSuitableInterface, genIsSuitableInterface", "lib/src/gen/GenGenerator.cpp: genReferenceAllInterfaces, genPrepareDefaultInterface", "app/commsdsl2c/src/CNamespace.cpp: cInterface"]}
{"id": "C126", "title": "Handlers of the C interface", "statement": "The handler generated for a namespace with an interface has exactly one function for each requested message of the namespace, in ascending order of ids, the type it takes is the one that the handle of the message stands for, and the source files compiled are those that are written.", "quantifier": "every accepted sequence of schema files, any nesting of namespaces, any set of requested messages, any requested interface", "why_tests_cant": "Which handlers are written, what they take and which files are listed is decided by three separate walks over the namespaces that have to agree for every schema.", "anchors": ["app/commsdsl2c/src/CMsgHandler.cpp: cMessagesListInternal, cCommsHeaderFuncsInternal", "app/commsdsl2c/src/CMessage.cpp: cCommsHeaderCodeInternal", "app/commsdsl2c/src/CNamespace.cpp: genWriteImpl, cAddSourceFiles", "app/commsdsl2c/src/CCmake.cpp"]}
{"id": "C127", "title": "Exit code of a run", "statement": "A run of a generator ends with 0 exactly if its options end it or every step succeeds, with warnings as errors without any warning; nothing is written unless everything before has succeeded, -2 says that writing has failed and -1 everything else, no step is done after one that fails, and a run that fails ends with an error message.", "quantifier": "all options, any number of files and schemas, any reports and results of the steps", "why_tests_cant": "Which step fails or warns first can be any of arbitrarily many; what must not happen afterwards can not be shown by examples.", "anchors": ["lib/src/gen/GenGenerator.cpp: genExec, genPrepare, genWrite, genProcessOptions", "lib/src/gen/GenLogger.cpp: genLog, genHadWarning"]}
{"id": "C128", "title": "Declared functions of the C interface are defined", "statement": "For every field the C header declares exactly the functions the C source file defines, with the same result and parameter types, and every type a declared function uses is defined in the header before it, or comes from C or an included header.", "quantifier": "all fields, nested to any depth, with any versions, values, bits and special values", "why_tests_cant": "Which templates and suffixes are used depends on the kind of the field, its versions and everything inside it; a test compiles a few combinations.", "anchors": ["app/commsdsl2c/src/CField.cpp: cHeaderCode, cSourceCode, cHeaderCommonFuncsInternal, cSourceCommonFuncsInternal, cHeaderOptionalCodeInternal, cSourceOptionalCodeInternal", "app/commsdsl2c/src/CIntField.cpp: cHeaderSpecialsCodeInternal", "app/commsdsl2c/src/CBundleField.cpp", "app/commsdsl2c/src/CVariantField.cpp", "app/commsdsl2c/src/COptionalField.cpp", "app/commsdsl2c/src/CListField.cpp"]}
{"id": "C129", "title": "Element functions of lists in the C interface", "statement": "The function for access leads to the element with the given index or gives a null pointer; inserting puts a new element in front of the element with that index and leads to it, appending puts it at the end, removing takes out the element with the index and leaves the others in order; without room nothing changes.", "quantifier": "all lists of elements of any type, all indices and capacities", "why_tests_cant": "The effect depends on the contents, the index and the room left; tests of the generated code try few of them.", "anchors": ["app/commsdsl2c/src/CListField.cpp: cSourceCodeImpl"]}
{"id": "C130", "title": "C interface of messages, interfaces and frames", "statement": "The C header of a message, an interface or a frame declares exactly the functions its source file defines, with the same signatures, and every type a declared function uses is known there. The values a frame reports are exactly the members of its structure, each taken from the field of the layer it is named after.", "quantifier": "all messages, interfaces and frames with any fields and layers", "why_tests_cant": "Agreement depends on all fields and layers inside; a test compiles and links a few protocols, and functions nobody calls are never missed.", "anchors": ["app/commsdsl2c/src/CMessage.cpp: cHeaderCodeInternal, cSourceCodeInternal", "app/commsdsl2c/src/CInterface.cpp: cHeaderCodeInternal, cSourceCodeInternal", "app/commsdsl2c/src/CFrame.cpp: cHeaderFrameCodeInternal, cHeaderFrameFieldsCodeInternal, cSourceFrameCodeInternal", "app/commsdsl2c/src/CLayer.cpp: cFrameValueDef, cFrameValueAssign", "app/commsdsl2c/src/CPayloadLayer.cpp"]}
{"id": "C131", "title": "C interface enumerators are those of the C++ code", "statement": "The enumeration in the C header of an enum field (and the one of message ids) has the same enumerators, in the same order and with the same numbers, as the C++ one, each name preceded by the name of the field or of the interface, and behind them one with the greatest number of the type, so that every number of a field of up to four bytes can be stored; no name occurs twice.", "quantifier": "all accepted enums, versions and prefixes", "why_tests_cant": "Depends on all names and numbers of the enum, and on its type and length; a test reads the header of a few enums.", "anchors": ["app/commsdsl2c/src/CEnumField.cpp: cEnumValues, cMaxLimitValStrInternal", "app/commsdsl2c/src/CMsgId.cpp: cIdsInternal"]}
{"id": "C132", "title": "Message ids in the C interface", "statement": "The C enumeration of message ids has an enumerator with the id of every message the C++ one has, in the same order and with the same number, its name preceded by the C name of the namespace; if one field holds the ids, it has the values of that field.", "quantifier": "all accepted schemas, all their namespaces, all versions", "why_tests_cant": "Depends on all messages and id fields of the schema; a test sees the ids of a few protocols.", "anchors": ["app/commsdsl2c/src/CMsgId.cpp: cIdsInternal, cName", "app/commsdsl2c/src/CNamespace.cpp: cPrefixName"]}
