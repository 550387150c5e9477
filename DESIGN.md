# A Lean 4 model of commsdsl

`/repo` holds the commsdsl library (C++): `lib/src/parse` reads and checks CommsDSL schemas,
`lib/src/gen` is the generic part of the code generators. Nothing is built or run here; the model is a
function-by-function reading of the sources, each definition citing file and lines.

## Layout

* `lean/Verif/Model/*.lean`  – the model: total, computable functions mirroring the C++ functions.
* `lean/Verif/Spec/*.lean`   – small independent specifications used in statements.
* `lean/Verif/Lemmas/*.lean` – helper lemmas.
* `lean/Verif/Props/*.lean`  – one file per group of properties: the theorems named in `MANIFEST.json`, each followed by
  non-vacuity examples.
* `seeded/LOG.jsonl`         – wrong programs the theorems were tested against.

## Modelling conventions

* `std::string` is `List Char`; characters outside ASCII are treated as "not alphanumeric" (what `isalpha` of the "C" locale does).
* Values of machine types are `Nat`/`Int`, with wrap-around, casts and overflow made explicit by functions
  (`castI64`, `castU64`, `castU32`, ...) wherever the C++ can reach it.
* Undefined behaviour (signed overflow, shift out of range, division by zero, null dereference, out-of-bounds access) is a
  distinct outcome (`Res.ub`), never assumed away.
* "returns false and logs an error" is `Res.err`/`none`/`false`; log text is not modelled.
* `assert` is compiled out (release build); what happens after a failed assertion is modelled, as undefined behaviour where it is.
* XML nodes are modelled after libxml2 parsing: the model starts from attribute values / child lists. An attribute that is present
  and empty has the empty string as its value.
* `std::map` keyed by strings is an association list, sorted where the code iterates over it; `std::sort` is a stable insertion sort
  (`sortBy`). Theorems are stated so that they hold for what `std::sort` guarantees (sorted permutation); where the comparator has
  ties the tied elements are equal in everything the theorem speaks about.
* `std::lower_bound` is the binary search of the usual libraries (`lowerBound`), or "first element not less" where the range is
  proved to be sorted.
* Recursion over reuse/reference chains and nested elements uses fuel; running out is `Res.err`, theorems quantify over the fuel.

## Trusted base

* Lean 4.33.0 kernel; theorems use at most the axioms `propext`, `Classical.choice`, `Quot.sound` (checked by `vcheck`).
* The faithfulness of the model to the C++ text, established only by reading. The file/line citations make it checkable.
* Assumed behaviour of the C++ standard library functions used (`std::stoul`, `std::sort`, `std::map`, `find`, ...), of libxml2,
  and of a 64-bit little-endian-agnostic LP64 platform (`unsigned` 32 bit, `std::size_t`, `std::intmax_t` 64 bit).

## What is modelled

| module | code |
|--------|------|
| `Model/Basic`, `Text`, `Units`, `Xml`, `Dsl`, `Versions`, `Sort`, `MultiMap` | `parse_common.cpp`, `ParseXmlWrap.cpp`, version checks, DSL gating of `ParseProtocolImpl.cpp` |
| `Model/IntField`, `FloatField`, `EnumField`, `SetField`, `Length`, `Cond` | `ParseIntFieldImpl.cpp`, `ParseFloatFieldImpl.cpp`, `ParseEnumFieldImpl.cpp`, `ParseSetFieldImpl.cpp`, length arithmetic, `ParseOptCondImpl.cpp` |
| `Model/Field`, `FieldRef`, `FieldSeq`, `FieldComposite`, `FieldParse`, `Value` | `ParseFieldImpl.cpp`, all field kinds (reference, string, data, list, bitfield, bundle, optional, variant), reuse, clone, value references |
| `Model/Message`, `Frame`, `Protocol` | `ParseMessageImpl.cpp`, `ParseInterfaceImpl.cpp`, `ParseAliasImpl.cpp`, all layers, `ParseFrameImpl.cpp`, `ParseNamespaceImpl.cpp`, `ParseSchemaImpl.cpp`, `ParseProtocolImpl.cpp` |
| `Model/GenText`, `GenScope`, `GenSchema` | `lib/src/gen/util.cpp`, `comms.cpp` (scopes, files, includes, integer types), the lookup, selection and version logic of `GenGenerator.cpp`, `GenSchema.cpp`, `GenNamespace.cpp` |
| `Model/GenValid` | of `app/commsdsl2comms/src/CommsIntField.cpp` and `CommsEnumField.cpp` the options about valid values and the body of `valid()`; of `CommsEnumField.cpp` and `lib/src/gen/GenEnumField.cpp` the enumerators and the tables of names |
| `Model/GenSet` | of `app/commsdsl2comms/src/CommsSetField.cpp` the body of `valid()`, the options about reserved bits and the default, the table of names, the macros for access |
| `Model/GenMsgs` | of `app/commsdsl2comms/src`: `CommsInputMessages.cpp`, `CommsMsgFactory.cpp`, `CommsDispatch.cpp`, `CommsMsgId.cpp`: the lists of messages, the `switch` statements and enumerators as data, file and type names |
| `Model/GenCond` | of `app/commsdsl2comms/src`: the conversion of conditions to C++ (`CommsOptionalField.cpp`) with the functions of all field kinds for value and size access, existence checks, casts and values; refresh functions, validity conditions. The text is a list of tokens |
| `Model/GenFloat` | of `app/commsdsl2comms/src`: validity checks, options, default values and number texts of float fields; functions and name tables of special values of int and float fields |
| `Model/GenVersion` | of `app/commsdsl2comms/src`: the wrapper of fields that some versions lack, the hints about version dependence, the names of classes declared for fields; the name check of lists (`lib/src/gen/GenListField.cpp`) |
| `Model/GenNames` | the namespace option and copied files of `GenGenerator.cpp`, flat names of `app/commsdsl2c`, `commsdsl2swig`, `commsdsl2emscripten` |
| `Model/GenWire` | of `app/commsdsl2comms/src`: the options about length, offsets, scaling, default and byte order of int, enum, set and reference fields |
| `Model/GenRead` | of `app/commsdsl2comms/src`: the statements of the read functions of bundles and messages |
| `Model/GenVariant` | of `app/commsdsl2comms/src`: when and how a variant is read by a switch over the key of its bundles (`CommsVariantField`, `CommsIntField`); not the version set in the cases, nor overrides by the user |
| `Model/GenOptions` | the command line: options of all programs, `GenProgramOptions`, numbers, input files, code version, message bundles, plugins; not the help text, nor file access |
| `Model/GenFrame` | the order of the layers of a generated frame (GenFrame.cpp `getCommsOrderOfLayers`, the `genForceCommsOrderImpl` functions, `genAdjustSuffixLayersOrder`), with vector iterators as positions; names and template parameters of the definitions of layers (CommsFrame.cpp, CommsLayer.cpp) |
| `Model/GenCustom` | the declarations in the structs with options and their bases (CommsDefaultOptions.cpp, CommsNamespace.cpp, CommsField.cpp, CommsMessage.cpp, CommsFrame.cpp, CommsLayer.cpp and the overrides of fields and layers), and the texts behind `TOpt::` in the generated code; which elements are referenced and the type of the factory are parameters; comments in the structs are left out |
| `Model/GenLength` | `comms.cpp` (`genAddLength`), `CommsField.cpp` and the kinds of fields (`commsMinLengthImpl`, `commsMaxLengthImpl`, `commsHasCustomLength`), `CommsMessage.cpp` (`commsDefLengthCheckInternal`) |
| `Model/Latex` | `commsdsl2latex`: `LatexGenerator.cpp` (`latexEscString`, `latexEscDisplayName`, `latexLabelId`, `latexIntegralToStr`), `LatexSetField.cpp` (table of bits), `LatexEnumField.cpp`, `LatexIntField.cpp` (tables of values, ranges), the length texts of `LatexField.cpp`, `LatexMessage.cpp`, `LatexFrame.cpp`; not the section titles, fixed texts and files |
| `Model/GenDetached` | `commsDefBundledReadPrepareFuncBodyImpl`, `commsDefBundledRefreshFuncBodyImpl` of `CommsListField.cpp`, `CommsDataField.cpp`, `CommsStringField.cpp`: detached prefixes; the generated statements are modelled by what they do with the prefix and the sequence |
| `Model/GenSeq` | `commsDefConstructCodeImpl` and `commsDefValidFuncBodyImpl` of `CommsStringField.cpp` and `CommsDataField.cpp`, `commsBytesToString`, the literals of `name()`; the fixed code around the literals (binary search, construction) is described in `Spec/GenSeq` |
| `Model/GenInst` | `genTemplateScopeOfComms` of `GenField.cpp` and `GenLayer.cpp`, `cCommsType` of `app/commsdsl2c/src/CField.cpp`: names of classes with the options |
| `Model/GenUse` | `genSetReferenced`, `genPrepare` of fields, messages, interfaces, layers, frames, namespaces in `lib/src/gen`: which elements take part in the generated code |
| `Model/GenSwig` | `swigAddCode`, `swigAddDef` of fields, interfaces, messages, layers, frames, namespaces in `app/commsdsl2swig/src`: the order of the classes and headers |
| `Model/GenIface` | conditions on interface fields in `CommsMessage.cpp` (read, construct) and `CommsOptionalField.cpp`; finding the field (`commsVerifyInnerRef`, `genProcessInnerRef`) |
| `Model/GenSuitable` | the interface of a namespace: `genReferenceAllInterfaces`, `genPrepareDefaultInterface`, `genFindSuitableInterface`, `genIsSuitableInterface` |
| `Model/GenHandler` | `CMsgHandler.cpp` (messages and types of the functions), `CNamespace.cpp` (which handlers are written and listed), the type of a message handle; names are left out |
| `Model/GenRun` | the run of a generator: order of the steps, warnings, exit code (`GenGenerator.cpp`, `GenLogger.cpp`); what the steps do is abstract |
| `Model/GenC` | functions declared and defined in the C interface for fields, the functions for list elements (`app/commsdsl2c/src/C*Field.cpp`); bodies of the other functions and conversions are not modelled |
| `Model/GenCMsg` | functions declared and defined in the C interface for messages, interfaces, frames and layers, values of frames (`CMessage.cpp`, `CInterface.cpp`, `CFrame.cpp`, `CLayer.cpp`); bodies are not modelled |
| `Model/GenCEnum` | enumerators of the C interface (`cEnumValues`, `cMaxLimitValStrInternal`) |
| `Model/GenCIds` | enumeration of message ids in the C interface (`CMsgId.cpp`) |
| `Model/GenCNames` | C names of namespaces (`CNamespace.cpp: cPrefixName`) |

The COMMS library, for which code is generated, is not in the repository: what its options mean is stated in `Spec/GenValid` from its
documentation and is part of the trusted base of C76 to C95 and C100 and later (for these in `Spec/Wire`, `Spec/GenRead`, `Spec/GenVariant`). `std::multimap::find` is assumed to return the first element with the key.

Not modelled: reading a floating point number from text (`std::stod` is a parameter of the model, so that theorems hold whatever it does; the
values themselves, their order, ranges and specials are modelled), extra attributes and extra children, log messages, reading of files and XML,
most of the applications in `app/` (what code they write into the files), except the parts of `app/commsdsl2comms` in the table.

## Plan per property

| id | what is modelled | how it is proved |
|----|------------------|------------------|
| C01 | `stoul/stoll/stoull` with base 0 and the `unsigned` cast | positional-value spec; negation with witness `4294967297`; `_partial` for text in range |
| C02, C03 | the character scans | iff with a regular spec (`splitOn '.'`); C03 digit-first components: negation + exact characterisation |
| C04 | trim, normalise | characterisation by decomposition, idempotence, induction |
| C05 | `parseRange` with index arithmetic | iff with the form |
| C06, C07 | tables | iff; whole finite table by `decide`, lifted |
| C08 | `parseStrToStringValue` | case analysis |
| C09 | `parseCalcMin/MaxValue` with shifts on 64-bit | arithmetic lemmas per type family, all lengths |
| C10, C13, C14, C15 | update functions of int field | case analysis / induction over children |
| C11, C12 | sort, merge loop, erase, sort | permutation + merge invariant; negation witness for 64-bit unsigned; `_partial` for ranges inside the signed span |
| C16–C19, C61 | loops over children with accumulators | loop invariants |
| C20, C21 | 64-bit saturating arithmetic | `omega`/nonlinear lemmas; division by zero as `ub`, witness |
| C22–C24 | inductive field trees, length functions, serialisations as a relation | structural induction on mutual trees |
| C25 | cast to int | witness + partial |
| C26, C27 | version checks | arithmetic; induction over trees |
| C28 | feature table | table + order |
| C29, C46 | filter/map on member lists | list induction |
| C30 | namespace trees with the actual one-level check | witness for nested namespaces, partial for flat ones |
| C31 | sort | sorted permutation |
| C32–C34 | lookup with dotted names in the recorded elements; states while documents are processed | invariants of all reachable states; a rank of accepted fields for C34 |
| C35 | protocol state machine | induction over API histories |
| C36, C37 | expression splitter; condition trees | list lemmas; structural induction |
| C38–C41, C67 | layer lists with indices | list index lemmas; witnesses for C40 and C41 |
| C42, C43 | alias checks | list lemmas; witness for dotted alias |
| C44 | variant reuse | witness + partial |
| C45 | clone functions | structural induction; witness for dropped data |
| C47, C48 | loops | invariants |
| C49–C54 | text utilities with positions | induction on the remaining text |
| C55, C56 | element paths | exact characterisation of equal paths, witnesses; induction on paths |
| C57, C58, C69 | decision logic | arithmetic/case analysis |
| C59 | sort, unique, decoration | a strictly sorted list is determined by its members |
| C66, C70 | sibling references (paths, value names, `#`, `?`), the checks of conditions and detached prefixes | a separate relation of where a path leads; induction on paths, trees and member lists |
| C71 | the check by kind, through references | preserved by clone and lift; holds of all objects |
| C63 | hex reader | induction on the text against a separate grammar |
| C64, C65 | string, data, list parsing | invariant of all objects; declared values as a separate set |
| C73 | recursion with a bound | the bound does not matter once it reaches the depth of the document |
| C74 | `double` as `nan`, infinities and multiples of 2^-1074; specials loop, default value | loop invariants; a separate relation for what a text means; uniqueness with inherited values refuted |
| C75 | the comparators with `nan` last, the merge loop, all range properties | merge invariant over an order with `nan`; universal for the valid set; disjoint for finite bounds, witness for infinite ones |
| C62 | collection of properties from attributes and children, and every function of the field parser | congruence: the parser reads properties only through their first value and their number, and the node only through a few names; then an entry may move |
| C72 | the questions fields pass on to their members, the walk through namespaces and schemas | induction on the field and on the names; unique names of members, specials, values and bits; invariants of the recorded elements |
| C76, C77 | the options and the function bodies as data, the merge loops | a separate meaning of options and conditions; loop invariants over sorted ranges; witnesses for the misread and merged cases |
| C78, C79 | tables and pairs of names, list of enumerators, the search for free names | binary search over sorted pairs; invariants of the accepted enum |
| C80 | conditions and options of sets as data, the gap computation of bits with several names | a separate meaning over versions and bit vectors; invariants of the accumulators; witnesses for overlapping names, bits that are gone, shifts |
| C81, C82, C83 | folds over the bits, the table of names, the macros | bitwise reasoning per index; stability of the reverse table; `x & (x+1) = 0` means a run of ones |
| C84 | selection loops over the generator's namespace tree, file names | the tree built from a reachable protocol is sorted; selection against a separate predicate over the parsed schema |
| C85, C86 | `switch` statements as lists of cases | a separate meaning of running the cases; grouping by id keeps the order |
| C87 | the choice between field and messages, enumerators, type | sorted listing; injectivity of names joined by underscores when no name contains one |
| C88 to C90 | `commsDslCondToString` with all it calls, as tokens | a C++ grammar and its evaluation on field objects as inductive relations (unambiguous and deterministic, proved); objects hold values; a condition says something of values; induction over paths, fields and conditions |
| C91, C92 | the wrapper as data; `commsIsVersionDependent` of all kinds | versions an option means, from the documentation; "reacts to versions" as an inductive relation over the parts of a field; induction over fields |
| C93, C94 | float literals, comparisons, accessors as data | numbers of a float type and nearest numbers specified over the integers (multiples of 2^-1074); arithmetic on nearest decimals |
| C95 | the lists of declared names | `Nodup` from unique member names (C48) and suffix lemmas |
| C96 | `scopeFor`, `commonScopeFor` on chains of elements | the text is the list of components joined by `::`: induction on the fields around |
| C97 | option parsing, `strToName`, `strToMacroName` | induction on the items with the last one first; induction on the words of a name |
| C98 | `scopeToName` of the scopes of C96 | replacement of separators is joining with another one; joining is injective if the separator does not occur in the components |
| C99 | path and content of copied files | substitution specified as in C49 |
| C100 | the option texts, their meaning as a wire format (`Spec/Wire`) | every value is shown to survive conversion to the wire type and back, from the bounds of C09/C13/C16/C18; texts by C51 |
| C101 | statements of read functions as data, run against an arbitrary reader (`Spec/GenRead`) | induction over the members with the range that is still to be read; what is prepared by C66 |
| C102 | the function as data: key class, case labels, default; run against an arbitrary reader and compared with trying members in order (`Spec/GenVariant`) | an invariant of the loop over members: keys of one class with different labels; equal values give equal labels within a class |
| C103 | `std::sort` is modelled by an insertion sort (`Model/Sort`); `Spec/Sort`: strict weak order, and `SortsTo` = every permutation in order | each comparator is total on the values it gets (ties are equal elements), or total on the key; a sorted permutation under a total order is unique |
| C104 | `Model/GenOptions`: the loop over the arguments as a fold; `Spec/GenOptions`: parts of a command line, and what they do | fold over one part, induction over the parts; every list of non-empty texts is made of parts |
| C105 | `Model/GenOptions` | C50 (pieces of a text), C01-style digit lemmas |
| C106 | the two loops as a step function on (order, position) with a number of rounds; `Spec/GenFrame` says what order of fields on the wire a stack gives; invariant: the layers handled so far are in place, except the one that is being moved (`Lemmas/GenFrame`); termination by the number of layers outside of the moved one. Witnesses for frames for which it fails |
| C107 | the loop over the layers from the inside as a fold; its values at every layer by induction |
| C108 | the structs as trees of declarations; `Spec/GenCustom` says what is declared under which names; the texts used are the scopes of C96, compared with the paths in the tree by induction over fields and namespaces; combinators for 'covers these texts' and 'extends that tree' |
| C109 | `Spec/Reuse` says what is inherited; one lemma per update step that it leaves the state alone when the element has no such property, a 'settled' invariant of accepted fields that makes the derived values (length, bits, type limits) fixed points; then cases over the kinds |
| C110 | `Model/GenLength`: the numbers in the generated assertions. `Spec/GenLength`: how many bytes values of the generated classes take (with version wrappers, pseudo fields, available length limits). Bounds and their attainment by induction over the field tree; the parser's lengths, used for sequences, by separate inductions (C23 style). |
| C111 | `Model/Latex` (`latexEsc`, with positions found in one text and applied to another, as in the code). `Spec/Latex.TexText`: what LaTeX sets for a piece of source, and that this is unique. Without backslashes by induction over the loop; with one, a proof that the result never reads as the text. |
| C112 | `labelId` over paths; injective because names have no colon and prefixes tell the kinds; parts are suffixes. |
| C113 | `bitRows`; invariants of the loop over the reverse table (sorted, distinct: C18) and of the mask loop. |
| C114 | `latexInt`, `latexRanges`, `enumRows`, `specialRows` against `TexNumber`, `TexRange` and the version windows. |
| C115 | `lengthText` against `TexLength`, with the bounds of C23 and C24. |
| C116 | `prepStmts` on the access functions of C88; `Spec/GenDetached.RunPrep` runs the statement on the field objects of C88. Existence checks of both fields joined; uniqueness of the result. |
| C117 | `refreshCount`, `refreshLength`, `refreshElemLength` on a prefix and a list of element lengths; induction over the loop that drops elements. |
| C118 | The literals as text; `CppString` and `CppBytes` say what C++ text stands for. The text of the bytes is followed through the line breaking (C52). |
| C119 | The lists of literals; binary search over the values, sorted by C64; a filter of a sorted list is sorted. |
| C120 | The loops over the parents of a field; induction over the fields around it; with C96 the text that is cut off is the beginning of the scope. |
| C121 | Marking is a search on a graph without cycles (rank from C34); invariant: what is marked is needed, and what is marked and prepared has its references marked; induction over the fields, the list of elements, and the rank. |
| C122 | Invariant of the list: no item twice, each item behind what it needs; induction over a field, the rank of a global field (as C121), the list of calls. What a step adds belongs to its own element or to a global field newly flagged. |
| C123 | The tokens are those of the same condition on sibling fields (C88), for which it is proved: the field found among all interfaces is the one at the path (induction over the path, outside `<optional>`). |
| C124 | Semantics of statements (`Exec`, deterministic); a statement updates the object at the path, which stores the updated value (induction over the path); later statements keep what earlier ones established since all can hold together. |
| C125 | Induction over the chain of namespaces; the chains of a schema built from its paths (GenMsgs) give the prefixes of a path; the specification says nearest by prefix and length. |
| C126 | Messages from `msgIdMessages_spec` (Lemmas/GenMsgId) filtered; types by C125 for handler and message; listing by induction over the tree against the chains. |
| C127 | Each part of the run is described by when it succeeds, whether it warns and its steps (`Does`); sequences and loops compose. |
| C128 | The code of a field is a list of declarations and a list of definitions, built by recursion as the templates are; induction over the field, with a lemma for the part around every kind. |
| C129 | The storage is a list with a capacity; direct. |
| C130 | From C128 for lists of fields, with the functions of message, interface, frame and layer around them; the values by induction over the layers. |
| C131 | From C79: the loops agree but for the prefix; the prefix keeps names distinct; the limit by cases over types and lengths. |
| C132 | From C87 for messages and from C131 for the field that holds the ids; the name of the namespace by induction on the path (C98). |
| C60, C68 | the generator's namespace tree built from the parsed one, binary search, marking | invariants of the parsed protocol give strictly sorted lists; induction on paths |

## Findings

Places where the property is false of the code. Each has a `_witness` theorem about the model, and the property is proved with the restriction
named in the `_partial` theorem.

* C01 (`C01_unsigned_wraps_witness`, `C01_trailing_text_witness`): Exact for all three readers on texts that are numbers in range; the code violates the full claim: the 32-bit reader wraps modulo 2^32 and trailing text is ignored (witness theorems).
* C03 (`C03_digit_component_witness`): The exact accepted language is proved; the intended iff is false in the code: components after the first may start with a digit.
* C09 (`C09_zero_bits_undefined`, `C09_zero_bits_accepted_witness`): Exact for every positive number of wire bits; bitLength="0" reaches an undefined shift (witness).
* C10 (`C10_length_witness`): Values are exactly those denoted by the text and representable in the type; that they fit the declared length is false in the code (only a warning), see the witness.
* C100 (`C100_ref_witness`, `C100_smallest_witness`): Not for unsigned fields with an offset above the largest wire value (C13). A reference in a bitfield to a field with signExt="false" is extended with its sign; texts of -2^63 are computed with undefined behaviour (witnesses). The meaning of the options is that of the documentation of the COMMS library.
* C101 (`C101_status_witness`, `C101_ref_witness`): The order is proved for all members and readers. A message that fails on invalid values reports invalid data when there is not enough data; a reference to an optional field with a condition is not prepared (witnesses). What is prepared is characterised for bundles without reuse and messages without reuse and copyFieldsFrom.
* C102 (`C102_other_witness`, `C102_invalid_witness`, `C102_fallback_witness`, `C102_prepared_witness`, `C102_enum_witness`): Proved for all variants of keyed bundles, and for a last member without key whose first field is read like the keys and takes every value. Otherwise the generated function differs from reading in order (witnesses): the first field of the last member is not compared with the keys in type or length, its valid values are not checked, an input that starts with a key is not left to the last member, the read function of a bundle itself is bypassed, and a last member that starts with an enum is taken for one with an integer (wrong cast).
* C103 (`C103_enum_witness`, `C103_nan_witness`): A valid range of a float from -inf to a special value that is nan makes the comparator of the generator no strict weak order (undefined behaviour of std::sort); the order of two names of one value of a 64 bit enum is left open (witnesses).
* C104 (`C104_empty_witness`): Proved for command lines without empty texts. An empty text is skipped even where the value of an option is expected, and the next text becomes the value (witness).
* C106 (`C106_witness`, `C106_before_witness`, `C106_custom_witness`, `C106_endless_witness`, `C106_inside_witness`): Proved for all accepted frames with different layer names, where checksums without `until` are behind the payload and no custom layer is a checksum without `until`: the loops end, with an error exactly if a layer is misplaced, else with the wire order of the schema, and each suffix layer covers exactly the layers from the one it names. Otherwise it fails (witnesses): a checksum with `from` before the payload makes the loop run out of the list, two custom checksums with the same `checksumFrom` make the generator loop for ever, a custom checksum behind a checksum is written before it; a checksum that begins behind the payload covers the payload.
* C108 (`C108_layer_witness`, `C108_interface_witness`, `C108_payload_witness`): Full for global fields, messages and layers themselves. The options of fields defined in a layer and of the fields of interfaces are referred to but never declared (witnesses; the generated code does not compile when they are used). With the main namespace among the options, the data view and bare metal options of payload fields name a base that does not exist (witness).
* C109 (): Full for attributes of messages, interfaces and fields and for the content of all kinds of fields but one: a float that reuses another one loses its endian (witness): ParseFloatFieldImpl.cpp:315-329 does not look at what it has. Valid ranges of the copy are normalised once more (same values by C11).
* C11 (`C11_no_undefined_partial`, `C11_unsigned_ranges_lost_witness`, `C11_overflow_witness`): Collection from the text is exact for all fields; the valid set is kept for ranges within the signed 64-bit span; false for uint64/uintvar ranges above it (witness), overflow at INT64_MAX (witness).
* C110 (`C110_pseudo_witness`, `C110_list_witness`, `C110_limit_witness`): Both bounds hold and are reached for messages without pseudo fields whose prefixes and list elements are always there in full; false for pseudo fields, list elements with later members and prefixes limited by the available length: the generated assertion fails (witnesses).
* C111 (`C111_witness`, `C111_description_witness`): Texts without backslashes are set as they are; texts with one never are (proved for all of them); descriptions in value tables are not escaped (witness).
* C112 (`C112_part_witness`): Labels of elements are unique; labels of parts are, unless a name ends like a part: two labels clash (witness).
* C113 (`C113_inherited_witness`, `C113_shift_witness`): Holds for sets of at most eight bytes up to the last named bit; a member of a bitfield with inherited bits beyond its length lists these, and a uintvar set may shift by 64 or more (witnesses).
* C114 (`C114_order_witness`): Numbers, ranges, rows and special values hold in full; enum rows are not in order for 64 bit unsigned types (witness).
* C115 (`C115_pseudo_witness`): Holds where the parser lengths bound the serialisations (C23, C24) and stay below 2^64-1; a bundle with a pseudo member is said to be longer than it is (witness).
* C116 (`C116_negative_witness`): Proved for prefixes that are numbers reached through members, references and optional fields. A negative number of a signed prefix becomes a huge length (witness). Not for bitfields with the meaning of a length and for paths through a variant, which the generated code cannot access.
* C117 (`C117_element_witness`, `C117_length_witness`, `C117_width_witness`, `C117_shared_witness`): Counts, lengths of texts, data and lists of elements without own lengths hold in full. For element lengths the generated assertion fails for every non-empty list whose prefix has to change; for lists of elements with own lengths the function may take the last element of an empty list; the limit is that of the C++ type, not of the bytes written; two sequences with the same prefix never become stable (witnesses).
* C118 (`C118_escape_witness`): Data: in full. Texts: exactly if they have no quotation mark, backslash or newline; texts are not escaped (witness: code that does not compile, and code with another value).
* C119 (`C119_code_witness`): Holds if some supported version has a value, texts are plain and sequences of bytes not empty; otherwise an array without elements is generated, which is not C++ (witnesses).
* C12 (): Sorting and order independence for all types; minimality with the restriction of C11.
* C121 (): The closure is proved in full; the header of every reference is generated except that of the escape field of a sync layer which is a reference to a global field in use nowhere else (witness).
* C123 (`C123_fields_witness`, `C123_optional_witness`): Proved for the conditions of C88, of which IfaceOf is the image. False for the comparison of two interface fields (a cast to a type that does not exist) and for fields in an <optional> (no check is generated), see the witnesses. Assumed: fields of the same name are the same in all interfaces of the schema (the generator takes the first one).
* C124 (`C124_fields_witness`, `C124_text_witness`, `C124_nothing_witness`): Proved for bits and numbers. False for values that are other fields and for texts (the code does not compile), for fields in an <optional> and sizes (nothing is generated), see the witnesses. Left out: floats, data, existence.
* C125 (`C125_nested_witness`, `C125_only_nested_witness`): Proved for schemas without interfaces in nested namespaces, and for a requested interface. False for interfaces in namespaces that are in other ones, which are never used unless requested: only namespaces at the top are visited (GenSchema.cpp:461-466), see the witnesses. C125_top says what is used in general.
* C126 (`C126_typed_witness`, `C126_listed_witness`, `C126_unlisted_witness`): Proved for the functions of a handler. The type is proved unless the handler is the one of a global namespace without messages, for which it is false (witness). The list of source files is proved for the last schema with interfaces in namespaces that are not nested; otherwise it may list files not written and leave out files written (witnesses).
* C127 (`C127_witness`): Proved but for warnings while the code is written, which are not treated as errors (witness; EmscriptenEnumField.cpp:174-180 has one). Steps report and succeed independently of each other; exceptions are left out.
* C128 (): Exact agreement is proved for fields without <optional> and without a version window, at any depth. In general everything declared is defined but for: the functions _isTentative and _setTentative of optional fields, spelt Tenative in the source (CField.cpp:887-933, COptionalField.cpp:133-195), and the _name function of the field inside of a version-optional one, whose parameter has the wrong type (SUFFX, CField.cpp:788). The types are known unless a number with special values may be missing because of its versions: its functions for special values have no suffix (CIntField.cpp:125-170); witnesses for all.
* C129 (): Access and removal are proved. Inserting is right at the end only: with an index inside, the new element goes to the end and the pointer leads to the old element (CListField.cpp:167-176; example); appending and inserting need room for two (capacity() <= nextSize). The capacity of a std::vector is taken as given; what resize constructs is a parameter.
* C13 (`C13_no_undefined_partial`, `C13_offset_wraps_witness`, `C13_offset_undefined_witness`): Proved for signed types and unsigned types with offset up to the largest wire value; false otherwise (witness).
* C130 (): The values of frames are proved in full. What is declared and what is defined are the same for messages and frames with the fields of C128_partial, and for interfaces without fields; in general everything declared is defined but for what C128 leaves out for the fields, and the access to fields of an interface: NAME_transportField_X is declared, NAME_field_X defined (CInterface.cpp:357-428, 470-482; example). The order of the layers and the tuple of all fields of COMMS are taken as given.
* C131 (`C131_clash_witness`, `C131_limit_witness`): Proved for everything but: numbers left out by C79 (the least 64 bit number, and 2^63-1 in an unsigned enum); the names are distinct unless a value is called TypeValuesLimit (false then, witness: CEnumField.cpp:188-192 does not adjust this name); the greatest number of the type is right for types of up to 32 bits and shorter fields of up to four bytes except uint64, for others it is 2^31-1, which can be below declared values (witness). Limits of C on enumeration types are not modelled.
* C132 (`C132_prefix_witness`): Proved in full for the ids of messages. With one field for the ids as C131 (the least 64 bit number and 2^63-1 in an unsigned enum are left out; a value called TypeValuesLimit gives a name twice). Names of messages are distinct without underscores and names that differ in the case of the first letter only, as in C87. The C name of the namespace is the prefix and the path joined by underscores (C132_prefix_partial) unless a name ends with an underscore: it is lost, so that the enumerations for namespaces A and A_ have the same name (witness).
* C14 (`C14_inherited_value_witness`): Names: full. Values: new definitions; inherited values are not compared by the code (witness).
* C16 (`C16_length_witness`, `C16_withdrawn_permission_witness`): Names and (unless non-unique values were ever permitted) values are unique; values fit the type but not always the declared length (witness); the permission can be withdrawn while duplicates are kept (witness).
* C17 (`C17_unsigned_order_witness`): The reverse table holds exactly the pairs; order by value except 64-bit unsigned values above the signed span (witness).
* C18 (`C18_inherited_bit_witness`, `C18_type_table_witness`, `C18_no_undefined_partial`): Indices are always within the bytes; within the bit length except inherited bits (witness). Out-of-table access reachable (witness).
* C19 (`C19_replace_witness`, `C19_wrap_witness`, `C19_no_members_witness`): Proved for definitions without member replacement and sums below 2^64; false otherwise (witnesses).
* C21 (`C21_zero_count_witness`, `C21_count_kind_witness`): Minimal length: always defined. Maximal length: defined unless a count prefix cannot be positive or is not an <int>; both are accepted and undefined (witnesses).
* C23 (`C23_pseudo_witness`, `C23_later_member_witness`): Upper bound: all values and versions (bit sums below 2^64). Lower bound: fields without pseudo fields and with all members existing; otherwise false in the code (witnesses).
* C24 (`C24_reuse_witness`, `C24_wrap_witness`): Message lengths are the sums of those of the fields and bound every serialisation; the minimum wraps at 2^64 and counts fields of later versions when reused (witnesses).
* C25 (`C25_witness`, `C25_message_witness`): Proved for requested values below 2^31 and lengths below 2^31; false otherwise (witness).
* C26 (`C26_bitfield_reuse_witness`): The version checks are exact for every field and its parent. Members of bitfields have the versions of the bitfield unless copied by reuse (witness).
* C27 (`C27_reuse_witness`): Trees without reuse of composite fields; false with reuse (witness).
* C28 (`C28_unknown_deprecated_witness`): Full for supported properties/features; the deprecation query answers true for unknown names (witness).
* C29 (`C29_message_reuse_witness`): Bundles and copyFieldsFrom of messages: exact. The reuse attribute of messages drops nothing and lifts nothing (witness).
* C30 (`C30_namespaces_witness`, `C30_nested_witness`): Within a top-level namespace and the namespaces directly in it; false across top-level namespaces and deeper (witnesses).
* C31 (`C30_nested_witness`): Sorted permutation of the messages of top-level namespaces; messages nested deeper are left out (witness).
* C33 (`C33_value_witness`): References to fields, messages and interfaces, characterised exactly. False for references to values (witness).
* C40 (`C40_duplicate_witness`): False in the code: a duplicate layer name is only reported (witness); references denote the first layer of the name.
* C41 (`C41_undefined_iff`, `C41_null_witness`, `C41_empty_field_witness`): False for DSL versions 1 to 7 (witness); exact characterisation proved; none for others.
* C42 (`C42_ambiguous_witness`, `C42_message_dangling_witness`, `C42_message_ambiguous_witness`): Bundle and interface aliases: always resolvable; unambiguous for definitions without reuse; false with reuse (witnesses). Message aliases: resolvable unless fields are replaced and copying the aliases is switched off (witness).
* C43 (`C43_dotted_witness`, `C43_message_dotted_witness`): Single-component aliases are kept, none if declined; dotted ones are lost (witness).
* C44 (`C44_stale_index_witness`, `C44_wrong_member_witness`): Proved when the definition does not reuse another variant; an inherited index is not adjusted for dropped members (witnesses).
* C45 (`C45_lost_witness`): Cloning loses aliases and validity conditions (witness); everything else is kept.
* C47 (`C47_witness`, `C47_reuse_witness`): Exact for the plus form; the minus form is exact without reuse; false with reuse (witness).
* C51 (`C51_min_undefined`): all values but the smallest signed one, for which negation is undefined (C51_min_undefined)
* C55 (`C55_case_witness`, `C55_common_witness`, `C55_namespace_witness`, `C55_reserved_witness`, `C55_member_witness`): Exact characterisation of colliding headers; no collision when names of siblings still differ after the first letter is capitalised and do not end in Common; false otherwise (witnesses).
* C57 (`C57_min_remote_witness`, `C57_forced_witness`): Existence is exact whenever some version is supported at all; the minimal remote version is not compared with the schema version (witness). Optional whenever some supported version lacks the element; exactly then unless a smaller version is forced (witness).
* C58 (`C58_offset_witness`, `C58_default_witness`): Holds for the values a field of the given length can hold; a serialisation offset or a default of a variable length field may not fit (witnesses).
* C60 (`C60_nested_witness`, `C60_list_witness`): Exact for platforms. Without a request, messages in nested namespaces are left out (witness); a list with an unknown message makes the program use a null pointer (witness).
* C62 (`C62_direct_witness`, `C62_repeated_witness`): Fields. Not beside fields given directly as children (the parser then requires <members>, as its error message says; witness) and not for the properties that add up (validRange and the like). Twice is rejected for the common properties; not for the default of a set (witness).
* C65 (`C65_detached_witness`): Lists fully. For strings and data detached prefixes are not compared with a fixed length or a zero termination by the code (witness).
* C66 (`C66_term_witness`): Members of bundles and fields of messages defined without reuse, copyFieldsFrom and replace; detached termination suffixes are not checked by the code at all (witness).
* C69 (`C69_same_version_witness`): False for elements deprecated in the schema version itself (witness).
* C70 (`C70_number_witness`, `C70_reuse_witness`, `C70_null_witness`): Definitions without reuse; with reuse conditions can outlive the members they are about, a number may be followed by any text, and a reference into an optional field with an external field follows a null pointer (witnesses).
* C72 (`C72_shadow_witness`): Exact, with the condition that no namespace has the name of the field: a namespace of that name hides the values of the field (witness).
* C74 (`C74_inherited_witness`, `C74_trailing_witness`): Uniqueness of values in new definitions; special values of the reused field are not compared (witness). What follows a number in a text is ignored (witness).
* C75 (`C75_type_limit_witness`, `C75_infinite_witness`): The valid set is exact for all ranges. Disjoint with finite bounds; ranges with infinite bounds are never merged, and bounds of validRange are not compared with the type (witnesses).
* C76 (`C76_deprecated_witness`, `C76_later_witness`, `C76_merged_witness`, `C76_int64_witness`, `C76_overflow_witness`): Exact for bounds the generator reads as the type says, and ranges that exist in the versions concerned. False for negative bounds of int64 and large ones of uintvar, for deprecated or later ranges whose version check has no version to look at, and when ranges of different versions are merged (witnesses).
* C77 (`C77_misread_witness`, `C77_order_witness`, `C77_removed_witness`, `C77_later_witness`): Exact for numbers the generator reads as the type says. False for negative int64 numbers, for many uint64 values above 2^63, and for removed or later values of enums with many ranges (witnesses).
* C78 (`C78_order_witness`): Exact except for numbers of a uintvar enum that do not fit its length (witness).
* C79 (`C79_limit_witness`): Exact except for 2^63-1 in an unsigned enum, where the next number is undefined (witness), and the least 64 bit number.
* C80 (`C80_overlap_witness`, `C80_covered_witness`, `C80_gone_witness`, `C80_shift_witness`, `C80_reuse_witness`): Exact for bits whose names do not overlap in time and agree on the reserved value. False for overlapping names, bits that are gone in all supported versions, inherited reserved bits and indices of 64 and above (witnesses).
* C81 (`C81_renamed_witness`): Exact if the names of a bit agree on the default; otherwise the last name in alphabetical order wins (witness).
* C83 (`C83_dropped_witness`): For indices below 64, which all types but uintvar imply; bits of uintvar sets from 64 on are dropped (witness).
* C84 (`C84_all_witness`, `C84_case_witness`, `C84_alias_witness`, `C84_unrequested_witness`, `C84_place_witness`): The lists are exact. Files differ for names of platforms and bundles that differ in more than the case of the first letter and do not end like the other files (witnesses: platform "All", platforms "p" and "P"); messages of the same name in nested namespaces give the same alias twice (witness). Messages the generator was told to leave out are listed all the same (witness). Namespaces of the same name in different namespaces write their lists to the same file (witness).
* C85 (`C85_label_witness`): What is created is exact, for fewer than 2^31 messages in a schema. The factory is written for ids other than 2^63, for which the label is undefined (signed overflow, witness).
* C86 (`C85_label_witness`, `C86_index_witness`): Exact for all indices the factory creates a message for, and for ids with several messages. For an id with one message the function with an index ignores the index (witness). Id 2^63 as in C85.
* C87 (`C87_global_type_witness`, `C87_global_field_witness`, `C87_underscore_witness`, `C87_case_witness`): Values exact. The type does not look at what a global namespace without messages borrows from the schema; names may clash with underscores or differences in case (witnesses). Missing: a description of a value that contains "// ---" (the prefix is then left out) is not modelled.
* C88 (`C88_wrap_witness`, `C88_fields_witness`, `C88_dangling_witness`): Proved for the conditions of Says. False for numbers that do not fit the type of the field, for fields of different types, and for lists ending with an existence check of a field that is not wrapped (witnesses). Not modelled or left out: references to interface fields, injected code, floats, references to values of other fields, comparison of texts, data and lists with each other, values from 2^63 of enums and the value -2^63 (undefined, C51).
* C89 (`C88_dangling_witness`): For the conditions of C88.
* C90 (`C90_exists_witness`): For the conditions of C88. An existence check of a deprecated field that was not removed generates nothing (witness).
* C92 (`C92_ref_witness`, `C92_storage_witness`): Exact for what is defined inside. Fields that are only referred to, and prefixes of strings and data, are not looked at, so a bundle may be told that the version does not matter although it does; and a range that came with the field is taken for one that all versions have, although the field asks for the version (witnesses). The meaning of the option in the COMMS library is taken from its documentation.
* C93 (`C93_digits_witness`, `C93_infinite_witness`): Numbers are written with six decimal places; proved for the bounds that these determine, which are all of 2^33 and above and all that are given with at most six places. Ranges with an infinite bound are wrong (witness). Missing: versions in which the field is deprecated but still there.
* C94 (`C94_clash_witness`, `C94_removed_witness`, `C94_near_witness`): Names that differ in the case of the first letter clash, the table of names uses functions of values no supported version has, and isX() of floats below 2 is also true for neighbours (witnesses).
* C95 (`C95_clash_witness`, `C95_list_witness`): The restrictions of NamesApart are not checked: members x and xField, x and xMembers, x and X, or all, give classes of the same name; so do an element length prefix and a termination suffix of a list (witnesses).
* C97 (`C97_colon_witness`, `C97_macro_witness`): An option item that ends with a colon is taken as a namespace including the colon; names that differ may give the same macro (witnesses).
* C98 (`C98_clash_witness`): Distinctness is proved for names without underscores; with underscores different elements may get the same name (witness).
* C99 (`C99_other_witness`): Directories and namespaces whose names only start with the name of the schema are renamed too, and references are not (witness). File system operations are not modelled.
