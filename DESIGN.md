# Formal model of droyo/go-xml in Lean 4

The Go sources in `/repo` were read as text; nothing was built or run. The model is a set of
total Lean functions, one per Go function, under `lean/Verif/Model`. Every definition cites the
file and lines it models. Specifications are written separately (`lean/Verif/Spec`), helper
lemmas are in `lean/Verif/Proofs`, and the theorems listed in `MANIFEST.json` are in
`lean/Verif/Props`.

## Trusted base

* Lean 4.33's kernel. Axioms used: at most `propext`, `Classical.choice`, `Quot.sound`
  (per theorem: see "Axioms per theorem" at the end).
* The translation from Go to Lean, which was done by hand. Everything in the columns "modelled"
  below was translated statement by statement; everything in "not modelled" is assumed away.
* Behaviour of the Go standard library, as far as the model needs it:
  * `encoding/xml` tokenizer (`Decoder.Token`, `InputOffset`): Parse is modelled over its token
    events; `Model/Lexer.lean` models how it makes them from bytes, strict and without a table of entities. The XML
    declaration is skipped; tables of characters are parameters.
  * `sort.Sort`: any function that returns a sorted permutation (not necessarily stable).
    Theorems quantify over every such function.
  * map iteration: any order. Theorems quantify over every permutation.
  * `strings.Split/TrimSpace/ToLower/Fields`, `strconv`: modelled directly where used.
  * `append`: list concatenation, except in the aliasing models (C22, C31, C32, C34), where a slice is
    (array, length, capacity) over a heap and the growth policy is a parameter.
  * `encoding/xml`, `Unmarshal` and `Marshal` of generated types (C131): `Model/XsdgenValues.lean` models `getTypeInfo`,
    `unmarshal`, `marshalValue` and `isEmptyValue` for the structs, tags and methods that xsdgen makes; how text is turned
    into a value of a simple Go type and back is a parameter. Documents are trees without namespace declarations;
    `Model/XmlUnmarshal.lean` makes them from the tokens of a document (C145).
  * `text/template`, `go/ast`, `go/printer`, `go/format`: output of templates is modelled as
    concatenation; AST building and printing is not modelled beyond the data named below.

## Conventions

* Go strings are byte strings: `Str = List UInt8`, `b!"..."` is a literal.
* Error returns are values (`Except`/`Option`), panics used as exceptions likewise.
* Nil is an explicit case. A slice is a list; where sharing of memory matters there is a heap.
* Where the code does not have a property, the theorem with suffix `_refuted` proves the negation
  with a concrete witness and the theorem with suffix `_partial` proves the part that holds.

## Properties

| id | modelled | how it is proved / what is false |
|---|---|---|
| C01 | `Element.Attr` as a loop over the list | equality with "first match" characterisation by induction |
| C02 | `SetAttr` | get-after-set, frame, length, idempotence by induction |
| C03 | `ResolveNS`, `Resolve`, `SplitN(":",2)` | backward loop = last matching declaration; iff for the boolean |
| C04 | `JoinScope` as append | from C03's characterisation |
| C05 | `ResolveDefault` | case analysis |
| C06 | `Prefix` | false under shadowing (`_refuted`); `_partial` when each prefix is declared once |
| C07 | `Prefix` | false: returns "" (`_refuted`); `_partial`: exact characterisation of when it is empty |
| C08-C11 | `Parse`/`Element.parse`/`pushNS` over token events | fuel-free structural spec `denote`; induction over nested documents |
| C12 | `SearchFunc`, `Search`, `Flatten` | equals filter of the preorder list of proper descendants |
| C13 | `diffScope`, `encode` | path invariant by induction on the tree |
| C14 | template output, byte-level lexer | marshal = bytes of a source document; lex; parse; compose |
| C15, C65 | same | false (`_refuted`): no escaping; text lost in mixed content |
| C16 | `MarshalIndent` | false for prefix (`_refuted`); `_partial`: removing layout gives Marshal's output |
| C17-C20 | `Equal`, `equal`, `equalElement`, `byName` | false (`_refuted`), partials under the needed hypotheses |
| C21 | CharsetReader's offset arithmetic, byte-level lexer | false (`_refuted`): one byte too many; `_partial`: for every document all but the contents is right, contents are displaced by exactly one byte |
| C22 | heap of backing arrays | false for JoinScope with spare capacity; partial for full slices |
| C23-C25 | `Graph` with sorted adjacency, `Flatten` | DFS invariants by induction on fuel; canonical form of adjacency |
| C26, C27 | table of names | finite table by kernel evaluation, plus induction for "any other name" |
| C28 | `Imports` | via C12 |
| C29, C30 | normalisation passes on value trees | induction on trees |
| C31 | `expandComplexShorthand` on the same heap as C34; a relation says which tree an element in memory is (`Spec/XsdExpand.lean`) | induction on trees and on the list of pointers; false for a complexType that is a child of a complexType without content, partial |
| C32 | `copyEltNamesToAnonTypes`, `nameAnonymousTypes` and the loop of `Normalize` over them, on the same heap; `hoist` (`Spec/XsdNames.lean`) says on trees what a pass that moves types has to do, `HoldsApart` that a tree has its own arrays in memory | induction on trees with the list of arrays a tree uses; names by injectivity of decimal notation; false when the children of the root are reallocated while there are pointers to global elements with anonymous types, for a union with two anonymous members, for types named `_anonN` by the author, and for a target namespace without prefix; partial |
| C33 | `deref` on values | false for foreign prefixes, partial |
| C34, C87, C88 | `flattenRef` on a heap of backing arrays with pointers into them (`Model/XsdHeap.lean`) | invariant of the replacements in the order of C24; well-foundedness of the child relation; false for stale copies, cycles and local declarations |
| C35 | `parseComplexContent`'s dedup, `joinElem` | invariant of the fold |
| C36 | `parseInt`, `parseBool`, `parsePlural`, flags | decision logic; reporting false for `maxOccurs` after a large `minOccurs` |
| C37 | `resolvePartialTypes`, `lookupType`, `Parse` | over a store of type nodes; invariant of the loops of `Parse` |
| C38 | same | false (`_refuted`), partial |
| C39 | `propagateMixedAttr` | exact result for chains of at most 1001 types, every iteration order |
| C40 | the `parsed[tns] = s` map | false (`_refuted`), partial |
| C81 | `parseSimpleRestriction`; numbers, dates and patterns are kept as text | projections of the walk over the children; false for times of linked types and uncompilable patterns |
| C82-C85 | `parseSimpleType`, `parseComplexType`, `parseAttribute`, `parseElement` | compared with the document as written (`Spec/XsdDecls.lean`); C83 (attributes of simple restrictions), C84 (prohibited, namespace), C85 (foreign types) false |
| C86 | `FindType` with fuel | induction on the calls |
| C72, C73 | `Parse` with its maps and panics as values | false (`_refuted`), partial for schemas in order of dependency |
| C41 | Config as record, Option as function (`Model/XsdgenConfig.lean`); `regexp`, `strings.Title` and the two SOAP transformations are parameters | each option; false for AllowType, OnlyPorts, and for LogLevel, LogOutput of wsdlgen |
| C42 | same | induction over the options |
| C43, C45 | `dedup`, `mergeAttributes`, `flatten` | equality with "first of each name" |
| C44 | `expandComplexTypes` over a store of types, on top of the dependency graph model | invariant of the walk in the order of C24; false (does not end) for a type that is its own ancestor |
| C46 | `nameGenerator`, the loops of `genComplexType` (`Model/XsdgenSpec.lean`) | invariant of the loops; false (`_refuted`) for wildcards and text |
| C47 | the generated method bodies as functions on text (`Model/XsdgenList.lean`); float formatting is a parameter | split/join and number round trips; false for `uint` above 2^32, strings with blanks; some lists are not generated |
| C48 | `gen`, `GenAST`, helpers; declarations as a map | permutation-invariance of sorting distinct keys and of map updates; false for types visited in another order and for equal Go names |
| C49 | `selectSchemas` (part of `GenCode`) | the count comparison; false for repeated namespaces |
| C50 | `readFiles` over an abstract file system (`Model/XsdgenCli.lean`) | order invariant; false for cycles, and for unreadable files without namespaces |
| C51 | filter composition | induction |
| C52 | `builtinExpr`, `addStandardHelpers` | finite table; false for the attributes of the xml namespace and one past the end |
| C53 | `flatten1` for simple types | induction on the chain; false for the facet `length` |
| C67 | `flatten`, `flatten1` with its recursion limit of 1000 | invariant of all assignments: no type comes to refer to one it did not need; undo false |
| C54-C57, C70 | `wsdl.Parse` and helpers over element trees, compared with a direct reading of the document (`Spec/Wsdl.lean`) | rewriting to list comprehensions; C55 (SOAP 1.2 action) and C57 false |
| C58-C60, C71 | `printer.opArgs`, `printer.operation`, `printer.genAST`; the xsdgen name lookup is a parameter | decision logic; C59, C60, C71 false |
| C61, C62, C64 | gen helpers | C61's injectivity false; C62 false for `\r` |
| C63 | flag parsing | fold over the list of flags |
| C66 | diffScope on the empty scope | false (`_refuted`), partial |
| C74, C75 | `genComplexType` | invariant of the loops; C75 false for plural special types |
| C76 | `builtinTbl` against the ranges of XML Schema part 2 | finite table and arithmetic; false for `byte` and unbounded integers |
| C77, C78 | hex and base64 codecs, `_unmarshalTime`; `time` is a parameter (`Model/XsdgenText.lean`) | induction on the bytes; C78 false for binary types |
| C79 | the default comment of `UnmarshalXML` | false (`_refuted`), partial without line breaks |
| C80 | `GenCode` with the configuration as state | false (`_refuted`), partial if namespaces are given |
| C89, C90, C91 | `OnlyTypes`, `ProcessTypes`, `UseFieldNames` (`Model/XsdgenConfig.lean`) | option by option; heap invariant of the renaming; C89 false for namespaces, C91 for equal names |
| C92 | `flatten1` for complex types | case analysis in both directions |
| C93-C95 | `genComplexType`, `genSimpleType`, which methods they ask for | invariants of the loops of C74 extended to types and overrides; C95 false for the documentation of lists |
| C96 | `flatten1` pushes what the fields of the types it pushes refer to; `expandComplexTypes` and `genComplexType` copy fields from bases only | invariants of the heap under `flatten1` (`Flow`), and under copying (`Ext`); induction on the rank of a type; for recursive types (`Props/XsdgenRecursive.lean`) an invariant about the ways between structured types (`Shape`, `Walk`); false at the depth limit of recursive types that extend simple ones |
| C97 | `flatten1` returns types worth a declaration (`Worth`) unchanged; `genList` declares every type in the list or reports an error | `Flow` and `Ext` as in C96; `Keep`: no pass changes the built-in type at the end of a chain of bases, or a type derived from `anyType` |
| C98 | `gen` adds helper types and functions to the declarations and removes them from the configuration | counting over the sorted names |
| C101, C102 | `NameOf` with the types, the map of names and the map of types after `gen`; its recursion is bounded by a number | `Ready`: what NameOf answers for a selected type is fixed by `gen`, because later calls change neither whether the type is replaced by a built-in one nor its entry; types may stand under the names of elements too (`Keyed`), and the conditions hold for what `Parse` makes of schemas that do not get in each other's way (`Orderly`, `parse_orderly`) and derive types from declared or built-in ones (`Regular`, `parse_regular`); `Props/XsdgenDocuments.lean` states C96, C97, C99 to C102, C109 and C111 with these conditions on schemas. The bundled schemas meet them (evaluated, not proved) |
| C103 | `parseAnnotation`: `Marshal` of the element, then `encoding/xml` as modelled in `Model/Lexer.lean`, with the loop of `annotation.UnmarshalXML` | what the lexer delivers for the output of `Marshal` (`lex_marshal`) |
| C104-C107 | `parseSOAPArrayType`, `TagKey`, `soapArrayToSlice` and the method it generates (`Model/XsdgenSoap.lean`) | rewriting; induction on the chain of derivation and on the items; all four false in part |
| C99 | bodies of the methods of list types (`Model/XsdgenListCode.lean`), a type-checker for the statements they use (`Spec/GoCheck.lean`) | the verdict over the table of built-in types, and for every list type of a generated file whose items derive from one of them; false for ten of them |
| C100, C108 | `GenCode` from types to declarations | invariants of the heap through `flatten1` and `expandComplexTypes`: every type that is put in the place of another stands above it; C100 false for restricted lists |
| C109-C111 | `wsdlgen.GenAST` with the code that xsdgen generates (`Model/WsdlgenFile.lean`); `NameOf` is asked in the order of the program and changes the heap | the answers are those of one fixed function of names (`portsIn_code`), so C101 and the theorems about `operation` apply; each false in part |
| C112-C115 | the parameters and the body of a generated function as texts (`Model/Wsdl.lean`) | rewriting; C113, C114 and C115 false for some names |
| C116 | `parseAny`, `parseAnyElement` (`Model/XsdParse.lean`) | from C35 and C36; false for several wildcards and for minOccurs=0 |
| C117 | the loops that collect annotations (`Model/XsdParse.lean`) | induction on the children; false for types with annotations at two places |
| C118 | `preprocessAll`, `gen` (`Model/XsdgenSpec.lean`) | from C90; false for references to a type that was replaced |
| C119 | `decodeStruct`, `readResponse`, `call` (`Model/WsdlgenClient.lean`) | induction on the content of the body; false unless the operation is called `Message` |
| C120 | `decodeFault`, `decodeEnvelope` | induction on the content of the fault |
| C121 | `makeRequest`, `encodeEnvelope`, `encodeInput` | by cases; false in three ways, each with what holds instead |
| C122 | the same | from C121; false for GET |
| C123 | `readResponse`, `clientDo` | a fault once seen is kept (induction on the body); false for the status |
| C124 | `clientDo` | by cases on the hooks |
| C125 | the whole tokenizer and parser (`Model/Lexer.lean`, `Model/Parse.lean`) against documents as they are written (`Spec/Source.lean`) | each piece lexes to its tokens (induction on the text); C08; then names are resolved as the tags say |
| C126 | `commentGroup`, `scanLoop`, `maxLine` (`Model/Gen.lean`) | induction on the lines before the long one |
| C127, C128 | `parseFlags` and the two `GenCLI` (`Model/Cli.lean`) against command lines as they are written (`Spec/Cli.lean`) | induction on the flags, both ways; then the options one after the other |
| C129 | `printed` (`Model/Cli.lean`) | induction on the schemas |
| C130 | `parse` and `marshal` against documents as they are written (`Spec/Source.lean`, `Spec/Rewrite.lean`) | C125 gives the tree, whose names can be written by C03 and C06; then C14 |
| C131 | what encoding/xml does with generated structs and their methods (`Model/XsdgenValues.lean`) against documents of a schema type (`Spec/XsdgenValues.lean`) | induction on the document; a correspondence between declarations, fields and tags, with the methods for special types; counterexamples from the schema to the document by evaluation |
| C132, C133, C135 | what encoding/xml reads into a generated struct for documents with content that is not declared, in another order, or absent | lemmas about the loops over attributes and elements: they change only the fields whose names match |
| C134 | the containment of generated Go types (`Spec/XsdgenNested.lean`) against that of schema types | each declaration is described in terms of the final heap; paths are translated step by step |
| C136 | the words that a content model allows (`Spec/XsdContent.lean`, after XML Schema part 1) against the flags of the elements of the parsed type | induction over content models: a letter that occurs twice in a word comes from a declaration that may be repeated; one that is lacking from one below a choice or with `minOccurs` 0 |
| C137 | all passes of `Normalize` in sequence on one memory (`Model/XsdPipeline.lean`) against a description of canonical schemas (`Spec/XsdCanonical.lean`) | every search of every pass comes up empty, or finds choices whose alternatives are optional already, so the memory stays the same; for neat schemas, by C149 |
| C138 | the type of a field made from a reference against the type of the declaration | the pass for default types gives every reference without a type the default type, and replacing a reference keeps the attributes of the reference |
| C139 | the comment on a simple type against its documentation and restrictions | the comment has the values, the pattern or a length, whichever is first; else the documentation |
| C140 | functions and constants of internal/gen against the texts that describe them | as described, if types without a name have no blank |
| C141 | lines of a generated file; making it twice | marked and documented; the comment is lost the second time |
| C142 | String of the flags against Set | inverse for rules without line breaks; values without commas |
| C143 | String of a definition against its operations | one line each, with the types, not the elements |
| C144 | functions against the operations of all documents | those of the first document |
| C145 | `decoderSees`, `unmarshalSees` with the tokenizer, `parse` and `marshal` | the decoder sees of every element what it sees in the document at its position, without text beside elements; refuted for mixed content, shadowed prefixes and escaped values |
| C146 | `parseFault`, `Fault.text` and one function per parser (`Model/XsdErrors.lean`) | an error exactly if `parseRoots` fails; the message is what is wrong with one element (`Wrong`), the place a chain of elements around it (`Trail`); refuted: it never names the element itself |
| C147 | `missingIn`, `resolveFault`, `aliasFault`, `finishFault`, `parseErrorText` (`Model/XsdMissing.lean`) | an error text exactly if `parse` fails; it tells a use (`TellsUse`) of an `Undefined` name; refuted: not determined by the documents |
| C148 | `flatten1`, `flattenLoop` (`Model/XsdgenTypes.lean`) | the length of the list of collected types, linear in the number of types if there is one way at most (`OneWay`); refuted by induction on the depth of calls: each level doubles the list |
| C150 | `copyEltNamesToAnonTypes` and `nameAnonymousTypes` in `Normalize` and `Parse` (`Model/XsdPipeline.lean`); `Stands` (`Spec/XsdAnon.lean`) | by induction on the tree while types move out of it (`stands_hoist`), both passes composed (`Stands.trans`); the names differ because the first pass avoids all that are taken and the second counts |
| C151 | `parse` (`Model/XsdPipeline.lean`) with all of `Model/XsdParse.lean`; `SoundAt`, `SoundSchema`, `SoundSet` (`Spec/XsdAccept.lean`) | `accept_roots`: no function of the parser has an error for normalized sound schemas (the error models of C146), all references are resolved (C147), no panic (C72); `ripe_relinked`: each pass of `Normalize` keeps schemas sound, with the names of hoisted types added to those that are known; so does replacing references (`sound_deref`) |
| C152 | `nameOf` (`Model/XsdgenName.lean`), `genCode`; `AfterCalls` (`Spec/XsdgenName.lean`) | invariant `Unheard` over the calls: the maps of names and types do not have the name, and no type gets it |
| C153 | `genCode`, `gen`, `flatten`, `genTypeSpec` (`Model/XsdgenSpec.lean`), `parseSchemas`; `Coherent`, `Listed`, `Present`, `unlisted` (`Spec/XsdgenSucceeds.lean`) | a plan of the final bases and fields of all types is kept by every rewriting step, and bounds the depth of calls; documents: `parse_orderly`, `parse_regular` and C37 give the conditions; `Derivable` (`Spec/XsdgenDerivable.lean`): every type of the result is traced back to its definition (`parse_objects`), so derivation in the result is derivation in the documents (`ancestor_comes`) |
| C154 | `genFile`, `portsIn`, `operationIn`, `getPartTypeIn`, `nameOf`, `genCode` | the plan of C153 is kept by the questions that wsdlgen asks |
| C155 | `parseSchemas`, `finishRoots`, `resolveTypes`, `lookupType`, `parseTypes`, `selfTree` | an invariant of the second loop: links are only replaced by types of the same name |
| C156 | `Xsdgen.genCode`, `Xsd.parseSchemas` | end to end: C153 gives the result, C97 the declaration, C108 its meaning in terms of the types, and C155 with `parse_objects` and `ancestor_comes` lead back to the documents (`Spec/XsdgenStruct.lean`); `gen_untouched` and `finish_posted` deal with options that transform types or declarations, `Props/XsdgenDefault.lean` with those of the command |
| C157 | `Xsdgen.genCode`, `Xsd.parseSchemas` | end to end: C153 gives the result, C97 the declaration, `gen_simple` that it is generated from the flattened type and so from the built-in type under it, and C82 with `parse_linked` and `ancestor_comes` lead back to the documents (`Spec/XsdgenSimple.lean`) |
| C158 | genCode, gen, genSchemas, flatten1, expandComplexTypes, genList | C158_answers_partial (Props/XsdgenEnds.lean): the plan of C153 without the condition on lists; the answer of genTypeSpec is code, or an error for a list of items without a list type; refuted in full by C158_panic_refuted and C158_runs_refuted; C158_unlisted (Props/XsdgenUnlisted.lean): the error is given for every selected list of items without a list type |
| C159 | `Xsdgen.genCode`, `Xsdgen.flatten1`, `Xsd.parseSchemas` | end to end: C157 gives the declaration; `genSchemas_simpleDoc` follows the comment from the time when the type is flattened to the declaration that wins, C81 and C82 lead back to the enumerated values in the documents (`Spec/XsdgenComment.lean`) |
| C160 | `Wsdl.genFile`, `Wsdl.getPartTypeIn`, `Wsdl.argsOf`, `Xsdgen.genCode`, `Xsd.parseSchemas` | end to end: C156 gives the struct, C157 the declaration of a simple type; `gen_knows` says that the name entered for the type is the name of the declaration, `parse_document` and `parse_fields` lead from an element to the type that the documents name for it, and `portsIn_knows` follows both through the operations |
| C68 | encode's `visited` set on a graph of cells | fuel 3002 is never exhausted (induction on fuel and visited); on trees the result is `marshal` |
| C69 | `Equal` | soundness for all trees, completeness under the conditions named, both by induction on trees |

## Validation

The model is run, inside the kernel, on the tests and examples of the repository, and compared with the results that the repository expects:

| repository | module | result |
|---|---|---|
| xsd/testdata, `TestParse` (xsd/xsd_test.go) | `Props/RepoTests.lean` | 11 of 13 documents give the expected types; the others (`testAttributeGroup_refuted`, `testComplexType_refuted`) have elements declared with ref, which get the type `anyType` by the code as it stands (C138); all else in them is as expected (`testAttributeGroup_otherwise`, `testComplexType_otherwise`) |
| xsdgen/example_test.go | `Props/RepoExamples.lean` | 6 of 7 examples give the expected declarations; `examplePackageName_refuted` is C53 |
| gentests/books, gentests/bindata | `Props/RepoGenTests.lean` | the declarations in the generated files; books.xml is read and written again |
| xmltree examples and tests, internal/dependency tests | `Props/RepoXml.lean` | as expected |
| wsdlgen/examples/chemspell and parts of wsdlgen/examples/forecast | `Props/RepoWsdl.lean` | the types, functions and package clause of the generated files |

Documents are given as bytes and go through the models of `xmltree.Parse`, `xsd.Parse`, the options and the generators in sequence
(`Props/EndToEnd.lean`). The code printer and the bodies of methods are not part of the comparison.

## Where code and properties disagree

For each of these a theorem proves the negation with a concrete witness; what holds is proved in the theorems with suffix `_partial`.

* **C06**: False of the code when the favoured prefix is redeclared further in; exact condition proved. Witnesses: `C06_prefix_inverse_refuted`, `C06_prefix_inverse_refuted_default`.
* **C07**: False of the code: undeclared namespaces give the empty string; exact characterisation proved. Witnesses: `C07_prefix_unknown_refuted`.
* **C11**: Proved for tags that obey the namespace rules; false for an attribute p:xmlns, which is taken for a declaration. Witnesses: `C11_foreign_xmlns_refuted`.
* **C15**: False of the code: attribute values are not escaped. Proved for values that need no escaping. Witnesses: `C15_escaping_refuted`, `C15_injection_refuted`.
* **C16**: False of the code: the prefix argument is ignored. Proved: the output is Marshal's output cut into lines with indentation. Witnesses: `C16_prefix_refuted`.
* **C17**: False of the code; exact condition proved. Witnesses: `C17_reflexive_refuted`, `C17_deep_refuted`.
* **C18**: False of the code: attributes only the first tree has are ignored. Witnesses: `C18_symmetric_refuted`.
* **C19**: False of the code for siblings of the same name. Witnesses: `C19_order_refuted`.
* **C20**: False of the code: children are sorted in place. Witnesses: `C20_no_mutation_refuted`.
* **C21**: False of the code: contents are displaced by one byte. Proved: everything else is right. Witnesses: `C21_content_refuted`.
* **C22**: False of the code when a join result is joined again; proved for receivers made by parsing. Witnesses: `C22_join_refuted`.
* **C27**: False of the code: the loop stops before UnsignedShort, so that type and anySimpleType are missing. Witnesses: `C27_complete_refuted`.
* **C28**: The exact list is proved for every document; one entry per include is false if a schema is nested in another. Witnesses: `C28_nested_refuted`.
* **C29**: Which attributes are set, and that nothing else changes, is proved for every tree; that they denote the default type is false if the schema namespace's prefix is redeclared. Witnesses: `C29_default_type_refuted`, `C29_foreign_type_refuted`.
* **C31**: False of the code for a complexType that is itself a child of a complexType in shorthand: it is moved, and the pointer to it then leads to something else. Proved if no complexType is a child of another; documents as parsed satisfy the other conditions (C31_documents_partial). Witnesses: `C31_nested_refuted`.
* **C32**: False of the code in four ways: global elements with anonymous types are changed through pointers into an array that is no longer used once the root has got a larger one (C32_stale_refuted); the second of two anonymous members of a union is skipped (C32_union_refuted); a type that the author has named _anon1 is not taken into account (C32_taken_refuted); without a prefix for the target namespace the parent gets an empty reference (C32_refers_refuted). Proved otherwise: which tree results, for each of the two passes, for any number of documents (C32_numbered_partial, C32_elements_partial, C32_documents_partial); that generated names are different (C32_distinct, C32_elements_distinct); that no anonymous type is left (C32_none_left); that the reference resolves to the type (C32_refers_partial). Witnesses: `C32_stale_refuted`, `C32_union_refuted`, `C32_taken_refuted`, `C32_refers_refuted`.
* **C33**: False for the type if the reference's scope does not declare its namespace, and for attributes with equal local names. In Normalize default types are set before references are replaced, so there every reference sets a type (C138). Witnesses: `C33_type_refuted`, `C33_override_refuted`.
* **C34**: That missing targets are reported is proved for all documents. That no reference is left is false of the code: a reference inside something that is itself referred to may be copied before it is replaced. Proved if the children of referenced elements are not references. Witnesses: `C34_stale_refuted`.
* **C36**: Flags proved for every element, with the exact condition for an error; false that malformed numbers are always reported: maxOccurs is not read if minOccurs is more than 1. Witnesses: `C36_reported_refuted`.
* **C38**: False of the code: circular derivations are accepted. Proved for hierarchies without cycles and missing bases. Witnesses: `C38_bases_refuted`.
* **C40**: False of the code: schemas with the same target namespace overwrite each other. Proved for distinct target namespaces. Witnesses: `C40_schemas_refuted`.
* **C41**: False for AllowType of xsdgen and OnlyPorts, LogLevel, LogOutput of wsdlgen; proved for every other option. Witnesses: `C41_undo_refuted`, `C41_wsdlgen_refuted`.
* **C44**: The expansion does not end if a type is its own ancestor. Proved for finite ancestries in which ancestors can be told apart by name. Witnesses: `C44_inherits_refuted`.
* **C46**: False for wildcard and character data fields; proved for types without them. Witnesses: `C46_wildcard_refuted`, `C46_text_refuted`.
* **C47**: Proved for lists of signed integers, floats and bytes; false for large unsigned integers, for strings with white space, and for item types for which the generated code does not compile. Witnesses: `C47_uints_refuted`, `C47_strings_refuted`, `C47_generated_refuted`.
* **C48**: The order of declarations is proved; false that their contents never depend on the order in which types are visited. Witnesses: `C48_order_refuted`, `C48_clash_refuted`.
* **C49**: False if a namespace has several schemas or is requested twice. Witnesses: `C49_missing_refuted`, `C49_twice_refuted`.
* **C50**: False for circular imports, which are read for ever, and for an unreadable file if no namespaces are given. Witnesses: `C50_cyclic_refuted`, `C50_unreadable_refuted`.
* **C52**: False for the attributes of the xml namespace, which have no Go type, and at the upper edge of the table; proved for all others. Witnesses: `C52_table_refuted`.
* **C53**: False for the facet length, which is not looked at; everything else proved. Witnesses: `C53_replaced_refuted`.
* **C55**: False for the action of SOAP 1.2 bindings; everything else proved for all documents. Witnesses: `C55_soap12_refuted`.
* **C57**: False of the code: only the last service's ports are kept. Witnesses: `C57_services_refuted`.
* **C59**: False of the code: the filter is never used. Witnesses: `C59_only_ports_refuted`.
* **C60**: False of the code; exact condition for the number of values proved. Witnesses: `C60_input_type_refuted`, `C60_returns_refuted`.
* **C61**: False of the code: break and break_ both become break_. Proved: never a keyword, everything else unchanged, injective otherwise. Witnesses: `C61_injective_refuted`.
* **C62**: False of the code: a carriage return between backquotes is dropped, invalid UTF-8 is not a literal. Proved for quoted literals of all strings, and for raw ones without those characters. Witnesses: `C62_string_refuted`, `C62_string_invalid_refuted`.
* **C65**: False of the code: text next to child elements is dropped. Witnesses: `C65_mixed_content_refuted`.
* **C66**: False of the code when a prefix is redeclared. Witnesses: `C66_subelement_refuted`.
* **C67**: False that the only AllowType can be undone; proved that only needed types are generated. Witnesses: `C67_undo_refuted`.
* **C71**: False of the code for types hidden from users. Witnesses: `C71_return_types_refuted`.
* **C72**: False of the code: a schema given before one it depends on can make Parse panic. Proved for schemas in order of dependency. Witnesses: `C72_no_panic_refuted`.
* **C73**: False of the code if types of different schemas have the same name. Proved for schemas with target namespaces, in order of dependency. Witnesses: `C73_order_refuted`.
* **C75**: False for plural fields of types with helpers. Witnesses: `C75_overrides_refuted`.
* **C76**: False for byte and for the unbounded integer types. Witnesses: `C76_fits_refuted`.
* **C78**: False for hexBinary and base64Binary. Witnesses: `C78_binary_refuted`.
* **C79**: False for defaults with line breaks. Witnesses: `C79_default_refuted`.
* **C80**: False without given namespaces: those found in the first run are kept. Proved if namespaces are given. Witnesses: `C80_reuse_refuted`.
* **C81**: False for times as bounds of types derived from other types, and for patterns that Go cannot compile; everything else proved. Witnesses: `C81_bounds_refuted`, `C81_pattern_refuted`.
* **C83**: False for attributes in a restriction of simple content, which are dropped. Witnesses: `C83_attributes_refuted`.
* **C84**: False for prohibited attributes and for the namespace. Witnesses: `C84_prohibited_refuted`, `C84_namespace_refuted`.
* **C85**: False for elements whose type is from another namespace; proved for types that are built in or from the target namespace. Witnesses: `C85_name_refuted`.
* **C87**: False of the code: it does not return. Proved that the only error is for missing targets. Witnesses: `C87_reported_refuted`.
* **C88**: False of the code: local declarations are found as well. Proved if no local declaration has a name that is referred to. Witnesses: `C88_toplevel_refuted`.
* **C89**: False of the code: only local names are compared. Proved for local names. Witnesses: `C89_qualified_refuted`.
* **C91**: False of the code: two types may get the same name. The rest is proved. Witnesses: `C91_distinct_refuted`.
* **C95**: False of the code: the documentation of lists is lost. The rest is proved. Witnesses: `C95_doc_refuted`.
* **C96**: False of the code for types that use themselves, when a complex type extends a simple type without adding attributes: a type may be declared whose base is not. Proved for types that do not use themselves, nested at most 1000 deep, and for types that do, if every structured type has content, attributes or a structured base; without transformations. Witnesses: `C96_closed_refuted`.
* **C101**: False of the code: for a complex type without attributes derived from an enumeration, NameOf answers with a name that is not declared. Proved where complex types derived from simple ones have attributes. The other conditions are derived from conditions on the schemas. Witnesses: `C101_usable_refuted`.
* **C102**: False of the code for types that are not selected: NameOf changes types. Proved for selected types, under the condition of C101, and for built-in types. Witnesses: `C102_stable_refuted`.
* **C103**: False of the code: documentation after another child is lost, and so is all text of documentation with markup. Proved for documentation elements that come first and contain no elements; references, CDATA sections and comments are covered. Witnesses: `C103_docs_refuted`, `C103_markup_refuted`.
* **C104**: False of the code: attributes after arrayType are lost, and the generator panics if the base type has no attributes. Proved for the other cases. Witnesses: `C104_attributes_refuted`, `C104_panic_refuted`.
* **C105**: False of the code for every tag that has the key, and for fields without a tag (the test for nil is inverted). True where the tag does not have the key. Witnesses: `C105_tag_refuted`.
* **C106**: False of the code for arrays of dates, whose methods are declared twice. Proved for declarations without such methods. Witnesses: `C106_slice_refuted`.
* **C107**: False of the code: the error of an item is overwritten by the next token. Proved if all items can be decoded. Witnesses: `C107_items_refuted`.
* **C99**: False of the code for lists of QName, of dates and times, and of UnsignedLong. Proved for items of every other built-in type and of all types derived from them, since the generator replaces the type of the items by the built-in one. Witnesses: `C99_compiles_refuted`.
* **C100**: False of the code for a type that restricts a list by a facet, which is declared as one item. Proved for types that are lists themselves and share their Go name with no other type. Witnesses: `C100_slice_refuted`.
* **C109**: False of the code for a complex type that only renames an enumeration, and for types of namespaces that are not selected. Proved for parts that refer to selected types, to built-in types, or to elements of such types, and messages with usable names. Witnesses: `C109_types_refuted`.
* **C110**: False of the code: two ports for one port type give every method twice, a message with many parts that two operations use is declared twice, and a type named client clashes with Client. Proved when the names differ. Witnesses: `C110_once_refuted`.
* **C111**: False of the code for all ten types: the field has the type that users see. Proved: users see the documented type. Witnesses: `C111_private_refuted`.
* **C113**: False of the code: the field is named after the part, in the target namespace. Proved: it is the element exactly if that is the name of the element. Witnesses: `C113_element_refuted`.
* **C114**: False of the code for parts named like the receiver, the context, a variable of the body, a package or type in use, and for type and type_. Proved for all other names. Witnesses: `C114_parameters_refuted`.
* **C115**: False of the code for names with hyphens or periods, for names that begin with an underscore, and for names that differ in the case of the first letter. Proved for names of ASCII letters, digits and underscores that begin with a letter and differ otherwise. Witnesses: `C115_fields_refuted`.
* **C116**: False of the code: of several wildcards the first remains, and minOccurs=0 is dropped. Proved for one wildcard: plural, type and position. Witnesses: `C116_wildcard_refuted`.
* **C117**: False of the code: the annotation of a type and that of its content are run together, annotations of an extension are lost, and an annotation without text leaves a blank line. Proved for elements, attributes, simple types and restrictions, and for complex types with annotations at one of the two places. Witnesses: `C117_doc_refuted`.
* **C118**: False of the code: fields keep the type that was replaced, and it is still declared. Proved: the types that generation starts from are those returned. Witnesses: `C118_replaced_refuted`.
* **C119**: False: the field for the message has no tag, so only elements called Message are decoded; all other content is ignored. Proved for operations of that name. Witnesses: `C119_results_refuted`.
* **C121**: False: there is no Content-Type, the SOAP action is not quoted, and the body has one more layer than either style. What requests are is proved. Witnesses: `C121_media_type_refuted`, `C121_action_refuted`, `C121_style_refuted`.
* **C122**: False for methods other than POST and PUT, which drop the arguments; proved for these two. Witnesses: `C122_arguments_refuted`.
* **C123**: False: the status of the response is ignored. Proved for the rest. Witnesses: `C123_status_refuted`.
* **C125**: False for attributes in a namespace called xmlns, which are lost, for white space in attribute values, which XML turns into spaces, for entities that the document declares and for some processing instructions inside document type declarations. Proved for documents without such a namespace and such entities and instructions, with line ends as the only change to white space. Witnesses: `C125_foreign_refuted`, `C125_spaces_refuted`, `C125_entity_refuted`, `C125_instruction_refuted`.
* **C126**: False of the code: bufio.Scanner stops at a line longer than 65535 bytes, and that line and everything after it is dropped without an error. Proved for texts without such a line (C64_text_kept). Witnesses: `C126_long_lines_refuted`.
* **C127**: False for two settings: namespaces and FollowImports that were configured before are overwritten even if -ns and -f are not given. Everything else is proved, for every way of writing the flags. Witnesses: `C127_kept_refuted`.
* **C129**: False of the code: -ns hides nothing, it only adds built-in schemas. What is printed is proved. Witnesses: `C129_only_refuted`.
* **C130**: False for attributes in a namespace that is also the default one, for namespaces with a prefix that was declared again, and for attribute values that need escaping. Proved where all prefixes a namespace was ever given still stand for it. Witnesses: `C130_default_refuted`, `C130_shadow_refuted`, `C130_quote_refuted`, `C130_return_refuted`.
* **C131**: False for optional elements that are absent or have the value 0, wildcards, repeated bytes, choices and dates, dates before other elements, qualified names, names with an underscore, mixed content, nil, elements that are not qualified (the default), attributes qualified by default, attributes with the same local name, names t, and values passed without a pointer. Proved for all other documents, up to the order of attributes and the place of dates. Witnesses: `C131_absent_refuted`, `C131_zero_refuted`, `C131_any_refuted`, `C131_repeated_refuted`, `C131_dates_refuted`, `C131_order_refuted`, `C131_qname_refuted`, `C131_unexported_refuted`, `C131_mixed_refuted`, `C131_nil_refuted`, `C131_value_refuted`, `C131_form_refuted`, `C131_embedded_refuted`, `C131_attrs_refuted`, `C131_octets_refuted`, `C131_tokens_refuted`.
* **C134**: False: an element that is not repeated and has the type it is in becomes a field of the type of the struct itself. Proved: this is the only way, for schema types with distinct names. Witnesses: `C134_refuted`.
* **C135**: False: the default is only mentioned in a comment of the generated method. Proved: fields of what is absent keep their value. Witnesses: `C135_refuted`.
* **C136**: False for groups that are repeated or may be left out, for names declared twice, for sequences in sequences of a choice, and for groups that a choice refers to. Proved for all content models without these (Ordinary). Witnesses: `C136_repeated_refuted`, `C136_left_out_refuted`, `C136_twice_refuted`, `C136_deep_refuted`, `C136_group_refuted`.
* **C137**: False: groups are unpacked after the alternatives of choices have been made optional, so the elements of a group that a choice refers to become optional the second time. Proved: schemas in canonical form stay as they are, and the second Normalize changes nothing for schemas whose references lead to declarations without contents and whose global declarations have no anonymous types (C137_neat_partial). Witnesses: `C137_idempotent_refuted`.
* **C138**: False: default types are filled in before references are replaced, and the attributes of a reference take precedence, so references are of type anyType or anySimpleType. Proved: this is the type of every reference without a type, and a type that the reference itself sets is kept. Witnesses: `C138_refuted`.
* **C139**: False: flatten1 overwrites the documentation by a sentence on the first restriction of the type itself that it finds; the other restrictions, those of the base types, and the documentation of types that get no declaration are not told. Proved: for every type that gets a declaration and is no list, the comment is the documentation if the type is a union or needs methods, and otherwise tells all enumerated values, or the pattern, or the greatest length, or the least, the first of these that there is. Witnesses: `C139_documentation_refuted`, `C139_restrictions_refuted`, `C139_base_refuted`, `C139_declaration_refuted`.
* **C140**: False of types without a name that contain a blank, which are cut there, and of lists of which the first text is empty, which are ignored. Proved for all others. Witnesses: `C140_blank_refuted`, `C140_channel_refuted`, `C140_first_refuted`.
* **C141**: False: the package comment is removed from the file, so that it is missing the second time, and the source depends on the name of the program. Proved: the lines of the source, and that nothing else of the path of the program matters. Witnesses: `C141_again_refuted`, `C141_name_refuted`, `C141_program_refuted`.
* **C142**: False of replacements with line breaks, of values with commas and of no value. Proved for all others. Witnesses: `C142_rules_refuted`, `C142_strings_refuted`.
* **C143**: False of parts given by an element, for which nothing is shown. Proved: the lines, with the types of the parts. Witnesses: `C143_element_refuted`.
* **C144**: False: only the first document is parsed as a WSDL document. Proved for the operations of the first. Witnesses: `C144_refuted`.
* **C145**: False of text beside elements, which is lost, of prefixes that are declared again and of values that must be escaped. Proved for all elements of other documents that use no entities of their own. Witnesses: `C145_mixed_refuted`, `C145_shadow_refuted`, `C145_escape_refuted`.
* **C146**: False: the element at fault is never part of the place, so that errors in different declarations of a type look the same; the type is not named if its own attributes are at fault; for top-level elements a type _self is named. Proved: there is an error exactly if types cannot be read; it is about one element of the normalized schema, and the place consists of elements around it. Witnesses: `C146_never_refuted`, `C146_same_refuted`, `C146_nowhere_refuted`, `C146_self_refuted`.
* **C147**: False: with several missing types the error depends on the order of a map, and types without a name and top-level elements are given under names that the schema does not contain. Proved for all orders: Parse fails exactly if there is an error; if all types can be read it names a type that is neither built in nor was read, and a use of it. Witnesses: `C147_order_refuted`, `C147_invented_refuted`.
* **C148**: False of the code: flatten1 visits a type again each time it is used, down to a depth of 1000, so that more than 2^1000 types are collected for a type with two elements of the type itself, and more than 2^k for k+1 nested types. Proved if each structured type refers to at most one structured type, in one place. Witnesses: `C148_tree_refuted`, `C148_chain_refuted`.
* **C149**: False if the target namespace has no prefix: types get names to which their elements refer by an empty string (C149_prefix_refuted). False for global elements with anonymous types: some keep them (C149_global_refuted). Proved for the whole of Normalize, on one memory and for any number of documents, for schemas whose references lead to global declarations without contents (Linked), and whose global declarations have no anonymous types of their own; references are replaced as C33 says (DocRelinked). Witnesses: `C149_prefix_refuted`, `C149_global_refuted`.
* **C150**: False if the target namespace has no prefix: the element gets any type, silently (C150_prefix_refuted). False without a target namespace if the default namespace is that of XML Schema: an element named string with a type of integers becomes a string (C150_default_refuted). Proved for the passes that move types, in the whole of Normalize, for schemas that have a target namespace with a prefix, whose global declarations have no anonymous types and which use none of the names that Normalize gives; references may lead to global declarations without contents. Witnesses: `C150_prefix_refuted`, `C150_default_refuted`.
* **C151**: False for limits of times without a time zone (C151_zone_refuted) and for limits of durations (C151_duration_refuted), which XML Schema allows; false if a type is derived from one of a later schema (C72). Proved, through the whole of Normalize and Parse, for schemas without groups whose references lead to global declarations without contents, that have a target namespace with a prefix, whose global declarations have no anonymous types, and in which types are derived from types of the same or an earlier schema. Witnesses: `C151_zone_refuted`, `C151_duration_refuted`.
* **C153**: Proved for orderly and regular schemas whose types are derived from built-in types, with fields of types of XML Schema, and without lists of the types named in unlisted; in C153_schemas_partial, all conditions but that on the options are conditions on the documents, and C153_default shows that the options of the command meet that one for types that are not anonymous and not SOAP arrays. C153_booleans_refuted: a list of booleans, which Parse accepts, makes GenCode fail. C153_lists: of all built-in types, exactly those in unlisted do. Witnesses: `C153_booleans_refuted`.
* **C154**: False: an operation without output (WSDL 1.1, section 2.4.1) makes the whole generation fail, and so does a part that names an element whose type is from another namespace. Proved for operations with input and output; C154_files_partial has conditions on the documents alone, besides that on the options. Witnesses: `C154_one_way_refuted`, `C154_foreign_refuted`.
* **C155**: False for several documents with the same target namespace, of which only the last one counts. Proved for documents with different target namespaces that define no type twice. Witnesses: `C155_types_refuted`.
* **C156**: Proved for orderly, regular schemas whose types are derived as they should be (Orderly, Regular, Derivable), with options that change no types beforehand and no declarations afterwards (C156_altered_partial lets them change structs whose only field is a slice, C156_default_partial is for the options of the command xsdgen), whichever elements and attributes the options IgnoreElements and IgnoreAttributes leave out, for types whose Go name is not that of another type or of a helper. C156_refuted shows that the last condition is needed: of two types t and T only one is declared. Witnesses: `C156_refuted`.
* **C157**: Proved for orderly, regular schemas whose types are derived as they should be (Orderly, Regular, Derivable), with options that change no types beforehand, and afterwards no declarations except structs whose only field is a slice (C157_default_partial shows it for the options of the command xsdgen), for types whose Go name is not that of another type or of a helper. C157_refuted shows that the last condition is needed: of a list t and a union T only the union is declared. Witnesses: `C157_refuted`.
* **C158**: Proved for orderly and regular schemas whose types are derived from built-in types (Orderly, Regular, Grounded); the number of steps that loops over base types need is at most the number of types and three. C158_panic_refuted: Parse accepts a simple type that is not defined by anything, and GenCode panics in flatten1 if something is of that type. C158_runs_refuted: Parse accepts two simple types that are derived from each other, and the loop over base types in flatten1 does not end. Witnesses: `C158_panic_refuted`, `C158_runs_refuted`.
* **C159**: Proved for orderly, regular schemas whose types are derived as they should be (Orderly, Regular, Derivable), with options that change no types beforehand, and afterwards no declarations except structs whose only field is a slice, for restrictions of types that are not derived from a built-in type that xsdgen has a type with methods for, by values, or by lengths without values and patterns, and whose Go name is not that of another type or of a helper. C159_dates_refuted and C159_names_refuted show that the last two conditions are needed: the comment on an enumeration of dates does not tell the dates, and of the enumerations a and A only one is declared. Witnesses: `C159_dates_refuted`, `C159_names_refuted`.
* **C160**: Proved for orderly, regular schemas whose types are derived as they should be (Orderly, Regular, Derivable), with options that change no types beforehand and no declarations afterwards (C160_altered_partial lets them change structs whose only field is a slice, C160_default_partial is for the options of the command wsdlgen), whichever elements and attributes the options IgnoreElements and IgnoreAttributes leave out, for types whose Go name is not that of another type, of a helper or of a type that opArgs hides. C160_refuted shows that the condition on other types is needed: a function that is given a t and a T takes two values of the one struct that is declared. C160_simple_partial is the same for simple types. Witnesses: `C160_refuted`.

## Not modelled

These functions of /repo have no counterpart in the model. Properties say nothing about them.

- Parsing and printing of Go: in internal/gen `TypeDecl`, `ToString`, `Public`, `SimpleType`, `Declarations`, `Snippets`, `parseBlock`,
  `ExprString`, the templates of `BodyTmpl`, and what go/parser, go/format and imports.Process do (parameters of C140 and C141); in xsdgen and wsdlgen `GenSource` and `exprString`. The bodies of generated methods are modelled
  only where a property is about them: as functions on the data they read and write (C47, C77-C79, C107), and as statements
  with their types for lists (C99). The body of a function that wsdlgen generates is modelled as the names, types, tags and values
  in it (C112-C115), and as a function from arguments to requests and from responses to results (C119-C124), for which documents
  are trees of elements and text, without attributes; contexts are not modelled.
- Log output (`logf`, `verbosef`, `debugf`), error texts other than those of `xsd.Parse` after normalizing (C146, C147), and `String` methods other than those of wsdl and of the flags.
- In xmltree `Encode` to a writer, `String`, and the methods of sort.Interface other than `Less`.
- Of documents: what a document type declaration says, beyond where it ends (references to entities it declares are errors), and encodings
  other than UTF-8.
- In xsd the methods of the unexported error and marker types, and `parsePattern` (patterns are kept as their source).
- File and network access (a parameter of the model), the printing of xsdparse, the usage messages of the commands, `_testgen`, generated examples
  and third-party schema files.
- The Go standard library, except for the parts of encoding/xml, strings and strconv that the model defines; the rest is a parameter
  (`Unicode`, `Env`, `ParseEnv`, `Sorter`) and theorems hold for all values of it.

## Axioms per theorem

As printed by `#print axioms`, for the theorems in `MANIFEST.json`.

### Classical.choice, Quot.sound, propext

C01_attr_first_match, C02_setAttr_effect, C04_joinScope_resolve, C08_parse_mirrors, C08_parse_positions, C09_content_exact, C10_depth_limit, C11_scope_path, C11_scope_nearest_partial, C12_searchFunc, C12_flatten, C12_search, C14_marshal_parse, C14_marshal_parse_perm, C14_marshal_stable, C15_escaping_partial, C25_len_distinct_targets, C26_standard_names, C27_appended_partial, C28_imports, C28_includes_once_partial, C29_attribute_default, C29_element_default, C29_denotes_partial, C29_documents, C30_choices, C30_documents, C31_expanded_partial, C31_documents_partial, C31_explicit, C31_again, C31_nested_refuted, C32_numbered_partial, C32_documents_partial, C32_distinct, C32_none_left, C32_elements_partial, C32_elements_distinct, C32_taken_refuted, C33_deref, C33_ref_removed, C34_resolved_partial, C34_stale_refuted, C35_merged, C36_flags, C36_reported_partial, C37_replaced, C37_fails_iff, C37_order, C37_parse, C38_bases_partial, C39_mixed, C39_order, C39_again, C40_schemas_partial, C44_inherits_partial, C44_order_partial, C46_names_partial, C46_chosen_partial, C48_printed_partial, C48_order_partial, C48_order_refuted, C49_missing_partial, C50_order_partial, C50_unreadable_partial, C53_replaced_partial, C54_complete, C58_thresholds, C58_success, C60_consistent_partial, C62_literal_unique, C62_quote, C62_string_partial, C66_subelement_partial, C67_needed_partial, C68_marshal_terminates, C68_tree_output, C72_no_panic_partial, C72_single_partial, C73_order_partial, C76_fits_partial, C82_base, C83_complex, C83_simple_partial, C87_error_iff, C88_toplevel_partial, C88_toplevel_refuted, C92_kept, C92_replaced, C94_methods, C95_simple_partial, C96_closed_partial, C96_recursive_partial, C96_few, C96_list_generated, C96_documents_partial, C97_declared, C97_documents, C98_helpers, C101_usable_partial, C101_builtin_partial, C101_documents_partial, C102_stable_partial, C102_documents_partial, C103_docs_partial, C103_docs_refuted, C106_slice_partial, C99_file_partial, C99_documents_partial, C100_slice_partial, C100_documents_partial, C108_means, C108_altered, C109_types_partial, C109_documents_partial, C111_public_partial, C111_documents_partial, C116_wildcard_partial, C119_results_partial, C125_parse_partial, C130_rewrite_partial, C131_kept_partial, C131_generated_partial, C132_unknown, C133_order, C134_recursive_partial, C135_absent_partial, C136_flags_partial, C137_canonical_partial, C137_neat_partial, C138_default_partial, C138_own_partial, C139_comment_partial, C140_declared_partial, C140_constants_panic, C142_rules_partial, C145_portion_partial, C146_place_partial, C146_error_partial, C146_told_partial, C147_named_partial, C147_some_partial, C148_collected_partial, C149_canonical_partial, C149_passes_partial, C149_schemas, C149_linked, C149_unlinked, C150_moved_partial, C151_accepts_partial, C151_zone_refuted, C151_duration_refuted, C152_unknown, C153_types_partial, C153_documents_partial, C153_schemas_partial, C153_booleans_refuted, C153_sound_partial, C154_functions_partial, C154_documents_partial, C154_schemas_partial, C154_files_partial, C155_complex_partial, C155_simple_partial, C155_elements_partial, C155_content_partial, C156_struct_partial, C156_altered_partial, C156_default_partial, C157_simple_partial, C157_default_partial, C158_answers_partial, C158_unlisted, C159_comment_partial, C160_functions_partial, C160_simple_partial, C160_altered_partial, C160_default_partial

### Quot.sound, propext

C03_resolveNS, C03_resolveNS_false_iff, C06_prefix_favoured, C06_prefix_inverse_partial, C06_prefix_inverse_unique_partial, C06_prefix_inverse_reserved, C07_prefix_unknown_refuted, C07_prefix_unknown_partial, C11_foreign_xmlns_refuted, C13_diffScope, C15_escaping_refuted, C15_injection_refuted, C16_layout_partial, C17_reflexive_refuted, C17_deep_refuted, C17_reflexive_iff_partial, C18_symmetric_refuted, C18_symmetric_partial, C19_order_refuted, C19_order_partial, C20_no_mutation_refuted, C20_only_reorders_partial, C20_repeatable_partial, C21_content_refuted, C21_charset_partial, C22_new_scope, C22_full_receiver_partial, C22_parsed_receivers_partial, C23_flatten_visits_once, C24_flatten_topological, C24_flatten_acyclic, C25_flatten_edge_set, C26_parse_name, C26_parse_only, C26_names_distinct, C27_complete_refuted, C27_complete_partial, C31_unchanged, C32_refers_partial, C32_stale_refuted, C32_union_refuted, C32_refers_refuted, C33_type_partial, C34_missing, C36_plural, C36_reported_refuted, C38_bases_refuted, C38_findType_partial, C40_schemas_refuted, C41_undo_partial, C41_allowType_partial, C41_undo_refuted, C41_last_partial, C41_wsdlgen_partial, C41_wsdlgen_refuted, C42_replace_in_order, C42_undo, C43_dedup, C43_flatten, C44_inherits_refuted, C45_merge, C46_wildcard_refuted, C46_text_refuted, C47_ints, C47_uints_partial, C47_uints_refuted, C47_strings_partial, C47_floats, C47_generated_refuted, C47_methods, C47_codec, C47_derived, C48_sorted, C48_clash_refuted, C50_ends_partial, C50_unreadable_refuted, C51_ignore_attributes, C51_ignore_elements, C52_table_partial, C52_table_refuted, C52_helpers, C52_methods, C53_collapse, C53_replaced_refuted, C54_messages, C55_operations_partial, C55_unique_partial, C56_method, C57_single_partial, C61_injective_partial, C62_string_refuted, C62_string_invalid_refuted, C63_replace_set, C63_command_line_order, C64_comment_lines, C64_function_comment, C64_text_kept, C65_mixed_content_refuted, C66_subelement_refuted, C67_undo_refuted, C69_equal_sound, C69_equal_complete, C70_port_address, C71_return_types_partial, C72_no_panic_refuted, C73_order_refuted, C74_fields, C75_overrides_partial, C75_overrides_refuted, C76_fits_refuted, C77_hex, C77_base64, C77_hex_case, C78_times_partial, C79_default_partial, C80_reuse_partial, C80_reuse_refuted, C81_facets, C81_bounds_partial, C81_pattern_partial, C81_fails_iff, C82_simple, C83_attributes_refuted, C84_attribute_partial, C84_prohibited_refuted, C84_namespace_refuted, C85_type, C85_name_partial, C85_name_refuted, C85_home_partial, C86_find, C87_reported_refuted, C89_only_partial, C89_qualified_refuted, C90_in_order, C90_calls, C91_named_partial, C91_others, C91_all_named, C91_distinct_refuted, C93_struct, C95_doc_refuted, C96_closed_refuted, C101_usable_refuted, C102_stable_refuted, C103_markup_refuted, C104_array_partial, C104_other_partial, C104_attributes_refuted, C104_panic_refuted, C106_slice_refuted, C99_compiles_partial, C99_compiles_refuted, C100_slice_refuted, C109_types_refuted, C110_once_partial, C110_once_refuted, C111_private_refuted, C112_body, C113_element_partial, C114_parameters_partial, C115_fields_partial, C116_wildcard_refuted, C117_simple_partial, C117_restriction_partial, C117_complex_partial, C117_doc_refuted, C118_start_partial, C118_replaced_refuted, C119_ignored, C119_results_refuted, C120_faults, C121_request_partial, C121_action_refuted, C121_style_refuted, C122_arguments_partial, C125_foreign_refuted, C125_spaces_refuted, C125_entity_refuted, C125_instruction_refuted, C126_long_lines_refuted, C127_configures_partial, C127_rejected, C127_kept_refuted, C127_defaults, C128_configures, C128_rejected, C128_defaults, C128_in_order, C130_default_refuted, C130_shadow_refuted, C130_quote_refuted, C130_return_refuted, C131_absent_refuted, C131_zero_refuted, C131_any_refuted, C131_repeated_refuted, C131_dates_refuted, C131_order_refuted, C131_qname_refuted, C131_unexported_refuted, C131_mixed_refuted, C131_nil_refuted, C131_value_refuted, C131_form_refuted, C131_embedded_refuted, C131_attrs_refuted, C131_octets_refuted, C131_tokens_refuted, C133_attrs, C134_refuted, C135_refuted, C136_repeated_refuted, C136_left_out_refuted, C136_twice_refuted, C136_deep_refuted, C136_group_refuted, C137_idempotent_refuted, C138_refuted, C139_documentation_refuted, C139_restrictions_refuted, C139_base_refuted, C139_declaration_refuted, C140_blank_refuted, C141_documented, C143_listed_partial, C144_first_partial, C144_refuted, C145_mixed_refuted, C145_shadow_refuted, C145_escape_refuted, C146_never_refuted, C146_same_refuted, C146_nowhere_refuted, C146_self_refuted, C147_order_refuted, C147_invented_refuted, C148_tree_refuted, C148_chain_refuted, C149_prefix_refuted, C149_global_refuted, C150_prefix_refuted, C150_default_refuted, C153_default, C153_lists, C154_messages, C154_one_way_refuted, C154_foreign_refuted, C155_types_refuted, C156_refuted, C157_refuted, C158_panic_refuted, C158_runs_refuted, C159_dates_refuted, C159_names_refuted, C160_refuted

### none

C06_prefix_inverse_refuted_default, C28_nested_refuted, C33_type_refuted, C33_override_refuted, C47_strings_refuted, C47_bytes, C77_time, C79_default_refuted, C81_bounds_refuted, C81_pattern_refuted, C105_tag_partial, C107_items_refuted, C140_channel_refuted, C140_first_refuted, C142_rules_refuted, C142_strings_refuted, C143_element_refuted

### propext

C02_attr_setAttr, C02_attr_setAttr_other, C02_setAttr_idem, C03_qname_split_unique, C04_joinScope_assoc, C05_resolveDefault, C06_prefix_inverse_refuted, C13_path_declarations, C16_prefix_refuted, C22_join_refuted, C29_default_type_refuted, C29_foreign_type_refuted, C49_missing_refuted, C49_twice_refuted, C50_cyclic_refuted, C51_no_filter, C55_soap12_refuted, C57_services_refuted, C57_services_partial, C59_only_ports_refuted, C59_generated_partial, C60_input_type_refuted, C60_returns_refuted, C61_sanitize_partial, C61_injective_refuted, C63_strings_set, C65_leaf_content_partial, C71_return_types_refuted, C78_base64_partial, C78_binary_refuted, C90_types, C90_sees, C105_tag_refuted, C107_items_partial, C113_element_refuted, C114_parameters_refuted, C115_fields_refuted, C121_media_type_refuted, C122_arguments_refuted, C123_success_partial, C123_status_refuted, C124_hooks, C128_package, C129_only_refuted, C129_printed_partial, C140_reported, C140_constants, C141_marked_partial, C141_again_partial, C141_directory, C141_named, C141_again_refuted, C141_name_refuted, C141_program_refuted, C142_strings_partial
