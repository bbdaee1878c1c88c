{"id": "C01", "title": "Attr returns the first matching attribute", "statement": "Element.Attr(space, local) returns the value of the first attribute whose local name is local and whose namespace is space (any namespace if space is empty), and the empty string exactly when there is no such attribute or its value is empty.", "quantifier": "every element with any list of attributes (duplicates and clashing namespaces included), every space, every local", "why_tests_cant": "the attribute list is unbounded and the answer depends on order and on shadowing by earlier attributes; a test fixes a handful of lists", "anchors": ["xmltree/xmltree.go: Element.Attr"]}
{"id": "C02", "title": "SetAttr is a well-behaved store", "statement": "After SetAttr(space, local, v), Attr(space, local) returns v; every attribute that SetAttr does not address keeps its name, its value and its position; at most one attribute is added and none is removed; lookups under a different local name are unchanged; repeating the call changes nothing.", "quantifier": "every element, every pair of (space, local) keys, every sequence of calls", "why_tests_cant": "interaction of wildcard (empty) namespaces with existing attributes ranges over all lists and keys", "anchors": ["xmltree/xmltree.go: Element.SetAttr", "xmltree/xmltree.go: Element.Attr"]}
{"id": "C03", "title": "ResolveNS uses the innermost declaration", "statement": "ResolveNS splits a QName at its first colon, maps the prefixes xml and xmlns to their fixed namespaces, and otherwise returns the namespace of the innermost declaration of that prefix (the default namespace for an unprefixed name); the boolean is false, and the prefix itself is returned as namespace, exactly when no declaration of the prefix is in scope. Resolve returns the same name.", "quantifier": "every scope (any nesting and redeclaration of prefixes) and every byte string used as QName", "why_tests_cant": "scopes are unbounded lists with arbitrary shadowing; strings with no, one or many colons", "anchors": ["xmltree/xmltree.go: Scope.ResolveNS", "xmltree/xmltree.go: Scope.Resolve"]}
{"id": "C04", "title": "JoinScope searches the argument before the receiver", "statement": "Resolving any QName in outer.JoinScope(inner) gives what inner gives if inner declares the prefix (or the prefix is reserved), and otherwise what outer gives; prefix resolvability is the disjunction of the two.", "quantifier": "all pairs of scopes, all QNames; also associativity over chains of joins", "why_tests_cant": "quantifies over pairs of unbounded scopes and all prefixes", "anchors": ["xmltree/xmltree.go: Scope.JoinScope", "xmltree/xmltree.go: Scope.ResolveNS"]}
{"id": "C05", "title": "ResolveDefault overrides only the default namespace", "statement": "ResolveDefault(q, ns) equals {ns, q} when q has no colon and ns is non-empty, and equals Resolve(q) otherwise; so prefixed names are never affected by the override.", "quantifier": "every scope, QName and default namespace", "why_tests_cant": "all strings, including those with a leading, trailing or repeated colon", "anchors": ["xmltree/xmltree.go: Scope.ResolveDefault"]}
{"id": "C06", "title": "Prefix is the inverse of Resolve", "statement": "If a namespace is declared in a scope, Resolve(Prefix(name)) returns name.", "quantifier": "every scope and every name whose namespace is declared in it", "why_tests_cant": "shadowed prefixes and redeclared defaults only appear in particular nestings, and any nesting is possible", "anchors": ["xmltree/xmltree.go: Scope.Prefix", "xmltree/xmltree.go: Scope.Resolve"]}
{"id": "C07", "title": "Prefix of an undeclared namespace is the unqualified name", "statement": "Prefix(name) returns the unqualified local name if the namespace cannot be found in the scope (as its doc comment says), so its result is never empty for a non-empty local name.", "quantifier": "every scope and every name", "why_tests_cant": "ranges over all scopes and namespaces, including ones absent from the scope", "anchors": ["xmltree/xmltree.go: Scope.Prefix"]}
{"id": "C08", "title": "Parse mirrors the document tree", "statement": "For every well-nested XML document of permitted depth Parse succeeds, and the tree has exactly one Element per XML element, with the same name, the non-namespace attributes in document order, and the children in document order; comments, processing instructions and character data create no Element, and nothing after the root's end tag changes the result.", "quantifier": "every well-nested document: any depth up to the limit, any fan-out, any interleaving of text and markup", "why_tests_cant": "an unbounded recursive structure; tests check a few files", "anchors": ["xmltree/xmltree.go: Parse", "xmltree/xmltree.go: Element.parse"]}
{"id": "C09", "title": "Content is the exact source between the tags", "statement": "Each Element's Content after Parse is exactly the bytes of the source document strictly between the end of its start tag and the beginning of its end tag.", "quantifier": "every well-nested UTF-8 document and every element in it", "why_tests_cant": "offset arithmetic must be right for every nesting and every token length, self-closing tags included", "anchors": ["xmltree/xmltree.go: Element.parse"]}
{"id": "C10", "title": "Nesting limit", "statement": "Parse returns the 'too deeply nested' error for a document with elements nested deeper than the recursion limit, and never for a document within the limit.", "quantifier": "every well-nested document", "why_tests_cant": "the limit is in the thousands, and the offending element can be anywhere in the tree", "anchors": ["xmltree/xmltree.go: recursionLimit", "xmltree/xmltree.go: Element.parse"]}
{"id": "C11", "title": "Scope of every element is what XML namespaces prescribe", "statement": "After Parse, each element's scope is its parent's scope followed by the element's own xmlns declarations; xmlns attributes appear only in the scope and all other attributes only in the attribute list, so resolving any prefix at an element finds the declaration on its nearest ancestor-or-self that declares it.", "quantifier": "every document, every element, every prefix", "why_tests_cant": "requires an invariant along every root-to-node path of an arbitrary tree", "anchors": ["xmltree/xmltree.go: Scope.pushNS", "xmltree/xmltree.go: Element.parse"]}
{"id": "C12", "title": "SearchFunc returns matching descendants in document order", "statement": "SearchFunc(fn) returns exactly the proper descendants on which fn is true, each once, in depth-first document order; Flatten returns all of them and Search(space, local) those with that name.", "quantifier": "every tree and every predicate", "why_tests_cant": "arbitrary tree shapes and predicates", "anchors": ["xmltree/xmltree.go: Element.SearchFunc", "xmltree/xmltree.go: Element.Search", "xmltree/xmltree.go: Element.Flatten"]}
{"id": "C13", "title": "Marshal re-declares exactly the missing namespaces", "statement": "The namespace declarations Marshal writes on an element are those of its scope that its parent's scope does not already start with, so that the declarations written on the path from the root to an element, joined, are again that element's scope whenever scopes are nested as Parse makes them.", "quantifier": "every tree with nested scopes, every element of it, including a subtree marshalled on its own", "why_tests_cant": "an invariant over every path of an unbounded tree", "anchors": ["xmltree/marshal.go: diffScope", "xmltree/marshal.go: encoder.encode"]}
{"id": "C14", "title": "Parse after Marshal returns the same tree", "statement": "Parsing the output of Marshal yields a tree with the same names, attributes, scopes and children, and the same content for elements without children, for every tree that can be written in XML.", "quantifier": "all element trees up to the nesting limit whose names, attribute values and leaf content need no escaping", "why_tests_cant": "an encode/decode round trip over all trees", "anchors": ["xmltree/marshal.go: Marshal", "xmltree/marshal.go: tagTmpl", "xmltree/xmltree.go: Parse"]}
{"id": "C15", "title": "Marshal output is well-formed whatever the attribute values", "statement": "Parsing a document and marshalling the result gives a document with the same attribute values, also when the values contain quotes, ampersands or less-than signs (written as entities in the source).", "quantifier": "all attribute values", "why_tests_cant": "the space of strings; the failing characters are easily missed", "anchors": ["xmltree/marshal.go: tagTmpl", "xmltree/marshal.go: Marshal"]}
{"id": "C16", "title": "MarshalIndent only adds layout", "statement": "MarshalIndent's output starts each line with prefix and differs from Marshal's only in white space added between tags.", "quantifier": "every tree, prefix and indent string", "why_tests_cant": "ranges over all trees and layout strings", "anchors": ["xmltree/marshal.go: MarshalIndent", "xmltree/marshal.go: encoder.encodeOpenTag", "xmltree/marshal.go: encoder.encodeCloseTag"]}
{"id": "C17", "title": "Equal is reflexive", "statement": "Equal(a, a) is true for every tree that Parse can return.", "quantifier": "every parsed tree", "why_tests_cant": "includes very deep trees and elements with repeated attributes", "anchors": ["xmltree/compare.go: Equal", "xmltree/compare.go: equalElement"]}
{"id": "C18", "title": "Equal is symmetric", "statement": "Equal(a, b) = Equal(b, a).", "quantifier": "every pair of trees", "why_tests_cant": "pairs of unbounded trees; asymmetry only shows when one side has extra attributes", "anchors": ["xmltree/compare.go: Equal", "xmltree/compare.go: equalElement"]}
{"id": "C19", "title": "Equal ignores the order of sub-elements", "statement": "Equal(a, b) is unchanged when the children of any element of b are permuted.", "quantifier": "every pair of trees and every permutation of siblings at any level", "why_tests_cant": "all permutations of all trees", "anchors": ["xmltree/compare.go: equal", "xmltree/compare.go: byName"]}
{"id": "C20", "title": "Equal does not change what it compares", "statement": "After Equal(a, b), both trees have the same children in the same order as before.", "quantifier": "every pair of trees", "why_tests_cant": "mutation through shared slices is only visible for children out of order", "anchors": ["xmltree/compare.go: equal"]}
{"id": "C21", "title": "Content is right for transcoded documents", "statement": "For a document in a non-UTF-8 encoding, each Element's Content is the UTF-8 text between its tags, and the document parses whatever follows the XML declaration.", "quantifier": "every document with an encoding declaration handled by the charset reader", "why_tests_cant": "off-by-one offsets need content checks on every element of a transcoded document", "anchors": ["xmltree/xmltree.go: Parse (CharsetReader)"]}
{"id": "C22", "title": "Scopes are independent values", "statement": "Creating a new scope (by parsing further elements or by JoinScope) never changes what an existing scope resolves.", "quantifier": "every history of Parse and JoinScope calls, every append growth policy", "why_tests_cant": "depends on spare capacity of shared backing arrays, invisible in small tests", "anchors": ["xmltree/xmltree.go: Scope.JoinScope", "xmltree/xmltree.go: Scope.pushNS", "xsd/parse.go: deref"]}
{"id": "C23", "title": "Flatten visits every vertex exactly once", "statement": "Graph.Flatten calls walk exactly once for every vertex that was ever passed to Add, as target or as dependency, and for nothing else, whatever cycles the graph has; it terminates.", "quantifier": "every sequence of Add calls", "why_tests_cant": "all finite graphs, cycles and self-loops included", "anchors": ["internal/dependency/graph.go: Graph.Flatten", "internal/dependency/graph.go: Graph.Add"]}
{"id": "C24", "title": "Flatten is a topological order", "statement": "If a dependency does not itself (transitively) depend on the target, Flatten calls walk on the dependency before the target; so for acyclic graphs every vertex comes after everything it depends on.", "quantifier": "every graph and every edge of it", "why_tests_cant": "all graphs; DFS bugs show only for particular shapes", "anchors": ["internal/dependency/graph.go: Graph.Flatten", "internal/dependency/graph.go: Graph.flatten"]}
{"id": "C25", "title": "Flatten order depends only on the set of edges", "statement": "Two graphs built from the same set of edges, added in any order and with any repetition, are traversed in the same order, and Len is the number of distinct targets.", "quantifier": "every pair of Add histories with the same edges", "why_tests_cant": "all permutations and repetitions of all edge lists", "anchors": ["internal/dependency/graph.go: insertUnique", "internal/dependency/graph.go: Graph.Add", "internal/dependency/graph.go: Graph.Len"]}
{"id": "C26", "title": "Builtin names and ParseBuiltin are mutually inverse", "statement": "ParseBuiltin(b.Name()) returns b for each of the 50 built-in types, no two built-ins share a name, and ParseBuiltin of any other name is an error.", "quantifier": "all built-in types and all XML names", "why_tests_cant": "the negative half ranges over all names", "anchors": ["xsd/builtin.go: Builtin.Name", "xsd/builtin.go: ParseBuiltin", "xsd/builtin_string.go"]}
{"id": "C27", "title": "The built-in schema lists all built-in types", "statement": "The schema for the XML Schema namespace that Parse appends to its result contains every built-in type of that namespace.", "quantifier": "all built-in types", "why_tests_cant": "an off-by-one at the end of the enumeration is invisible unless the last members are looked up", "anchors": ["xsd/standard-schema.go: init", "xsd/builtin.go: Builtin"]}
{"id": "C28", "title": "Imports lists every import and include", "statement": "Imports returns one Ref per import element anywhere below the root, in document order with its namespace and location, followed by one per include element with the target namespace of the enclosing schema.", "quantifier": "every document with any number and nesting of schema elements", "why_tests_cant": "all trees and schema nestings", "anchors": ["xsd/parse.go: Imports"]}
{"id": "C29", "title": "Declarations without a type get the default type", "statement": "After normalization every attribute declaration has a type, anySimpleType if none was given, and every element declaration has one, anyType if none was given; declarations with a type keep it and nothing else changes.", "quantifier": "every schema tree", "why_tests_cant": "all trees and scopes", "anchors": ["xsd/parse.go: attributeDefaultType", "xsd/parse.go: elementDefaultType"]}
{"id": "C30", "title": "Everything inside a choice is optional", "statement": "After normalization each alternative of a choice, or each member if the alternative is a sequence, has minOccurs 0, at every nesting level, and elements outside choices are untouched.", "quantifier": "every schema tree, choices nested anywhere", "why_tests_cant": "arbitrary nestings of choice and sequence", "anchors": ["xsd/parse.go: setChoicesOptional"]}
{"id": "C31", "title": "Complex type shorthand is expanded", "statement": "After expansion every complexType has a simpleContent or complexContent child; one that had it is unchanged, and in any other its schema children (annotations excepted) are moved unchanged and in order into one restriction of anyType; expanding twice is the same as once.", "quantifier": "every schema tree", "why_tests_cant": "all child lists and nestings", "anchors": ["xsd/parse.go: expandComplexShorthand"]}
{"id": "C32", "title": "Anonymous types get unique names", "statement": "Normalization gives every anonymous type a name no other type of that namespace has, moves it to the top level and makes its parent refer to it.", "quantifier": "every set of schema documents", "why_tests_cant": "uniqueness over an unbounded set of generated and user-chosen names", "anchors": ["xsd/parse.go: nameAnonymousTypes", "xsd/parse.go: anonTypeName", "xsd/parse.go: copyEltNamesToAnonTypes"]}
{"id": "C33", "title": "Dereferencing keeps the meaning of the target", "statement": "Replacing a ref by its target keeps the target's children and attributes, lets the reference's own attributes override, removes the ref attribute, and keeps the type the target's type attribute denotes.", "quantifier": "every pair of elements with any scopes", "why_tests_cant": "prefixes of two documents may clash in any way", "anchors": ["xsd/parse.go: deref"]}
{"id": "C34", "title": "References are resolved completely or reported", "statement": "If some ref names an element that is in no schema, Normalize fails; otherwise, if references are acyclic, no ref attribute is left and chains of references are followed to the end.", "quantifier": "every set of schema trees and references among them", "why_tests_cant": "chains of any length in any document order", "anchors": ["xsd/parse.go: flattenRef", "xsd/index.go: indexSchema", "internal/dependency/graph.go: Graph.Flatten"]}
{"id": "C35", "title": "Repeated elements are merged", "statement": "In the content model of one extension or restriction no element name occurs twice after parsing; elements are in the order of first occurrence, and the merged element is plural, optional or nillable if any occurrence is, abstract only if all are, and keeps a default only if all agree.", "quantifier": "every list of element declarations in a content model", "why_tests_cant": "any number and order of repetitions", "anchors": ["xsd/parse.go: parseComplexContent", "xsd/parse.go: joinElem"]}
{"id": "C36", "title": "Occurrence flags follow minOccurs and maxOccurs", "statement": "Plural is set iff minOccurs > 1 or maxOccurs is unbounded, negative or > 1; Optional iff minOccurs is 0 or a default is given; malformed numbers and booleans are reported, never ignored.", "quantifier": "all attribute values", "why_tests_cant": "all strings", "anchors": ["xsd/parse.go: parsePlural", "xsd/parse.go: parseInt", "xsd/parse.go: parseBool", "xsd/parse.go: parseElement"]}
{"id": "C37", "title": "No unresolved type reference survives Parse", "statement": "When resolution succeeds, no base, element, attribute or union member type is an unresolved link, and every link was replaced by the type of that name; it fails exactly if some link names neither a built-in nor a declared type; the outcome does not depend on map iteration order.", "quantifier": "every collection of types, every iteration order", "why_tests_cant": "all type graphs and all map orders", "anchors": ["xsd/parse.go: Schema.resolvePartialTypes", "xsd/parse.go: Schema.lookupType"]}
{"id": "C38", "title": "Base chains end in a built-in", "statement": "Following Base from any type of a parsed schema ends in a Builtin after finitely many steps (as documented for SimpleType and ComplexType), so FindType terminates.", "quantifier": "every parsed schema", "why_tests_cant": "circular and incomplete derivations are not in the test data", "anchors": ["xsd/xsd.go: ComplexType.Base", "xsd/xsd.go: SimpleType.Base", "xsd/xsd.go: Schema.FindType"]}
{"id": "C39", "title": "Mixed propagation is order-independent and follows the rules", "statement": "After propagation a complex type is mixed iff it was declared so (simpleContent counts), its base is a simple type, or it extends a mixed type (anyType is mixed); the result is the same for every map iteration order and a second run changes nothing.", "quantifier": "every acyclic type hierarchy up to the depth limit, every iteration order", "why_tests_cant": "all hierarchies and all orders", "anchors": ["xsd/parse.go: Schema.propagateMixedAttr", "xsd/parse.go: propagateMixedAttr"]}
{"id": "C40", "title": "Parse returns the types of every schema", "statement": "The result of xsd.Parse has one Schema per schema element, holding the types declared in that element.", "quantifier": "every set of documents, including several with one target namespace", "why_tests_cant": "needs several documents that share a namespace", "anchors": ["xsd/parse.go: Parse"]}
{"id": "C41", "title": "An Option's return value undoes it", "statement": "Applying an Option to a Config and then the Option it returned restores the configuration, and the undo can itself be undone.", "quantifier": "every option, every prior configuration", "why_tests_cant": "all configurations and sequences of options", "anchors": ["xsdgen/config.go: Option", "xsdgen/config.go: AllowType", "wsdlgen/config.go: Option", "wsdlgen/config.go: OnlyPorts", "wsdlgen/config.go: LogLevel"]}
{"id": "C42", "title": "Replace rules apply in order", "statement": "Each Replace option is applied to the result of all earlier ones, an invalid pattern changes no name, and undoing the last restores the names of before.", "quantifier": "every sequence of Replace options and every name", "why_tests_cant": "unbounded sequences of rules", "anchors": ["xsdgen/config.go: Replace", "xsdgen/config.go: Config.NameOf"]}
{"id": "C43", "title": "Type list has no duplicates", "statement": "The list of types to generate contains each XML name once, keeps the first occurrence and order, and loses no name.", "quantifier": "every list of types", "why_tests_cant": "all lists", "anchors": ["xsdgen/xsdgen.go: dedup"]}
{"id": "C44", "title": "Derived types inherit all fields", "statement": "After expansion each complex type has its own fields plus those of all its complex ancestors, nearest ancestor last for elements, except fields shadowed by a field of the same name lower down; independent of the order in which types are listed.", "quantifier": "every acyclic derivation forest, every list order", "why_tests_cant": "chains of any length in any order", "anchors": ["xsdgen/xsdgen.go: expandComplexTypes", "internal/dependency/graph.go: Graph.Flatten"]}
{"id": "C45", "title": "Attributes merge without duplicates", "statement": "mergeAttributes keeps the derived type's attributes in order and appends those base attributes whose names it lacks, each once.", "quantifier": "every pair of attribute lists", "why_tests_cant": "all lists", "anchors": ["xsdgen/xsdgen.go: mergeAttributes"]}
{"id": "C46", "title": "Struct field names are distinct", "statement": "No two fields of a generated struct have the same name.", "quantifier": "every complex type", "why_tests_cant": "clashes of generated suffixes with real names, and of wildcard and chardata fields", "anchors": ["xsdgen/xsdgen.go: nameGenerator", "xsdgen/xsdgen.go: genComplexType"]}
{"id": "C47", "title": "Generated list types round-trip", "statement": "For a generated <list> type, UnmarshalText applied to the result of MarshalText gives back the value.", "quantifier": "every list of values of the item type", "why_tests_cant": "all lists of all values", "anchors": ["xsdgen/xsdgen.go: genSimpleListSpec"]}
{"id": "C48", "title": "Generated source does not depend on map order", "statement": "The sequence of declarations in the generated file is determined by the types, not by map iteration order.", "quantifier": "every set of declarations and every iteration order", "why_tests_cant": "map order is random per run", "anchors": ["xsdgen/xsdgen.go: Code.GenAST", "xsdgen/xsdgen.go: rangeMap", "xsdgen/xsdgen.go: Config.gen"]}
{"id": "C49", "title": "Missing namespaces are reported", "statement": "GenCode fails if a requested target namespace is declared by none of the schemas, naming it, and succeeds in selecting exactly the schemas of requested namespaces otherwise.", "quantifier": "every list of requested namespaces and every list of schemas", "why_tests_cant": "duplicate schemas for one namespace", "anchors": ["xsdgen/cli.go: Config.GenCode"]}
{"id": "C50", "title": "FollowImports loads dependencies first", "statement": "With FollowImports every file is preceded by the files it imports, recursively; an unreadable file makes GenAST fail.", "quantifier": "every file system, every import graph", "why_tests_cant": "all import graphs, cyclic ones included", "anchors": ["xsdgen/cli.go: Config.readFiles", "xsdgen/cli.go: Config.GenAST"]}
{"id": "C51", "title": "Ignored attributes and elements are left out", "statement": "With IgnoreAttributes/IgnoreElements exactly the fields with one of the given local names are omitted, in order and without affecting others.", "quantifier": "every complex type and every name list", "why_tests_cant": "all types and lists", "anchors": ["xsdgen/config.go: IgnoreAttributes", "xsdgen/config.go: IgnoreElements", "xsdgen/config.go: Config.filterFields"]}
{"id": "C52", "title": "Every built-in type has a Go type", "statement": "Each built-in type, and only built-in types, maps to a Go expression, and the types that need helper methods have a helper.", "quantifier": "all Builtin values, in or out of range", "why_tests_cant": "includes the edges of the table", "anchors": ["xsdgen/builtin.go: builtinExpr", "xsdgen/builtin.go: builtinTbl", "xsdgen/config.go: addStandardHelpers"]}
{"id": "C53", "title": "Simple type chains collapse to their built-in", "statement": "Flattening a simpleType makes it and all simple types it derives from refer directly to the built-in at the end of the chain, emits each of them, and replaces it by the built-in exactly when it is no list, union or special built-in and has no enumeration, pattern or length restriction.", "quantifier": "every finite derivation chain", "why_tests_cant": "chains of any length", "anchors": ["xsdgen/xsdgen.go: flatten1"]}
{"id": "C54", "title": "WSDL messages are complete", "statement": "The definition holds each message of the document under its qualified name with its parts in document order and their types and elements resolved at the part's own scope.", "quantifier": "every WSDL document", "why_tests_cant": "all trees and scopes", "anchors": ["wsdl/wsdl.go: parseMessages"]}
{"id": "C55", "title": "A port's operations are those of its port type", "statement": "Each port lists exactly the operations of the port types its binding refers to, in document order, with the input and output message and SOAP action of the operation of that name in the binding.", "quantifier": "every WSDL document", "why_tests_cant": "any number of bindings, port types, operations and name clashes", "anchors": ["wsdl/wsdl.go: parseOperations", "wsdl/wsdl.go: parsePorts"]}
{"id": "C56", "title": "HTTP verb of a port", "statement": "A port's method is the upper-cased verb of the first http binding with a verb, and POST otherwise.", "quantifier": "every WSDL document", "why_tests_cant": "all documents", "anchors": ["wsdl/wsdl.go: parseMethod"]}
{"id": "C57", "title": "All services are parsed", "statement": "Every port of every service in the document is in the Definition.", "quantifier": "every WSDL document", "why_tests_cant": "documents with several services", "anchors": ["wsdl/wsdl.go: Parse"]}
{"id": "C58", "title": "Parameter thresholds", "statement": "A generated function takes one parameter per message part if there are at most InputThreshold parts and a single wrapper struct otherwise, likewise for return values, and always returns an error last.", "quantifier": "every operation and every threshold", "why_tests_cant": "all part counts and thresholds", "anchors": ["wsdlgen/wsdlgen.go: printer.opArgs", "wsdlgen/config.go: InputThreshold", "wsdlgen/config.go: OutputThreshold"]}
{"id": "C59", "title": "OnlyPorts restricts the generated ports", "statement": "With OnlyPorts(names...) code is generated only for the ports with those names.", "quantifier": "every definition and every list of names", "why_tests_cant": "all definitions", "anchors": ["wsdlgen/config.go: OnlyPorts", "wsdlgen/wsdlgen.go: printer.genAST"]}
{"id": "C60", "title": "Generated wrapper code is consistent", "statement": "The type named in a generated signature is the type that is declared for it, and the body returns as many values as the signature lists.", "quantifier": "every operation", "why_tests_cant": "part counts over the threshold together with names in lower case", "anchors": ["wsdlgen/wsdlgen.go: printer.operation", "wsdlgen/wsdlgen.go: printer.opArgs"]}
{"id": "C61", "title": "Sanitize never yields a reserved word", "statement": "Sanitize(name) is not a Go keyword, leaves every non-keyword unchanged, and maps different names to different names.", "quantifier": "all strings", "why_tests_cant": "all strings", "anchors": ["internal/gen/gen.go: Sanitize"]}
{"id": "C62", "title": "String literals denote the string", "statement": "The Go literal that gen.String(s) builds denotes exactly s.", "quantifier": "all strings", "why_tests_cant": "characters special to one of the two literal forms", "anchors": ["internal/gen/gen.go: String"]}
{"id": "C63", "title": "Replacement rules from the command line", "statement": "ReplaceRuleList.Set splits at the first arrow, trims both sides, appends one rule in command-line order, and leaves the list unchanged if it returns an error; Strings.Set appends.", "quantifier": "every sequence of flag values", "why_tests_cant": "all strings and sequences", "anchors": ["internal/commandline/cli.go: ReplaceRuleList.Set", "internal/commandline/cli.go: Strings.Set"]}
{"id": "C64", "title": "Schema text cannot escape a comment", "statement": "Every line of a comment group built from schema documentation begins with // and contains no line break, so no schema text ends up outside the comment.", "quantifier": "all documentation strings", "why_tests_cant": "all strings", "anchors": ["internal/gen/gen.go: CommentGroup"]}
{"id": "C65", "title": "Marshal keeps character data", "statement": "Marshal writes all character data of the document, mixed content included.", "quantifier": "every tree", "why_tests_cant": "text between child elements", "anchors": ["xmltree/marshal.go: encoder.encode"]}
{"id": "C66", "title": "A marshalled sub-element resolves names as in its document", "statement": "For every element of a parsed document, the document Marshal produces from it alone declares each prefix once and, when parsed, resolves every prefix as the element did in the original.", "quantifier": "every document, every element of it, every prefix", "why_tests_cant": "redeclared prefixes in ancestors", "anchors": ["xmltree/marshal.go: Marshal", "xmltree/marshal.go: diffScope", "xmltree/xmltree.go: Scope.pushNS"]}
{"id": "C67", "title": "AllowType selects types and can be undone", "statement": "Only types passed to AllowType and their dependencies are generated; undoing the only AllowType generates all types again.", "quantifier": "every sequence of AllowType options and undos", "why_tests_cant": "sequences of options", "anchors": ["xsdgen/config.go: AllowType", "xsdgen/xsdgen.go: Config.flatten"]}
{"id": "C68", "title": "Marshal terminates on cyclic trees", "statement": "Marshal returns on every element graph, cyclic ones included, after finitely many steps and at bounded recursion depth.", "quantifier": "every element graph", "why_tests_cant": "all graphs", "anchors": ["xmltree/marshal.go: encoder.encode"]}
{"id": "C69", "title": "What Equal decides", "statement": "If Equal(a, b) is true then b matches a up to white space around text, order of sub-elements, namespace declarations, and attributes that only a has; and if b matches a in that sense, siblings have distinct names, no attribute has two values and nesting is at most 1001 levels, Equal is true.", "quantifier": "every pair of trees", "why_tests_cant": "all pairs of trees of any size", "anchors": ["xmltree/compare.go: Equal", "xmltree/compare.go: equal", "xmltree/compare.go: equalElement"]}
{"id": "C70", "title": "Address of a port", "statement": "A port has the location of its SOAP 1.2 address element, or of its SOAP 1.1 address element if it has none, and an empty address without either.", "quantifier": "every WSDL document", "why_tests_cant": "all documents", "anchors": ["wsdl/wsdl.go: parsePorts"]}
{"id": "C71", "title": "Returned values have the types of the signature", "statement": "A generated function converts each value it returns to the type in the same place of its signature.", "quantifier": "every operation", "why_tests_cant": "the generated code is text to the tests; all combinations of types", "anchors": ["wsdlgen/wsdlgen.go: printer.operation", "wsdlgen/wsdlgen.go: exposeType"]}
{"id": "C72", "title": "Parse does not panic", "statement": "Parse ends with a result or an error for every set of schema documents, in whatever order they are given.", "quantifier": "every list of schemas", "why_tests_cant": "orders of mutually dependent documents are not in the test data", "anchors": ["xsd/parse.go: Parse", "xsd/parse.go: propagateMixedAttr"]}
{"id": "C73", "title": "Parse is deterministic", "statement": "The result of Parse does not depend on the order in which Go visits the entries of maps.", "quantifier": "every list of schemas, every iteration order", "why_tests_cant": "iteration order is random; a test sees one order per run", "anchors": ["xsd/parse.go: Parse", "xsd/parse.go: Schema.resolvePartialTypes", "xsd/parse.go: Schema.propagateMixedAttr"]}
{"id": "C74", "title": "Each element and attribute becomes one field", "statement": "The struct generated for a complex type has one field for each element and attribute that is not ignored, in their order, with the XML name in its tag, omitempty iff it is optional, and a slice type iff it is plural.", "quantifier": "every complex type, every configuration", "why_tests_cant": "all types and configurations", "anchors": ["xsdgen/xsdgen.go: Config.genComplexType"]}
{"id": "C75", "title": "Overriding fields match the fields they override", "statement": "For each field that the generated MarshalXML and UnmarshalXML methods overlay, the overlay has the field name and tag of the struct's field, and its types convert to and from that field's type.", "quantifier": "every complex type", "why_tests_cant": "plural fields of types that need helper methods", "anchors": ["xsdgen/xsdgen.go: Config.genComplexType", "xsdgen/xsdgen.go: Config.genComplexTypeMethods"]}
{"id": "C76", "title": "Go integer types hold every value", "statement": "The Go type of an integer built-in type can represent every value that the XML Schema specification allows for it.", "quantifier": "all integer built-in types, all values", "why_tests_cant": "values at the ends of the ranges", "anchors": ["xsdgen/builtin.go: builtinTbl"]}
{"id": "C77", "title": "Binary and time helpers round-trip", "statement": "UnmarshalText of the helper types for hexBinary, base64Binary and times reads back what MarshalText wrote.", "quantifier": "all byte strings, all times", "why_tests_cant": "all byte strings", "anchors": ["xsdgen/config.go: Config.addStandardHelpers"]}
{"id": "C78", "title": "White space around values is accepted", "statement": "The helper types for hexBinary, base64Binary and times, all of which collapse white space in XML Schema, read a value surrounded by white space as they read the value alone.", "quantifier": "all texts, all white space", "why_tests_cant": "all texts", "anchors": ["xsdgen/config.go: Config.addStandardHelpers"]}
{"id": "C79", "title": "Defaults stay in their comment", "statement": "The default of an element or attribute, which the generated UnmarshalXML mentions in a comment, cannot end up outside that comment.", "quantifier": "every default", "why_tests_cant": "defaults with line breaks", "anchors": ["xsdgen/xsdgen.go: Config.genComplexTypeMethods"]}
{"id": "C80", "title": "A configuration can be used again", "statement": "Using a Config for one GenCode does not change what a later GenCode with it generates.", "quantifier": "every configuration, every two sets of schemas", "why_tests_cant": "needs two runs with one Config", "anchors": ["xsdgen/cli.go: Config.GenCode", "xsdgen/xsdgen.go: Config.addStandardHelpers"]}
{"id": "C81", "title": "Facets are kept", "statement": "A parsed restriction has the enumerated values in document order, the lengths, digits and bounds written, and the alternation of the patterns written; parsing fails exactly if a facet cannot be read.", "quantifier": "every restriction", "why_tests_cant": "all lists of facets; times as bounds and patterns outside Go's syntax are not in the test data", "anchors": ["xsd/parse.go: parseSimpleRestriction", "xsd/parse.go: parseMinMaxRestriction", "xsd/xsd.go: Restriction"]}
{"id": "C82", "title": "Simple types have the variety written", "statement": "A parsed simpleType has the declared name and base, List iff it has a list child, and as Union the types named in memberTypes, in order.", "quantifier": "every simpleType", "why_tests_cant": "all documents", "anchors": ["xsd/parse.go: Schema.parseSimpleType", "xsd/xsd.go: SimpleType"]}
{"id": "C83", "title": "Complex types have the derivation written", "statement": "A parsed complexType has the declared name, base, Abstract and Mixed, Extends iff it is derived by extension, and all attributes declared in it, in document order.", "quantifier": "every complexType", "why_tests_cant": "all documents", "anchors": ["xsd/parse.go: Schema.parseComplexType", "xsd/parse.go: ComplexType.parseSimpleContent", "xsd/parse.go: ComplexType.parseComplexContent"]}
{"id": "C84", "title": "Attribute declarations are read as written", "statement": "A parsed attribute has the declared type and default and is optional iff its use is not required; it has a namespace only if it is qualified, and prohibited attributes are not part of a type.", "quantifier": "every attribute declaration", "why_tests_cant": "all declarations", "anchors": ["xsd/parse.go: parseAttribute", "xsd/xsd.go: Attribute"]}
{"id": "C85", "title": "Elements are named in the target namespace", "statement": "A parsed element has the declared name, in the target namespace of its schema, and the declared type or anyType.", "quantifier": "every element declaration", "why_tests_cant": "elements whose types are from other namespaces", "anchors": ["xsd/parse.go: parseElement", "xsd/xsd.go: Element"]}
{"id": "C86", "title": "FindType finds the type asked for", "statement": "What FindType(name) returns has that name and is one of the types of the schema or an ancestor of one; it returns nil only if there is no such type.", "quantifier": "every schema, every name, every iteration order", "why_tests_cant": "all type hierarchies", "anchors": ["xsd/xsd.go: Schema.FindType", "xsd/xsd.go: findType"]}
{"id": "C87", "title": "Circular groups are reported", "statement": "If a group or attribute group contains itself through references, Normalize returns an error.", "quantifier": "every set of schema documents", "why_tests_cant": "cycles are not in the test data", "anchors": ["xsd/parse.go: flattenRef", "xsd/parse.go: hasCycle", "xsd/parse.go: unpackGroups"]}
{"id": "C88", "title": "References refer to top-level declarations", "statement": "A reference is replaced by the top-level declaration of that name and kind, whatever local declarations there are.", "quantifier": "every set of schema documents", "why_tests_cant": "needs names that are used both globally and locally", "anchors": ["xsd/parse.go: flattenRef", "xsd/index.go: indexSchema"]}
{"id": "C89", "title": "OnlyTypes selects by qualified name", "statement": "With OnlyTypes(patterns) generation starts from exactly the types whose fully qualified name matches one of the patterns.", "quantifier": "all patterns, all types, all configurations", "why_tests_cant": "types of the same local name in several namespaces", "anchors": ["xsdgen/config.go: OnlyTypes", "xsdgen/xsdgen.go: Config.flatten"]}
{"id": "C90", "title": "Type transformations are chained", "statement": "Transformations given by ProcessTypes, UseFieldNames and HandleSOAPArrayType run in the order of the options, each on what the one before returned, and code is generated for the result.", "quantifier": "every sequence of such options, every function", "why_tests_cant": "sequences of options, functions that return nil", "anchors": ["xsdgen/config.go: ProcessTypes", "xsdgen/xsdgen.go: Config.gen"]}
{"id": "C91", "title": "UseFieldNames names anonymous types", "statement": "UseFieldNames gives an anonymous type of a field the name of that field, changes nothing else, and different types get different names.", "quantifier": "every complex type", "why_tests_cant": "anonymous types of the same name in different places", "anchors": ["xsdgen/config.go: UseFieldNames", "xsdgen/config.go: useFieldNames"]}
{"id": "C92", "title": "Complex types that are text are replaced", "statement": "A complex type is replaced by the type it is derived from if, and only if, it has text only and no attribute that is not ignored.", "quantifier": "every complex type, every configuration", "why_tests_cant": "all combinations of contents and ignored attributes", "anchors": ["xsdgen/xsdgen.go: Config.flatten1"]}
{"id": "C93", "title": "Struct declarations are complete", "statement": "The declaration generated for a complex type has its Go name, its documentation, and its own fields together with those it takes over from the types it extends.", "quantifier": "every complex type, every configuration", "why_tests_cant": "all type hierarchies", "anchors": ["xsdgen/xsdgen.go: Config.genComplexType"]}
{"id": "C94", "title": "Methods are generated where needed", "statement": "A struct gets UnmarshalXML exactly if a field has a default or a type with special encoding, and MarshalXML exactly if a field has a type with special encoding.", "quantifier": "every complex type, every configuration", "why_tests_cant": "all combinations of fields", "anchors": ["xsdgen/xsdgen.go: Config.genComplexType", "xsdgen/xsdgen.go: Config.genComplexTypeMethods"]}
{"id": "C95", "title": "Simple type declarations are complete", "statement": "The declaration generated for a simple type has its Go name and documentation, is a slice for lists and a string for unions, and has text methods exactly for lists and types with special encoding.", "quantifier": "every simple type, every configuration", "why_tests_cant": "documentation of list types", "anchors": ["xsdgen/xsdgen.go: Config.genSimpleType", "xsdgen/xsdgen.go: Config.genSimpleListSpec"]}
{"id": "C96", "title": "Generated declarations are complete", "statement": "Every type name that occurs in a type declaration made by GenCode is predeclared, or the name of a type declared in the same file.", "quantifier": "every set of schemas, every configuration without transformations", "why_tests_cant": "recursive types and types derived from simple ones at any depth", "anchors": ["xsdgen/xsdgen.go: Config.gen", "xsdgen/xsdgen.go: Config.flatten", "xsdgen/xsdgen.go: Config.expandComplexTypes", "xsdgen/cli.go: Config.GenCode"]}
{"id": "C97", "title": "Selected types are declared", "statement": "Every type of the chosen namespaces that the configuration selects and that is worth a declaration (a list, a union, a restriction, a date or binary type, a type with an attribute, or one derived from the type of any content) is declared under its Go name.", "quantifier": "every set of schemas, every configuration without transformations", "why_tests_cant": "all orders in which types are visited and replaced", "anchors": ["xsdgen/xsdgen.go: Config.gen", "xsdgen/xsdgen.go: Config.flatten", "xsdgen/cli.go: Config.GenCode"]}
{"id": "C98", "title": "Helper types and functions are declared", "statement": "Every helper type that a declaration made by GenCode needs is declared in the same file with all its methods, the functions that helper types for times need are declared exactly once, and no helper function is declared that is not needed.", "quantifier": "every set of schemas, every configuration without transformation of declarations", "why_tests_cant": "any number of declarations that need the same helper, visited in any order", "anchors": ["xsdgen/xsdgen.go: Config.gen", "xsdgen/xsdgen.go: Code.GenAST", "xsdgen/config.go: Config.addStandardHelpers"]}
{"id": "C101", "title": "NameOf names a Go type that exists", "statement": "For every type of the chosen namespaces that the configuration selects, and for every built-in type of XML Schema, Code.NameOf answers with the text of a Go type that is predeclared or declared in the generated file.", "quantifier": "every set of schemas, every configuration without preprocessing, any calls of NameOf before", "why_tests_cant": "all chains of derivation, and all sequences of calls, which change the types", "anchors": ["xsdgen/xsdgen.go: Code.NameOf", "xsdgen/xsdgen.go: Config.gen", "xsdgen/xsdgen.go: Code.GenAST"]}
{"id": "C102", "title": "The answer of NameOf does not depend on earlier calls", "statement": "Whatever names NameOf has been asked for before, in any order, it answers with the same text for the same name.", "quantifier": "every set of schemas, every configuration without preprocessing, any two sequences of calls of NameOf", "why_tests_cant": "all sequences of calls: each may change types and the memory of answers", "anchors": ["xsdgen/xsdgen.go: Code.NameOf", "xsdgen/xsdgen.go: Config.flatten1"]}
{"id": "C103", "title": "The documentation of a schema component is the text of its documentation elements", "statement": "Decoding an xs:annotation element yields the character data of its xs:documentation children (references replaced, CDATA sections included, comments left out), in order, separated by blank lines.", "quantifier": "every annotation element", "why_tests_cant": "any sequence of children, any text", "anchors": ["xsd/parse.go: parseAnnotation", "xsd/xsd.go: annotation.UnmarshalXML"]}
{"id": "C104", "title": "HandleSOAPArrayType gives arrays the type of their items", "statement": "For a complex type with wsdl:arrayType=\"T[]\", the wildcard of the type gets the type T, the attribute arrayType is removed from the type and from its own copy of the base type, and all other elements, attributes and types stay as they are. Types without the attribute are not changed.", "quantifier": "every set of types, every chain of derivation", "why_tests_cant": "all chains of derivation on which the wildcard may be found, all attributes", "anchors": ["xsdgen/config.go: parseSOAPArrayType", "xsdgen/config.go: overrideWildcardType"]}
{"id": "C105", "title": "TagKey answers with the value of the key", "statement": "For a struct field, TagKey answers with the value that its tag has for the key, and with the empty string if the field has no tag.", "quantifier": "every tag, every key", "why_tests_cant": "any tag", "anchors": ["internal/gen/gen.go: TagKey"]}
{"id": "C106", "title": "SOAPArrayAsSlice turns arrays into slices", "statement": "A struct whose only field is a slice, made from a type with a wildcard of a named type, is declared as the slice itself, with exactly one method MarshalXML and one method UnmarshalXML, which write elements named item and read elements of any name. Any other declaration stays as it is.", "quantifier": "every declaration, every set of types", "why_tests_cant": "any declaration that other steps have made", "anchors": ["xsdgen/config.go: soapArrayToSlice"]}
{"id": "C107", "title": "The generated UnmarshalXML of a slice reads all items or reports an error", "statement": "The method appends the items of the array in their order, and reports an error if an item cannot be decoded.", "quantifier": "every sequence of items", "why_tests_cant": "any number of items, any position of an item that cannot be decoded", "anchors": ["xsdgen/config.go: soapArrayToSlice"]}
{"id": "C99", "title": "The methods generated for list types compile", "statement": "For every list type of items of a built-in type that is generated, the bodies of its methods MarshalText and UnmarshalText type-check for the slice that the type is declared as.", "quantifier": "every list type whose items are of a built-in type", "why_tests_cant": "any built-in type of items, any name", "anchors": ["xsdgen/xsdgen.go: genSimpleListSpec"]}
{"id": "C100", "title": "A simple type that is a list, or restricts one, is declared as a slice", "statement": "A selected simple type whose values are lists - it is a list itself, or it restricts such a type - is declared as a slice of what its items are declared as.", "quantifier": "every set of types, every configuration", "why_tests_cant": "any chain of restrictions", "anchors": ["xsdgen/xsdgen.go: genSimpleType", "xsdgen/xsdgen.go: flatten1"]}
{"id": "C108", "title": "Every generated declaration says what the schema says", "statement": "Every type declaration in the generated file is one of the helper types, or belongs to a type of the schema and has its Go name. A list is declared as a slice of what stands for its items, a union as a string, another simple type as what stands for its base. A complex type is declared as a struct that has a field for each element and attribute that is not ignored, and no other fields than those for text and for elements and attributes of types that it is derived from; the type of a field is kept if it is one that a declaration is made for.", "quantifier": "every set of types without hooks, every configuration", "why_tests_cant": "any nesting and derivation of types, any depth of the chains that are replaced by their ends", "anchors": ["xsdgen/xsdgen.go: GenCode", "xsdgen/xsdgen.go: flatten", "xsdgen/xsdgen.go: expandComplexTypes", "xsdgen/xsdgen.go: genTypeSpec"]}
{"id": "C109", "title": "Every type that a generated function mentions exists", "statement": "In the file that wsdlgen generates, every type in the parameters, results and body of a function, and in the wrapper types, is predeclared or declared in the file.", "quantifier": "every WSDL document, every set of schemas, every configuration without preprocessing", "why_tests_cant": "any combination of parts, types and derivations; NameOf changes the types while it is asked", "anchors": ["wsdlgen/wsdlgen.go: Config.GenAST", "wsdlgen/wsdlgen.go: printer.getPartType", "xsdgen/xsdgen.go: Code.NameOf", "xsdgen/xsdgen.go: Code.DocType"]}
{"id": "C110", "title": "Nothing is declared twice in the file that wsdlgen generates", "statement": "The methods of Client are do and one for each operation, with different names, and no type is declared twice: neither by the schema, nor by the client, nor for the messages with many parts.", "quantifier": "every WSDL document, every set of schemas, every configuration", "why_tests_cant": "all combinations of names of types, messages, ports and operations", "anchors": ["wsdlgen/wsdlgen.go: printer.genAST", "wsdlgen/wsdlgen.go: printer.operation", "wsdlgen/helper.go: helpers"]}
{"id": "C111", "title": "Dates and binary data are sent through the private types", "statement": "For a part whose type is a date, a time or binary data, users see time.Time or []byte, and the field that is sent or received has the private type that writes the form XML Schema asks for.", "quantifier": "every WSDL document with such a part, every set of schemas", "why_tests_cant": "each of the ten types, any document around it", "anchors": ["wsdlgen/wsdlgen.go: exposeType", "wsdlgen/wsdlgen.go: printer.opArgs", "xsdgen/xsdgen.go: Code.NameOf"]}
{"id": "C112", "title": "A generated function sends its arguments where the document says", "statement": "The request is named after the operation and the input message and has one field for every part, in order, whose value is the parameter, or the field of the wrapper, for that part. The response is named after the output message and has one field for every part. Address, method and SOAP action are those of the port and the operation.", "quantifier": "every operation, every configuration", "why_tests_cant": "any number of parts, any thresholds", "anchors": ["wsdlgen/wsdlgen.go: printer.operation", "wsdlgen/wsdlgen.go: printer.opArgs"]}
{"id": "C113", "title": "A part given by an element is sent as that element", "statement": "The field for a part that refers to an element has the name and the namespace of the element.", "quantifier": "every operation, every part", "why_tests_cant": "any names of parts and elements", "anchors": ["wsdlgen/wsdlgen.go: printer.opArgs"]}
{"id": "C114", "title": "The parameters of a generated function clash with nothing", "statement": "The parameters have different names, which differ from those of the receiver, the context and the variables of the body, and hide no type that the body mentions.", "quantifier": "every operation, every configuration", "why_tests_cant": "any names of parts and of types", "anchors": ["wsdlgen/wsdlgen.go: printer.opArgs", "wsdlgen/wsdlgen.go: printer.operation", "internal/gen/gen.go: Sanitize"]}
{"id": "C115", "title": "The fields of requests and responses can be declared and are exported", "statement": "The fields that stand for the parts of a message have different names, which are exported Go identifiers.", "quantifier": "every operation, every name that XML allows", "why_tests_cant": "any names of parts", "anchors": ["wsdlgen/wsdlgen.go: printer.opArgs"]}
{"id": "C116", "title": "Wildcards allow what the schema allows", "statement": "A content model with xs:any has a wildcard that is plural exactly if more than one foreign element may occur, and optional exactly if none needs to occur.", "quantifier": "every complexType with content", "why_tests_cant": "any number of xs:any, at any depth of groups, with any occurrence counts", "anchors": ["xsd/parse.go: parseAnyElement", "xsd/parse.go: parseComplexContent"]}
{"id": "C117", "title": "Components are documented by their annotations", "statement": "The documentation of an element, attribute, restriction or type consists of what its annotations say, in order and separated by blank lines.", "quantifier": "every declaration, every decoder of annotations", "why_tests_cant": "any number of annotations at any place", "anchors": ["xsd/parse.go: parseElement", "xsd/parse.go: parseAttribute", "xsd/parse.go: parseSimpleType", "xsd/parse.go: parseSimpleRestriction", "xsd/parse.go: parseComplexType", "xsd/parse.go: parseComplexContent", "xsd/parse.go: parseSimpleContent"]}
{"id": "C118", "title": "A replaced type is replaced wherever it is used", "statement": "If a function given to ProcessTypes returns another type for a type, the code generated uses that type in its place.", "quantifier": "every function, every set of schemas", "why_tests_cant": "functions and references of any kind", "anchors": ["xsdgen/config.go: ProcessTypes", "xsdgen/xsdgen.go: Config.gen"]}
{"id": "C119", "title": "A call returns what the response contains", "statement": "If the body of the response to a call of a generated function is an element with an element for each part of the output message, the function returns the values in these elements.", "quantifier": "every operation, every response", "why_tests_cant": "the generated code compiles and returns without an error; only a server shows that the values are lost", "anchors": ["wsdlgen/helper.go: Client.do", "wsdlgen/helper.go: soapEnvelope", "wsdlgen/wsdlgen.go: printer.operation"]}
{"id": "C120", "title": "SOAP faults are reported as errors", "statement": "If the body of a response contains a fault, the generated function returns an error with the code and the explanation of the fault, whatever else the fault contains and in which order.", "quantifier": "every operation, every response with one fault", "why_tests_cant": "any order and any additional content of the fault", "anchors": ["wsdlgen/helper.go: Client.do", "wsdlgen/helper.go: soapEnvelope"]}
{"id": "C121", "title": "Requests are as SOAP and WSDL prescribe", "statement": "A request that a generated function sends has the method and the address of the port, states its media type, quotes the SOAP action, and has a body in rpc or in document style.", "quantifier": "every operation, all arguments", "why_tests_cant": "the style of the body depends on the names in the definition", "anchors": ["wsdlgen/helper.go: Client.do", "wsdlgen/wsdlgen.go: printer.operation"]}
{"id": "C122", "title": "Arguments reach the server", "statement": "Two calls with arguments that are encoded differently send different requests.", "quantifier": "every operation, all arguments", "why_tests_cant": "a statement about pairs of calls", "anchors": ["wsdlgen/helper.go: Client.do", "wsdlgen/wsdlgen.go: printer.operation"]}
{"id": "C123", "title": "Failures are not taken for success", "statement": "A generated function returns no error only if the request was made and answered with a status that means success, and the response is an envelope without a fault.", "quantifier": "every transport, every response", "why_tests_cant": "all responses, whatever they contain", "anchors": ["wsdlgen/helper.go: Client.do"]}
{"id": "C124", "title": "Hooks and transports of clients", "statement": "A client with hooks behaves as one without them whose transport applies the request hook before and the response hook after; without a transport it uses the default one.", "quantifier": "all hooks, transports, operations and arguments", "why_tests_cant": "an equation between functions on functions", "anchors": ["wsdlgen/helper.go: Client.do", "wsdlgen/helper.go: Client"]}
{"id": "C125", "title": "Parse reads every well-formed document", "statement": "For a document that is well-formed and obeys Namespaces in XML, however it is written (quotes, white space, references, line ends, comments, CDATA sections, processing instructions, document type declaration), Parse returns the elements of the document with their names, namespaces, attributes, values, prefixes and content; what follows the document does not matter.", "quantifier": "every document, nested at most 3001 deep; any bytes after it", "why_tests_cant": "all spellings of all documents of any size", "anchors": ["xmltree/xmltree.go: Parse", "xmltree/xmltree.go: Element.parse", "xmltree/xmltree.go: Scope.pushNS"]}
{"id": "C126", "title": "Comments keep all documentation", "statement": "The comment that CommentGroup makes of documentation has every line of it.", "quantifier": "every text, lines of any length", "why_tests_cant": "lines of every length", "anchors": ["internal/gen/gen.go: CommentGroup"]}
{"id": "C127", "title": "xsdgen does what its command line says", "statement": "GenCLI generates code from exactly the files named, writes it to the file given with -o, and configures exactly what the flags say, in every spelling of the flags; what no flag is given for stays as configured; command lines that cannot be read so are rejected.", "quantifier": "every configuration and every list of arguments", "why_tests_cant": "all orders, repetitions and spellings of flags", "anchors": ["xsdgen/cli.go: Config.GenCLI", "internal/commandline/cli.go: ReplaceRuleList.Set", "cmd/xsdgen/xsdgen.go: main"]}
{"id": "C128", "title": "wsdlgen does what its command line says", "statement": "GenCLI generates code from exactly the files named, writes it to the file given with -o, and configures exactly what the flags say, in every spelling of the flags; what no flag is given for stays as configured; the package has the name and the comment that were asked for.", "quantifier": "every configuration and every list of arguments", "why_tests_cant": "all orders, repetitions and spellings of flags", "anchors": ["wsdlgen/cli.go: Config.GenCLI", "wsdlgen/wsdlgen.go: Config.GenAST", "cmd/wsdlgen/wsdlgen.go: main"]}
{"id": "C129", "title": "xsdparse -ns prints the schemas of one namespace", "statement": "With the flag -ns, xsdparse prints the schemas of that namespace and no others.", "quantifier": "every list of schemas and every namespace", "why_tests_cant": "any mixture of namespaces", "anchors": ["cmd/xsdparse/xsdparse.go: main"]}
{"id": "C130", "title": "Documents can be read, written and read again", "statement": "If Parse reads a document and Marshal writes what it returned, then Parse reads from this the same elements: with their names, namespaces, attributes, values and prefixes, and the content of elements without children.", "quantifier": "every well-formed document with namespaces", "why_tests_cant": "all ways to declare, shadow and use prefixes, at any depth", "anchors": ["xmltree/xmltree.go: Parse", "xmltree/marshal.go: Marshal", "xmltree/xmltree.go: Scope.Prefix"]}
{"id": "C131", "title": "Generated types read and write documents of their schema", "statement": "A program that uses the generated types reads a valid document without an error into a variable of the type, and what encoding/xml writes for this variable is the same document.", "quantifier": "every schema and every document of it", "why_tests_cant": "the types and the documents can be nested at will; all combinations of occurrence, order, special types and attributes", "anchors": ["xsdgen/xsdgen.go: genComplexType", "xsdgen/xsdgen.go: genComplexTypeMethods", "xsdgen/config.go: addStandardHelpers"]}
{"id": "C132", "title": "Generated types ignore what their schema does not declare", "statement": "Attributes and elements of a document that the type of an element does not declare are no errors when it is read into the generated type, and do not change what is read.", "quantifier": "every generated struct and every document", "why_tests_cant": "the unknown content can be anything and anywhere", "anchors": ["xsdgen/xsdgen.go: genComplexType", "xsdgen/xsdgen.go: genComplexTypeMethods"]}
{"id": "C133", "title": "Generated types read elements in any order", "statement": "Documents that differ only in the order of attributes and of elements with different names are read as the same value of the generated type.", "quantifier": "every generated struct and all documents that are reordered", "why_tests_cant": "all permutations of documents of any length", "anchors": ["xsdgen/xsdgen.go: genComplexType", "xsdgen/xsdgen.go: genComplexTypeMethods"]}
{"id": "C134", "title": "Generated types do not contain themselves", "statement": "No generated Go type has a value of the same type inside other than through a slice, which Go would reject.", "quantifier": "every list of schema types", "why_tests_cant": "type graphs of any size and shape", "anchors": ["xsdgen/xsdgen.go: genComplexType", "xsdgen/xsdgen.go: genSimpleType", "xsdgen/xsdgen.go: genTypeSpec"]}
{"id": "C135", "title": "Absent attributes and elements have their default", "statement": "When a document is read into a generated type, fields of attributes and elements that are absent get the default that the schema declares, or keep their zero value if there is none.", "quantifier": "every generated struct and every document", "why_tests_cant": "all combinations of present and absent content", "anchors": ["xsdgen/xsdgen.go: genComplexTypeMethods", "xsdgen/xsdgen.go: genComplexType"]}
{"id": "C136", "title": "Elements are plural and optional as their content model says", "statement": "In a parsed complex type, every element that can occur more than once in a document of its content model is plural, and every element that can be absent is optional.", "quantifier": "every content model and every sequence of elements it allows", "why_tests_cant": "content models nest to any depth and allow infinitely many documents", "anchors": ["xsd/parse.go: setChoicesOptional", "xsd/parse.go: parseComplexContent", "xsd/parse.go: joinElem", "xsd/parse.go: parsePlural"]}
{"id": "C137", "title": "Normalize is idempotent", "statement": "Normalizing schemas that have been normalized leaves them as they are.", "quantifier": "all schema documents", "why_tests_cant": "an earlier pass can find something to do in what a later pass made, which needs particular combinations", "anchors": ["xsd/parse.go: Normalize", "xsd/parse.go: setChoicesOptional", "xsd/parse.go: flattenRef", "xsd/parse.go: unpackGroups"]}
{"id": "C138", "title": "A reference has the type of the declaration it refers to", "statement": "In a parsed type, an element or attribute declared with ref has the type that the global declaration it refers to has.", "quantifier": "all schema documents and all references in them", "why_tests_cant": "which of the passes over a document sees a reference first does not show in documents whose declarations have the default types", "anchors": ["xsd/parse.go: Normalize", "xsd/parse.go: elementDefaultType", "xsd/parse.go: attributeDefaultType", "xsd/parse.go: deref"]}
{"id": "C139", "title": "The comment on a simple type has its documentation and its restrictions", "statement": "The comment on the Go declaration of a simple type has the documentation of the type in the schema, and tells the restrictions that the values are under: the enumerated values, the pattern, the greatest and the least length.", "quantifier": "all simple types, their chains of base types and their restrictions", "why_tests_cant": "restrictions combine, and the comment is only looked at for one of them at a time", "anchors": ["xsdgen/xsdgen.go: flatten1", "xsdgen/xsdgen.go: genSimpleType"]}
{"id": "C140", "title": "Functions and constants are declared as described", "statement": "A function that the generator describes by the texts of its parameters, results and receiver, its name and its body is declared with exactly these; a missing name or body, and texts that are no Go, are reported. Constants are declared with the names, types and values given.", "quantifier": "all names, bodies, lists of texts, and parsers of Go expressions", "why_tests_cant": "the texts come from schemas and from several places in the generators, tests only see those used", "anchors": ["internal/gen/gen.go: FieldList", "internal/gen/gen.go: Function.Decl", "internal/gen/gen.go: constDecl"]}
{"id": "C141", "title": "Generated source is marked, documented, and can be made again", "statement": "The source made from a file begins with the line that marks generated code, followed by the comment on the package directly in front of the package clause; making it leaves the file as it is, and the result depends on the file only.", "quantifier": "all files, comments and names of the program", "why_tests_cant": "the name of the program is the same in all tests, and each file is printed once", "anchors": ["internal/gen/gen.go: FormattedSource", "internal/gen/gen.go: PackageDoc"]}
{"id": "C142", "title": "Flags show what they were given", "statement": "The value that a flag of the commands shows tells the values it was given: setting what is shown again gives the same value, and different values are shown differently.", "quantifier": "all lists of replacement rules and of namespaces or ports", "why_tests_cant": "values with separators in them", "anchors": ["internal/commandline/cli.go: ReplaceRuleList.String", "internal/commandline/cli.go: Strings.String"]}
{"id": "C143", "title": "A definition shows its operations with their parameters", "statement": "The text of a WSDL definition has one line for each operation of each port, with the parameters of its input and output.", "quantifier": "all definitions", "why_tests_cant": "parts are given by type in some documents and by element in others", "anchors": ["wsdl/wsdl.go: Definition.String", "wsdl/wsdl.go: Message.String"]}
{"id": "C144", "title": "The operations of all documents get functions", "statement": "wsdlgen generates a function for every operation of every document that it is given.", "quantifier": "all lists of documents", "why_tests_cant": "tests give one document", "anchors": ["wsdlgen/wsdlgen.go: Config.GenAST"]}
{"id": "C145", "title": "Unmarshal decodes the element as it stands in the document", "statement": "For every element of a document that was parsed, Unmarshal gives the decoder what decoding this part of the document gives: the same names, attributes, text and elements inside.", "quantifier": "all documents and all elements in them", "why_tests_cant": "elements inside declarations of prefixes, escaped values and mixed content come together in many ways", "anchors": ["xmltree/xmltree.go: Unmarshal", "xmltree/marshal.go: Marshal"]}
{"id": "C146", "title": "The error of Parse says where the schema is wrong", "statement": "If Parse cannot read a type, the text of its error names elements of the schema, each inside the one before, from the definition of the type down to the element at fault, and says what is wrong with that element.", "quantifier": "all schema documents that can be normalized", "why_tests_cant": "any attribute of any element at any depth can be at fault, and the place is collected while panics unwind", "anchors": ["xsd/parse.go: parseTypes", "xsd/walk.go: walk", "xsd/walk.go: parseError.Error"]}
{"id": "C147", "title": "The error for a type that is not defined names it", "statement": "If a type that a schema refers to is not defined, the error of Parse names this type and where the schema refers to it; the documents alone determine it.", "quantifier": "all schema documents that can be normalized, all orders of maps", "why_tests_cant": "which of several missing types is found first depends on the order in which a map is visited", "anchors": ["xsd/parse.go: Schema.resolvePartialTypes", "xsd/parse.go: Schema.addElementTypeAliases"]}
{"id": "C148", "title": "Generating code takes bounded effort", "statement": "The number of types that GenCode collects from a schema before it declares them is bounded by a multiple of the size of the schema.", "quantifier": "all schemas, recursive or not, every configuration", "why_tests_cant": "the types of a small schema may be nested or use themselves in several places; a program that does not end has no result to compare", "anchors": ["xsdgen/xsdgen.go: Config.flatten", "xsdgen/xsdgen.go: Config.flatten1"]}
{"id": "C149", "title": "Normalize yields the canonical form", "statement": "The schemas that Normalize returns are those of the documents, in order, with all their declarations, and in canonical form: elements and attributes have types, types have names, complex types have explicit content, the alternatives of choices are optional, and there are no references and no groups inside types.", "quantifier": "all documents, schemas or documents that contain schemas such as WSDL, any number of them", "why_tests_cant": "the passes work on one memory and each relies on what the others leave behind; which slices share an array depends on their capacities", "anchors": ["xsd/parse.go: Normalize", "xsd/parse.go: copyEltNamesToAnonTypes", "xsd/parse.go: nameAnonymousTypes", "xsd/parse.go: expandComplexShorthand", "xsd/parse.go: elementDefaultType"]}
{"id": "C150", "title": "Elements keep their anonymous types", "statement": "What is declared with an anonymous type has that type after Normalize and Parse: it refers to a definition with the same contents as the anonymous type, whatever is nested inside, and no other type has the name of this definition.", "quantifier": "all schemas, however deeply anonymous types are nested in one another", "why_tests_cant": "types move out of types that move themselves, in two passes, and the names that they get depend on what has been named before", "anchors": ["xsd/parse.go: copyEltNamesToAnonTypes", "xsd/parse.go: nameAnonymousTypes", "xsd/parse.go: Normalize"]}
{"id": "C151", "title": "Parse accepts valid schemas", "statement": "Parse does not return an error or panic for a set of valid schemas: if flags, counts and facets have values that XML Schema allows, complex types have the content that it allows, and all types that are referred to are built in or defined in the set, then Parse succeeds.", "quantifier": "all sets of schemas of any size, with anonymous types nested to any depth", "why_tests_cant": "tests show that some valid schemas are accepted; here all of them are, and what Parse refuses is known to be wrong or is in the list of refuted cases", "anchors": ["xsd/parse.go: Parse", "xsd/parse.go: Normalize", "xsd/parse.go: parseTypes", "xsd/parse.go: parseMinMaxRestriction"]}
{"id": "C152", "title": "NameOf says when a name is unknown", "statement": "Asked for a name that is neither declared by a schema nor that of a type nor built in, Code.NameOf answers with NOTFOUND and the local name, whatever has been asked before, and leaves the code and the types as they are.", "quantifier": "every set of schemas, every configuration without preprocessing, every name, any calls of NameOf before", "why_tests_cant": "earlier calls add to the map of names and change the types; tests ask few questions in few orders", "anchors": ["xsdgen/xsdgen.go: Code.NameOf", "xsdgen/xsdgen.go: Config.gen"]}
{"id": "C153", "title": "Code is generated for every schema that Parse accepts", "statement": "If xsd.Parse accepts the documents, no option changes the types before code is generated and each requested namespace has a schema, then Config.GenCode answers with code: it does not fail, does not panic, and its recursion over the types ends.", "quantifier": "every set of schemas, every configuration whose preprocessing leaves the types alone, every order of maps", "why_tests_cant": "types refer to each other in cycles of any shape and the generator rewrites them while it walks over them; tests see a few sample schemas", "anchors": ["xsdgen/cli.go: Config.GenCode", "xsdgen/xsdgen.go: Config.gen", "xsdgen/xsdgen.go: Config.flatten", "xsdgen/xsdgen.go: Config.genTypeSpec", "xsdgen/xsdgen.go: Config.genSimpleListSpec"]}
{"id": "C154", "title": "wsdlgen generates a function for every operation", "statement": "If code can be generated for the schemas, and every operation has an input and an output whose messages are in the document and whose parts name types or top-level elements of the schemas, then wsdlgen generates a file, with one function for each operation of each port, in document order.", "quantifier": "all WSDL documents, all schemas that Parse accepts, all configurations, all orders of maps", "why_tests_cant": "Tests generate code for a few WSDL files; they cannot show that no other document with described parts makes the generator give up half way.", "anchors": ["wsdlgen/wsdlgen.go: Config.GenAST", "wsdlgen/wsdlgen.go: printer.operation", "wsdlgen/wsdlgen.go: printer.getPartType", "xsdgen/xsdgen.go: Code.NameOf"]}
{"id": "C155", "title": "References to types stand for the types of those names", "statement": "In the result of Parse, the base of every type, the types of its elements and attributes, and the members of every union are the types that the schema documents name: the built-in type of that name or the type that one of the schemas defines under that name. The document type of a schema has its top-level elements.", "quantifier": "all sets of schema documents that Parse accepts, all orders of maps", "why_tests_cant": "Linking goes through three tables and a loop per schema; tests look at a few references, not at every name in every position of every set of documents.", "anchors": ["xsd/parse.go: Parse", "xsd/parse.go: Schema.resolvePartialTypes", "xsd/parse.go: Schema.lookupType", "xsd/parse.go: parseSelfType"]}
{"id": "C156", "title": "The struct generated for a complex type has the fields that the schema documents declare", "statement": "Let GenCode be given schema documents that Parse accepts. For every complex type with content, or with text and attributes, in a target namespace that code is generated for, the file declares a struct of the Go name of the type. The struct has a field for every element and attribute that the definition declares and that no option asks to ignore. The field for an element is tagged with its name, is a slice if the element may occur more than once, and is omitted when empty if the element may be absent, is nillable or has a default; the field for an attribute is tagged as an attribute and is omitted when empty unless it is required. The Go type of the field is the one for the XML type that the document names; only for a type that adds no content, attributes, list, union or enumeration may it be the one for a type that this type is derived from. The struct has no other fields but those for text, wildcards, and the elements and attributes of types that this type is derived from.", "quantifier": "for all schema documents, environments, map orders and sort orders", "why_tests_cant": "The claim relates the text of a document to the generated declarations through normalization, parsing, the resolution of references, the flattening of types and the generation of code; tests compare the output for a few fixed documents with golden files.", "anchors": ["xsdgen/cli.go: Config.GenCode", "xsdgen/xsdgen.go: Config.genComplexType", "xsdgen/xsdgen.go: Config.flatten1", "xsd/parse.go: Parse"]}
{"id": "C157", "title": "The type generated for a simple type is what the schema documents say", "statement": "Let GenCode be given schema documents that Parse accepts. For every simple type that is a list, a union, an enumeration or a restriction of the length of values, in a target namespace that code is generated for, the file declares a type of the Go name of the simple type. A list is declared as a slice of the Go type of the built-in type that its item type is derived from in the end; a union is declared as a string; a restriction is declared as the Go type of the built-in type that the type it restricts is derived from in the end.", "quantifier": "for all documents, configurations without functions that change types, and map orders", "why_tests_cant": "the statement is about all schemas, with types in any number of documents that are derived from each other over any number of steps", "anchors": ["xsdgen/cli.go: Config.GenCode", "xsdgen/xsdgen.go: Config.genSimpleType", "xsdgen/xsdgen.go: Config.genSimpleListSpec", "xsd/parse.go: Schema.parseSimpleType"]}
{"id": "C158", "title": "GenCode answers for schemas that Parse accepts", "statement": "Let GenCode be given schema documents that Parse accepts, and let no option change the types before code is generated. GenCode answers: it gives code or an error, and neither panics nor runs on. It gives something other than code only if a namespace is asked for twice or has no schema, or if a type is a list of items of a type that xsdgen makes no lists of.", "quantifier": "for all documents, configurations that do not change types, and map orders", "why_tests_cant": "A test can show that a call ends for one set of documents. The claim is about loops over base types and recursion over the types of fields, for type graphs of any size and shape.", "anchors": ["xsdgen/cli.go: Config.GenCode", "xsdgen/xsdgen.go: Config.gen", "xsdgen/xsdgen.go: Config.flatten1"]}
{"id": "C159", "title": "The comment on a restricted simple type tells the values or lengths that the schema documents allow", "statement": "Let GenCode be given schema documents that Parse accepts. For every simple type that restricts another by enumerated values or by lengths, in a target namespace that code is generated for, the file declares a type of the Go name of the simple type. The comment on the declaration tells the enumerated values in the order in which the documents list them; if there are none, it tells the greatest length, and if there is none either, the least length.", "quantifier": "for all documents, configurations without functions that change types, and map orders", "why_tests_cant": "the comment is written while the type is flattened, which happens at different times for different orders of the types; a test sees one schema in one order", "anchors": ["xsdgen/cli.go: Config.GenCode", "xsdgen/xsdgen.go: Config.flatten1", "xsdgen/xsdgen.go: Config.genSimpleType", "xsd/parse.go: parseSimpleRestriction"]}
{"id": "C160", "title": "Functions that wsdlgen generates take and return the types that the schema documents declare", "statement": "Let wsdlgen generate a file from a WSDL document and schema documents. For every complex type with content, or with text and attributes, in a target namespace that code is generated for, the file declares a struct with the fields that the documents say, and for every simple type that is a list, a union, an enumeration or restricted in length it declares the Go type that the documents say. Wherever a part of a message is of such a type, whether the part names the type or an element declared with it, the function for the operation takes or returns a value of the declared type at the place of the part: as a parameter or result if there are no more parts than the limit allows, as a field of the struct for the message otherwise, and in the message that is sent or received.", "quantifier": "for all WSDL and schema documents, environments, map orders and limits on the number of parameters", "why_tests_cant": "The parts name types or elements of other documents; that the name in the signature is the name of the right declaration depends on the names given to types while code is generated and flattened, which a test sees for one document only.", "anchors": ["wsdlgen/wsdlgen.go: Config.GenAST", "wsdlgen/wsdlgen.go: printer.getPartType", "wsdlgen/wsdlgen.go: printer.opArgs", "xsdgen/xsdgen.go: Code.NameOf", "xsd/parse.go: Parse"]}
