import Verif.Props.EndToEnd
set_option autoImplicit false

/-! The tests of xsd (xsd/xsd_test.go, with the documents and results in xsd/testdata), run on the model. -/

namespace GoXml.Xsd.RepoTests
open Xsdgen

/-- JSON values (the test data has no other numbers). -/
inductive Json where
  | null
  | bool (b : Bool)
  | num (n : Int)
  | str (s : Str)
  | arr (l : List Json)
  | obj (l : List (Str × Json))

/-- Keys of objects. -/
def Json.get (k : Str) : List (Str × Json) → Option Json
  | [] => none
  | (k', v) :: l => if k' = k then some v else Json.get k l

def nameJson (n : XName) : Json := .obj [(b!"Space", .str n.space), (b!"Local", .str n.loc)]

/-- `encoding/json` of a date. -/
def dateJson (s : Str) : Json := .str (s ++ b!"T00:00:00Z")

/-- `encoding/json` of a type, to depth `n`. Simplification: only the fields that the test data mentions, and `Abstract` and `Extends`. -/
def typeJson (H : THeap) : Nat → Ty → Json
  | 0, _ => .null
  | _ + 1, .builtin b => .num b
  | _ + 1, .link n => nameJson n
  | n + 1, .obj i => match H[i]? with
    | none => .null
    | some (.simple s) => .obj [(b!"Name", nameJson s.name), (b!"Doc", .str s.doc),
        (b!"Base", match s.base with
          | some t => typeJson H n t
          | none => .null),
        (b!"Anonymous", .bool s.anonymous), (b!"List", .bool s.list), (b!"Union", if s.union = [] then .null else .arr (s.union.map (typeJson H n))),
        (b!"Restriction", .obj [(b!"MinDate", dateJson s.restriction.minDate), (b!"MaxDate", dateJson s.restriction.maxDate)])]
    | some (.complex c) => .obj [(b!"Name", nameJson c.name), (b!"Doc", .str c.doc),
        (b!"Base", match c.base with
          | some t => typeJson H n t
          | none => .null),
        (b!"Anonymous", .bool c.anonymous), (b!"Abstract", .bool c.abstract), (b!"Extends", .bool c.extends_),
        (b!"Mixed", .bool c.mixed),
        (b!"Elements", .arr (c.elements.map fun e => .obj [(b!"Name", nameJson e.name), (b!"Doc", .str e.doc),
          (b!"Type", typeJson H n e.type), (b!"Plural", .bool e.plural), (b!"Optional", .bool e.optional)])),
        (b!"Attributes", .arr (c.attributes.map fun a => .obj [(b!"Name", nameJson a.name), (b!"Doc", .str a.doc),
          (b!"Type", typeJson H n a.type), (b!"Plural", .bool a.plural), (b!"Optional", .bool a.optional)]))]

/-- `testCompare` (xsd/xsd_test.go:80-136) reports no error; `got` is compared to depth `n`. -/
def testCompare : Nat → (got want : Json) → Bool
  | 0, _, _ => false
  | n + 1, .arr l, .arr w => l.length == w.length && (l.zip w).all fun p => testCompare n p.1 p.2
  | n + 1, .obj l, .obj w => w.all fun p => match Json.get p.1 l with
    | some v => testCompare n v p.2
    | none => false
  | _ + 1, .null, .null => true
  | _ + 1, .bool a, .bool b => a == b
  | _ + 1, .num a, .num b => a == b
  | _ + 1, .str a, .str b => a == b
  | _ + 1, _, _ => false

/-- `test.Test` (xsd/xsd_test.go:43-66) of the schema that `parseFragment` (xsd/xsd_test.go:155-190) returns: the first one with target
namespace `tns`. -/
def passes (doc : Str) (want : Json) : Bool :=
  match readSchemas [doc], want with
  | some (ss, H), .obj types => match ss.find? fun s => s.targetNS = b!"tns" with
    | none => false
    | some s => types.all fun p => match s.types.find? fun q => q.1 = ⟨b!"tns", p.1⟩ with
      | none => false
      | some q => testCompare 20 (typeJson H 20 q.2) p.2
  | _, _ => false

/-- xsd/testdata/AnnotationEOF.xsd -/
def annotationEOFDoc : Str :=
    b!"<schema targetNamespace=\"tns\" xmlns=\"http://www.w3.org/2001/XMLSchema\" xmlns:tns=\"tns\"><!-- regression test fo" ++
    b!"r issue #48\n" ++
    b!"    Annotation UnmarshalXML EOF Error https://github.com/droyo/go-xml/issues/48)  -->\n" ++
    b!"<complexType name=\"someElement\">\n" ++
    b!"    <element name=\"Country_ISO_Code\" type=\"string\" maxOccurs=\"1\">\n" ++
    b!"        <annotation>\n" ++
    b!"            <documentation>ISO Code identifying the country where the naming rules for this name are defined.<" ++
    b!"/documentation>\n" ++
    b!"            <appinfo>\n" ++
    b!"                <Validation>\n" ++
    b!"                    <documentation>A valid instance of Country must exist for the value of Country ISO Code.</" ++
    b!"documentation>\n" ++
    b!"                    <Validation_Message>No Country with that Country Code Exists.</Validation_Message>\n" ++
    b!"                </Validation>\n" ++
    b!"            </appinfo>\n" ++
    b!"        </annotation>\n" ++
    b!"    </element>\n" ++
    b!"    <attribute name=\"Attr1\" type=\"int\"/>\n" ++
    b!"</complexType></schema>"

/-- xsd/testdata/AnnotationEOF.json -/
def annotationEOFWant : Json :=
  .obj [(b!"someElement", .obj [(b!"Elements", .arr [.obj [(b!"Name", .obj [(b!"Local", .str b!"Country_ISO_Code")]), (b!"Doc", .str b!"ISO Code identifying the country where the naming rules for this name are defined.")]])])]

theorem testAnnotationEOF : passes annotationEOFDoc annotationEOFWant = true := by decide +kernel

/-- xsd/testdata/Anonymous.xsd -/
def anonymousDoc : Str :=
    b!"<schema targetNamespace=\"tns\" xmlns=\"http://www.w3.org/2001/XMLSchema\" xmlns:tns=\"tns\"><!-- It's easier to wor" ++
    b!"k with XSD if every type has a name, so the\n" ++
    b!"  xsd package generates names for unnamed types. -->\n" ++
    b!"<element name=\"someElement\">\n" ++
    b!"  <complexType>\n" ++
    b!"    <element minOccurs=\"0\" maxOccurs=\"1\" name=\"Field1\" type=\"string\"/>\n" ++
    b!"    <attribute name=\"Attr1\" type=\"int\"/>\n" ++
    b!"  </complexType>\n" ++
    b!"</element>\n" ++
    b!"</schema>"

/-- xsd/testdata/Anonymous.json -/
def anonymousWant : Json :=
  .obj [(b!"someElement", .obj [(b!"Elements", .arr [.obj [(b!"Name", .obj [(b!"Local", .str b!"Field1")]), (b!"Type", .num 38)]]), (b!"Attributes", .arr [.obj [(b!"Name", .obj [(b!"Local", .str b!"Attr1")]), (b!"Type", .num 28)]])])]

theorem testAnonymous : passes anonymousDoc anonymousWant = true := by decide +kernel

/-- xsd/testdata/AttributeGroup.xsd -/
def attributeGroupDoc : Str :=
    b!"<schema targetNamespace=\"tns\" xmlns=\"http://www.w3.org/2001/XMLSchema\" xmlns:tns=\"tns\"><!-- \n" ++
    b!"  The xsd package flattens all references. So a type that references an attributeGroup\n" ++
    b!"  is represented as a type that contains all the attributes in said group.\n" ++
    b!"-->\n" ++
    b!"<attributeGroup name=\"myAttributeGroup\">\n" ++
    b!"  <attribute name=\"someattribute1\" type=\"integer\"/>\n" ++
    b!"  <attribute name=\"someattribute2\" type=\"string\"/>\n" ++
    b!"</attributeGroup>\n" ++
    b!"\n" ++
    b!"<complexType name=\"myElementType\">\n" ++
    b!"  <attributeGroup ref=\"tns:myAttributeGroup\"/>\n" ++
    b!"  <element name=\"Field1\" ref=\"tns:SomeElement\" />\n" ++
    b!"</complexType>\n" ++
    b!"\n" ++
    b!"<element name=\"SomeElement\" type=\"string\" />\n" ++
    b!"</schema>"

/-- xsd/testdata/AttributeGroup.json -/
def attributeGroupWant : Json :=
  .obj [(b!"myElementType", .obj [(b!"Elements", .arr [.obj [(b!"Name", .obj [(b!"Local", .str b!"Field1")]), (b!"Type", .num 38)]]), (b!"Attributes", .arr [.obj [(b!"Name", .obj [(b!"Local", .str b!"someattribute1")]), (b!"Type", .num 29)], .obj [(b!"Name", .obj [(b!"Local", .str b!"someattribute2")]), (b!"Type", .num 38)]])])]

theorem testAttributeGroup_refuted : passes attributeGroupDoc attributeGroupWant = false := by decide +kernel

/-- xsd/testdata/ComplexType.xsd -/
def complexTypeDoc : Str :=
    b!"<schema targetNamespace=\"tns\" xmlns=\"http://www.w3.org/2001/XMLSchema\" xmlns:tns=\"tns\"><complexType name='Cust" ++
    b!"omerType'>\n" ++
    b!"  <sequence>\n" ++
    b!"    <element name='CompanyName' type='string'/>\n" ++
    b!"    <element name='ContactName' type='string'/>\n" ++
    b!"    <element name='ContactTitle' type='string'/>\n" ++
    b!"    <element name='Phone' type='string'/>\n" ++
    b!"    <element name='Fax' minOccurs='0' type='string'/>\n" ++
    b!"    <element name='FullAddress' ref='tns:AddressType'/>\n" ++
    b!"  </sequence>\n" ++
    b!"  <attribute name='CustomerID' type='token'/>\n" ++
    b!"</complexType>\n" ++
    b!"\n" ++
    b!"<element name='AddressType'>\n" ++
    b!"<complexType>\n" ++
    b!"  <sequence>\n" ++
    b!"    <element name='Address' type='string'/>\n" ++
    b!"    <element name='City' type='string'/>\n" ++
    b!"    <element name='Region' type='string'/>\n" ++
    b!"    <element name='PostalCode' type='string' />\n" ++
    b!"    <element name='Country' type='string'/>\n" ++
    b!"  </sequence>\n" ++
    b!"  <attribute name='CustomerID' type='token'/>\n" ++
    b!"</complexType>\n" ++
    b!"</element>\n" ++
    b!"</schema>"

/-- xsd/testdata/ComplexType.json -/
def complexTypeWant : Json :=
  .obj [(b!"CustomerType", .obj [(b!"Elements", .arr [.obj [(b!"Name", .obj [(b!"Local", .str b!"CompanyName")]), (b!"Type", .num 38)], .obj [(b!"Name", .obj [(b!"Local", .str b!"ContactName")]), (b!"Type", .num 38)], .obj [(b!"Name", .obj [(b!"Local", .str b!"ContactTitle")]), (b!"Type", .num 38)], .obj [(b!"Name", .obj [(b!"Local", .str b!"Phone")]), (b!"Type", .num 38)], .obj [(b!"Name", .obj [(b!"Local", .str b!"Fax")]), (b!"Type", .num 38)], .obj [(b!"Name", .obj [(b!"Local", .str b!"FullAddress")]), (b!"Type", .obj [(b!"Elements", .arr [.obj [(b!"Name", .obj [(b!"Local", .str b!"Address")]), (b!"Type", .num 38)], .obj [(b!"Name", .obj [(b!"Local", .str b!"City")]), (b!"Type", .num 38)], .obj [(b!"Name", .obj [(b!"Local", .str b!"Region")]), (b!"Type", .num 38)], .obj [(b!"Name", .obj [(b!"Local", .str b!"PostalCode")]), (b!"Type", .num 38)], .obj [(b!"Name", .obj [(b!"Local", .str b!"Country")]), (b!"Type", .num 38)]]), (b!"Attributes", .arr [.obj [(b!"Name", .obj [(b!"Local", .str b!"CustomerID")]), (b!"Type", .num 40)]])])]]), (b!"Attributes", .arr [.obj [(b!"Name", .obj [(b!"Local", .str b!"CustomerID")]), (b!"Type", .num 40)]])])]

theorem testComplexType_refuted : passes complexTypeDoc complexTypeWant = false := by decide +kernel

/-- xsd/testdata/DateRestriction.xsd -/
def dateRestrictionDoc : Str :=
    b!"<schema targetNamespace=\"tns\" xmlns=\"http://www.w3.org/2001/XMLSchema\" xmlns:tns=\"tns\"><simpleType name=\"adult" ++
    b!"-birthday\">\n" ++
    b!"  <restriction base=\"date\">\n" ++
    b!"    <minInclusive value=\"1900-01-01\" />\n" ++
    b!"    <maxInclusive value=\"2002-01-01\" />\n" ++
    b!"  </restriction>\n" ++
    b!"</simpleType>\n" ++
    b!"\n" ++
    b!"<simpleType name=\"child-birthday\">\n" ++
    b!"  <restriction base=\"date\">\n" ++
    b!"    <minInclusive value=\"2003-01-01\" />\n" ++
    b!"    <maxInclusive value=\"2021-01-01\" />\n" ++
    b!"  </restriction>\n" ++
    b!"</simpleType>\n" ++
    b!"</schema>"

/-- xsd/testdata/DateRestriction.json -/
def dateRestrictionWant : Json :=
  .obj [(b!"adult-birthday", .obj [(b!"Base", .num 16), (b!"Restriction", .obj [(b!"MinDate", .str b!"1900-01-01T00:00:00Z"), (b!"MaxDate", .str b!"2002-01-01T00:00:00Z")])]), (b!"child-birthday", .obj [(b!"Base", .num 16), (b!"Restriction", .obj [(b!"MinDate", .str b!"2003-01-01T00:00:00Z"), (b!"MaxDate", .str b!"2021-01-01T00:00:00Z")])])]

theorem testDateRestriction : passes dateRestrictionDoc dateRestrictionWant = true := by decide +kernel

/-- xsd/testdata/DefaultType.xsd -/
def defaultTypeDoc : Str :=
    b!"<schema targetNamespace=\"tns\" xmlns=\"http://www.w3.org/2001/XMLSchema\" xmlns:tns=\"tns\"><!--\n" ++
    b!"\n" ++
    b!"Attributes may have the use='prohibited' attribute, which means they\n" ++
    b!"cannot be used in a valid document. However, other types may reference\n" ++
    b!"those attributes or derive types from them and be expected to work.\n" ++
    b!"\n" ++
    b!"See https://www.w3.org/TR/xmlschema11-1/#declare-attribute\n" ++
    b!"-->\n" ++
    b!"<complexType name=\"localElement\">\n" ++
    b!"  <attribute name=\"substitutionGroup\" />\n" ++
    b!"  <sequence>\n" ++
    b!"    <element name=\"annotation\" />\n" ++
    b!"  </sequence>\n" ++
    b!"</complexType>\n" ++
    b!"\n" ++
    b!"</schema>"

/-- xsd/testdata/DefaultType.json -/
def defaultTypeWant : Json :=
  .obj [(b!"localElement", .obj [(b!"Attributes", .arr [.obj [(b!"Name", .obj [(b!"Local", .str b!"substitutionGroup")]), (b!"Type", .num 49)]]), (b!"Elements", .arr [.obj [(b!"Name", .obj [(b!"Local", .str b!"annotation")]), (b!"Type", .num 0)]])])]

theorem testDefaultType : passes defaultTypeDoc defaultTypeWant = true := by decide +kernel

/-- xsd/testdata/EmptyComplexType.xsd -/
def emptyComplexTypeDoc : Str :=
    b!"<schema targetNamespace=\"tns\" xmlns=\"http://www.w3.org/2001/XMLSchema\" xmlns:tns=\"tns\"><complexType name=\"Noth" ++
    b!"ingness\">\n" ++
    b!"    <annotation>\n" ++
    b!"        <documentation>This is an empty type</documentation>\n" ++
    b!"    </annotation>\n" ++
    b!"</complexType>\n" ++
    b!"</schema>"

/-- xsd/testdata/EmptyComplexType.json -/
def emptyComplexTypeWant : Json :=
  .obj [(b!"Nothingness", .obj [(b!"Doc", .str b!"This is an empty type"), (b!"Base", .num 0)])]

theorem testEmptyComplexType : passes emptyComplexTypeDoc emptyComplexTypeWant = true := by decide +kernel

/-- xsd/testdata/ImportType.xsd -/
def importTypeDoc : Str :=
    b!"<!--\n" ++
    b!"The xsd package normalizes all XSD files, establishing the following\n" ++
    b!"invariants:\n" ++
    b!"\n" ++
    b!"* All types have a name\n" ++
    b!"* All types are declared at the top-level of the schema\n" ++
    b!"* There are no references (ref=) in the document.\n" ++
    b!"\n" ++
    b!"This tests a corner case when one schema references elements in\n" ++
    b!"another schema, and the XML namespace prefixes of each schema\n" ++
    b!"are different.\n" ++
    b!"-->\n" ++
    b!"<test>\n" ++
    b!"  <schema targetNamespace=\"tns\"\n" ++
    b!"          xmlns=\"http://www.w3.org/2001/XMLSchema\"\n" ++
    b!"          xmlns:tns=\"tns\"\n" ++
    b!"          xmlns:otherns=\"otherns\">\n" ++
    b!"    <import namespace=\"otherns\" />\n" ++
    b!"    <complexType name=\"MyType\">\n" ++
    b!"      <sequence>\n" ++
    b!"        <element name=\"location\" type=\"string\" />\n" ++
    b!"        <element ref=\"otherns:MyFoo\" minOccurs=\"1\" />\n" ++
    b!"      </sequence>\n" ++
    b!"    </complexType>\n" ++
    b!"  </schema>\n" ++
    b!"\n" ++
    b!"  <xs:schema targetNamespace=\"otherns\"\n" ++
    b!"          xmlns:xs=\"http://www.w3.org/2001/XMLSchema\"\n" ++
    b!"          xmlns:tns=\"tns\"\n" ++
    b!"          xmlns=\"otherns\">\n" ++
    b!"    <xs:element name=\"MyFoo\">\n" ++
    b!"      <xs:simpleType>\n" ++
    b!"        <xs:restriction base=\"xs:string\">\n" ++
    b!"          <xs:pattern value=\".*\" />\n" ++
    b!"        </xs:restriction>\n" ++
    b!"      </xs:simpleType>\n" ++
    b!"    </xs:element>\n" ++
    b!"    \n" ++
    b!"    <!-- Ensure the MyFoo element's anonymous type does\n" ++
    b!"      not get the name \"MyFoo\" by providing an explicit MyFoo type -->\n" ++
    b!"    <xs:complexType name=\"MyFoo\">\n" ++
    b!"      <xs:sequence>\n" ++
    b!"        <xs:element name=\"uid\" type=\"xs:string\" />\n" ++
    b!"      </xs:sequence>\n" ++
    b!"    </xs:complexType>\n" ++
    b!"  </xs:schema>\n" ++
    b!"</test>\n"

/-- xsd/testdata/ImportType.json -/
def importTypeWant : Json :=
  .obj []

theorem testImportType : passes importTypeDoc importTypeWant = true := by decide +kernel

/-- xsd/testdata/MixedContent.xsd -/
def mixedContentDoc : Str :=
    b!"<schema targetNamespace=\"tns\" xmlns=\"http://www.w3.org/2001/XMLSchema\" xmlns:tns=\"tns\"><!-- explicit mixed=tru" ++
    b!"e on complexType -->\n" ++
    b!"<complexType name=\"explicit\" mixed=\"true\">\n" ++
    b!"  <element name=\"value\" type=\"decimal\"/>\n" ++
    b!"</complexType>\n" ++
    b!"\n" ++
    b!"<!-- explicit mixed=true on complexContent -->\n" ++
    b!"<complexType name=\"explicitComplexContent\">\n" ++
    b!"  <complexContent mixed=\"true\">\n" ++
    b!"    <extension base=\"anyType\">\n" ++
    b!"      <element name=\"value\" type=\"decimal\"/>\n" ++
    b!"    </extension>\n" ++
    b!"  </complexContent>\n" ++
    b!"</complexType>\n" ++
    b!"\n" ++
    b!"<!-- implicit mixed by extending anyType -->\n" ++
    b!"<complexType name=\"extendAnyType\">\n" ++
    b!"  <complexContent>\n" ++
    b!"    <extension base=\"anyType\">\n" ++
    b!"      <element name=\"value\" type=\"decimal\"/>\n" ++
    b!"    </extension>\n" ++
    b!"  </complexContent>\n" ++
    b!"</complexType>\n" ++
    b!"\n" ++
    b!"<!-- implicit mixed by extending a simple type (this is our own interpretation\n" ++
    b!"     of the spec) -->\n" ++
    b!"<complexType name=\"extendSimpleType\">\n" ++
    b!"  <simpleContent>\n" ++
    b!"    <extension base=\"decimal\">\n" ++
    b!"      <attribute name=\"precision\" type=\"int\"/>\n" ++
    b!"    </extension>\n" ++
    b!"  </simpleContent>\n" ++
    b!"</complexType>\n" ++
    b!"\n" ++
    b!"<!-- implicit mixed by restricting a simple type (same as extending) -->\n" ++
    b!"<complexType name=\"restrictSimpleType\">\n" ++
    b!"  <simpleContent>\n" ++
    b!"    <restriction base=\"decimal\">\n" ++
    b!"      <minInclusive value=\"100\"/>\n" ++
    b!"    </restriction>\n" ++
    b!"  </simpleContent>\n" ++
    b!"</complexType>\n" ++
    b!"\n" ++
    b!"<!-- implicit mixed by extending a mixed complexType -->\n" ++
    b!"<complexType name=\"extendMixedComplexType\">\n" ++
    b!"  <complexContent>\n" ++
    b!"    <extension base=\"tns:explicit\">\n" ++
    b!"      <element name=\"geo\" type=\"string\"/>\n" ++
    b!"    </extension>\n" ++
    b!"  </complexContent>\n" ++
    b!"</complexType>\n" ++
    b!"\n" ++
    b!"<!-- NOT MIXED: restricting a mixed type (explicit) -->\n" ++
    b!"<complexType name=\"explicitRestrictMixedType\" mixed=\"false\">\n" ++
    b!"  <complexContent>\n" ++
    b!"    <restriction base=\"tns:explicit\">\n" ++
    b!"    </restriction>\n" ++
    b!"  </complexContent>\n" ++
    b!"</complexType>\n" ++
    b!"\n" ++
    b!"<!-- NOT MIXED: restricting a mixed type (implicit) -->\n" ++
    b!"<complexType name=\"implicitRestrictMixedType\">\n" ++
    b!"    <restriction base=\"tns:explicit\"/>\n" ++
    b!"</complexType>\n" ++
    b!"</schema>"

/-- xsd/testdata/MixedContent.json -/
def mixedContentWant : Json :=
  .obj [(b!"explicitComplexContent", .obj [(b!"Mixed", .bool true)]), (b!"explicit", .obj [(b!"Mixed", .bool true)]), (b!"explicitRestrictMixedType", .obj [(b!"Mixed", .bool false)]), (b!"extendAnyType", .obj [(b!"Mixed", .bool true)]), (b!"extendMixedComplexType", .obj [(b!"Mixed", .bool true)]), (b!"extendSimpleType", .obj [(b!"Mixed", .bool true)]), (b!"implicitRestrictMixedType", .obj [(b!"Mixed", .bool false)]), (b!"restrictSimpleType", .obj [(b!"Mixed", .bool true)])]

theorem testMixedContent : passes mixedContentDoc mixedContentWant = true := by decide +kernel

/-- xsd/testdata/Plurality.xsd -/
def pluralityDoc : Str :=
    b!"<schema targetNamespace=\"tns\" xmlns=\"http://www.w3.org/2001/XMLSchema\" xmlns:tns=\"tns\"><!-- The xsd package co" ++
    b!"nsiders an element as singular if it may occur >1 times\n" ++
    b!"     in a document. -->\n" ++
    b!"     \n" ++
    b!"<complexType name=\"myType\">\n" ++
    b!"  <element name=\"singular\" maxOccurs=\"1\" type=\"int\" />\n" ++
    b!"  <element name=\"pluralMax\" maxOccurs=\"unbounded\" type=\"int\" />\n" ++
    b!"  <element name=\"pluralMin\" minOccurs=\"2\" type=\"int\" />\n" ++
    b!"</complexType>\n" ++
    b!"</schema>"

/-- xsd/testdata/Plurality.json -/
def pluralityWant : Json :=
  .obj [(b!"myType", .obj [(b!"Elements", .arr [.obj [(b!"Name", .obj [(b!"Local", .str b!"singular")]), (b!"Plural", .bool false)], .obj [(b!"Name", .obj [(b!"Local", .str b!"pluralMax")]), (b!"Plural", .bool true)], .obj [(b!"Name", .obj [(b!"Local", .str b!"pluralMin")]), (b!"Plural", .bool true)]])])]

theorem testPlurality : passes pluralityDoc pluralityWant = true := by decide +kernel

/-- xsd/testdata/Shorthand.xsd -/
def shorthandDoc : Str :=
    b!"<schema targetNamespace=\"tns\" xmlns=\"http://www.w3.org/2001/XMLSchema\" xmlns:tns=\"tns\"><!-- \n" ++
    b!"\n" ++
    b!"When the <complexType> source declaration has neither <simpleContent>\n" ++
    b!"nor <complexContent> as a child, it is taken as shorthand for complex\n" ++
    b!"content restricting ·xs:anyType·.\n" ++
    b!"\n" ++
    b!"See https://www.w3.org/TR/xmlschema11-1/#dcl.ctd.ctcc.implicit \n" ++
    b!"-->\n" ++
    b!"<complexType name=\"internationalPrice\">\n" ++
    b!"  <attribute name=\"currency\" type=\"string\"/>\n" ++
    b!"  <attribute name=\"value\"    type=\"decimal\"/>\n" ++
    b!"</complexType>\n" ++
    b!"</schema>"

/-- xsd/testdata/Shorthand.json -/
def shorthandWant : Json :=
  .obj [(b!"internationalPrice", .obj [(b!"Extends", .bool false), (b!"Base", .num 0)])]

theorem testShorthand : passes shorthandDoc shorthandWant = true := by decide +kernel

/-- xsd/testdata/SimpleList.xsd -/
def simpleListDoc : Str :=
    b!"<schema targetNamespace=\"tns\" xmlns=\"http://www.w3.org/2001/XMLSchema\" xmlns:tns=\"tns\"><simpleType name=\"strin" ++
    b!"gList\">\n" ++
    b!"   <list itemType=\"string\" />\n" ++
    b!"</simpleType>\n" ++
    b!"</schema>"

/-- xsd/testdata/SimpleList.json -/
def simpleListWant : Json :=
  .obj [(b!"stringList", .obj [(b!"Base", .num 38), (b!"List", .bool true)])]

theorem testSimpleList : passes simpleListDoc simpleListWant = true := by decide +kernel

/-- xsd/testdata/SimpleType.xsd -/
def simpleTypeDoc : Str :=
    b!"<schema targetNamespace=\"tns\" xmlns=\"http://www.w3.org/2001/XMLSchema\" xmlns:tns=\"tns\"><simpleType name=\"SKU\">" ++
    b!"\n" ++
    b!"  <restriction base=\"string\">\n" ++
    b!"    <pattern value=\"\\d{3}-[A-Z]{2}\"/>\n" ++
    b!"  </restriction>\n" ++
    b!"</simpleType>\n" ++
    b!"</schema>"

/-- xsd/testdata/SimpleType.json -/
def simpleTypeWant : Json :=
  .obj [(b!"SKU", .obj [(b!"List", .bool false), (b!"Union", .null), (b!"Base", .num 38)])]

theorem testSimpleType : passes simpleTypeDoc simpleTypeWant = true := by decide +kernel

/-- Only the type of the element with `ref` is not as wanted: it is `anyType`, as `C138_default_partial` says. -/
theorem testAttributeGroup_otherwise : passes attributeGroupDoc (
  .obj [(b!"myElementType", .obj [(b!"Elements", .arr [.obj [(b!"Name", .obj [(b!"Local", .str b!"Field1")]), (b!"Type", .num 0)]]), (b!"Attributes", .arr [.obj [(b!"Name", .obj [(b!"Local", .str b!"someattribute1")]), (b!"Type", .num 29)], .obj [(b!"Name", .obj [(b!"Local", .str b!"someattribute2")]), (b!"Type", .num 38)]])])]) = true := by decide +kernel

/-- Only the type of the element with `ref` is not as wanted: it is `anyType`, as `C138_default_partial` says. -/
theorem testComplexType_otherwise : passes complexTypeDoc (
  .obj [(b!"CustomerType", .obj [(b!"Elements", .arr [.obj [(b!"Name", .obj [(b!"Local", .str b!"CompanyName")]), (b!"Type", .num 38)], .obj [(b!"Name", .obj [(b!"Local", .str b!"ContactName")]), (b!"Type", .num 38)], .obj [(b!"Name", .obj [(b!"Local", .str b!"ContactTitle")]), (b!"Type", .num 38)], .obj [(b!"Name", .obj [(b!"Local", .str b!"Phone")]), (b!"Type", .num 38)], .obj [(b!"Name", .obj [(b!"Local", .str b!"Fax")]), (b!"Type", .num 38)], .obj [(b!"Name", .obj [(b!"Local", .str b!"FullAddress")]), (b!"Type", .num 0)]]), (b!"Attributes", .arr [.obj [(b!"Name", .obj [(b!"Local", .str b!"CustomerID")]), (b!"Type", .num 40)]])])]) = true := by decide +kernel

end GoXml.Xsd.RepoTests
