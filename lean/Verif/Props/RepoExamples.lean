import Verif.Props.EndToEnd
set_option autoImplicit false

/-! The examples of xsdgen (xsdgen/example_test.go), run on the model. Of the bundled schemas, the part for SOAP arrays is given. -/

namespace GoXml.Xsdgen.RepoExamples
open Xsd

/-- Part of the schema for the SOAP encoding (xsd/standard-schema.go, `soapenc11xsd`): the declarations up to and including the type `Array`,
and the type `boolean`. -/
def soapencPart : Str :=
    b!"<xs:schema xmlns:xs=\"http://www.w3.org/2001/XMLSchema\"\n" ++
    b!"           xmlns:tns=\"http://schemas.xmlsoap.org/soap/encoding/\"\n" ++
    b!"           targetNamespace=\"http://schemas.xmlsoap.org/soap/encoding/\" >\n" ++
    b!"        \n" ++
    b!" <xs:attribute name=\"root\" >\n" ++
    b!"   <xs:annotation>\n" ++
    b!"     <xs:documentation>\n" ++
    b!"\t   'root' can be used to distinguish serialization roots from other\n" ++
    b!"       elements that are present in a serialization but are not roots of\n" ++
    b!"       a serialized value graph \n" ++
    b!"\t </xs:documentation>\n" ++
    b!"   </xs:annotation>\n" ++
    b!"   <xs:simpleType>\n" ++
    b!"     <xs:restriction base='xs:boolean'>\n" ++
    b!"\t   <xs:pattern value='0|1' />\n" ++
    b!"\t </xs:restriction>\n" ++
    b!"   </xs:simpleType>\n" ++
    b!" </xs:attribute>\n" ++
    b!"\n" ++
    b!"  <xs:attributeGroup name=\"commonAttributes\" >\n" ++
    b!"    <xs:annotation>\n" ++
    b!"\t  <xs:documentation>\n" ++
    b!"\t    Attributes common to all elements that function as accessors or \n" ++
    b!"        represent independent (multi-ref) values.  The href attribute is\n" ++
    b!"        intended to be used in a manner like CONREF.  That is, the element\n" ++
    b!"        content should be empty iff the href attribute appears\n" ++
    b!"\t  </xs:documentation>\n" ++
    b!"\t</xs:annotation>\n" ++
    b!"    <xs:attribute name=\"id\" type=\"xs:ID\" />\n" ++
    b!"    <xs:attribute name=\"href\" type=\"xs:anyURI\" />\n" ++
    b!"    <xs:anyAttribute namespace=\"##other\" processContents=\"lax\" />\n" ++
    b!"  </xs:attributeGroup>\n" ++
    b!"\n" ++
    b!"  <!-- Global Attributes.  The following attributes are intended to be usable via qualified attribute names on" ++
    b!" any complex type referencing them. -->\n" ++
    b!"       \n" ++
    b!"  <!-- Array attributes. Needed to give the type and dimensions of an array's contents, and the offset for par" ++
    b!"tially-transmitted arrays. -->\n" ++
    b!"   \n" ++
    b!"  <xs:simpleType name=\"arrayCoordinate\" >\n" ++
    b!"    <xs:restriction base=\"xs:string\" />\n" ++
    b!"  </xs:simpleType>\n" ++
    b!"          \n" ++
    b!"  <xs:attribute name=\"arrayType\" type=\"xs:string\" />\n" ++
    b!"  <xs:attribute name=\"offset\" type=\"tns:arrayCoordinate\" />\n" ++
    b!"  \n" ++
    b!"  <xs:attributeGroup name=\"arrayAttributes\" >\n" ++
    b!"    <xs:attribute ref=\"tns:arrayType\" />\n" ++
    b!"    <xs:attribute ref=\"tns:offset\" />\n" ++
    b!"  </xs:attributeGroup>    \n" ++
    b!"  \n" ++
    b!"  <xs:attribute name=\"position\" type=\"tns:arrayCoordinate\" /> \n" ++
    b!"  \n" ++
    b!"  <xs:attributeGroup name=\"arrayMemberAttributes\" >\n" ++
    b!"    <xs:attribute ref=\"tns:position\" />\n" ++
    b!"  </xs:attributeGroup>    \n" ++
    b!"\n" ++
    b!"  <xs:group name=\"Array\" >\n" ++
    b!"    <xs:sequence>\n" ++
    b!"      <xs:any namespace=\"##any\" minOccurs=\"0\" maxOccurs=\"unbounded\" processContents=\"lax\" />\n" ++
    b!"\t</xs:sequence>\n" ++
    b!"  </xs:group>\n" ++
    b!"\n" ++
    b!"  <xs:element name=\"Array\" type=\"tns:Array\" />\n" ++
    b!"  <xs:complexType name=\"Array\" >\n" ++
    b!"    <xs:annotation>\n" ++
    b!"\t  <xs:documentation>\n" ++
    b!"\t   'Array' is a complex type for accessors identified by position \n" ++
    b!"\t  </xs:documentation>\n" ++
    b!"\t</xs:annotation>\n" ++
    b!"    <xs:group ref=\"tns:Array\" minOccurs=\"0\" />\n" ++
    b!"    <xs:attributeGroup ref=\"tns:arrayAttributes\" />\n" ++
    b!"    <xs:attributeGroup ref=\"tns:commonAttributes\" />\n" ++
    b!"  </xs:complexType>\n" ++
    b!"<xs:complexType name=\"boolean\" >\n" ++
    b!"    <xs:simpleContent>\n" ++
    b!"      <xs:extension base=\"xs:boolean\" >\n" ++
    b!"        <xs:attributeGroup ref=\"tns:commonAttributes\" />\n" ++
    b!"      </xs:extension>\n" ++
    b!"    </xs:simpleContent>\n" ++
    b!"  </xs:complexType>\n" ++
    b!"</xs:schema>\n"

/-- The document of `ExampleIgnoreAttributes` (xsdgen/example_test.go:61). -/
def ignoreAttributesDoc : Str :=
    b!"\n" ++
    b!"\t\t<schema xmlns=\"http://www.w3.org/2001/XMLSchema\"\n" ++
    b!"\t\t        xmlns:tns=\"http://www.example.com/\"\n" ++
    b!"\t\t        xmlns:xs=\"http://www.w3.org/2001/XMLSchema\"\n" ++
    b!"\t\t        xmlns:soapenc=\"http://schemas.xmlsoap.org/soap/encoding/\"\n" ++
    b!"\t\t        xmlns:wsdl=\"http://schemas.xmlsoap.org/wsdl/\"\n" ++
    b!"\t\t        targetNamespace=\"http://www.example.com/\">\n" ++
    b!"\t\t  \n" ++
    b!"\t  <complexType name=\"ArrayOfString\">\n" ++
    b!"\t    <any maxOccurs=\"unbounded\" />\n" ++
    b!"\t    <attribute name=\"soapenc:arrayType\" type=\"xs:string\" />\n" ++
    b!"\t  </complexType>\n" ++
    b!"\t\n" ++
    b!"\t\t</schema>\n" ++
    b!"\t"

/-- The document of `ExampleIgnoreElements` (xsdgen/example_test.go:86). -/
def ignoreElementsDoc : Str :=
    b!"\n" ++
    b!"\t\t<schema xmlns=\"http://www.w3.org/2001/XMLSchema\"\n" ++
    b!"\t\t        xmlns:tns=\"http://www.example.com/\"\n" ++
    b!"\t\t        xmlns:xs=\"http://www.w3.org/2001/XMLSchema\"\n" ++
    b!"\t\t        xmlns:soapenc=\"http://schemas.xmlsoap.org/soap/encoding/\"\n" ++
    b!"\t\t        xmlns:wsdl=\"http://schemas.xmlsoap.org/wsdl/\"\n" ++
    b!"\t\t        targetNamespace=\"http://www.example.com/\">\n" ++
    b!"\t\t  \n" ++
    b!"\t  <complexType name=\"Person\">\n" ++
    b!"\t    <sequence>\n" ++
    b!"\t      <element name=\"name\" type=\"xs:string\" />\n" ++
    b!"\t      <element name=\"deceased\" type=\"soapenc:boolean\" />\n" ++
    b!"\t      <element name=\"private\" type=\"xs:int\" />\n" ++
    b!"\t    </sequence>\n" ++
    b!"\t  </complexType>\n" ++
    b!"\t\n" ++
    b!"\t\t</schema>\n" ++
    b!"\t"

/-- The document of `ExamplePackageName` (xsdgen/example_test.go:117). -/
def packageNameDoc : Str :=
    b!"\n" ++
    b!"\t\t<schema xmlns=\"http://www.w3.org/2001/XMLSchema\"\n" ++
    b!"\t\t        xmlns:tns=\"http://www.example.com/\"\n" ++
    b!"\t\t        xmlns:xs=\"http://www.w3.org/2001/XMLSchema\"\n" ++
    b!"\t\t        xmlns:soapenc=\"http://schemas.xmlsoap.org/soap/encoding/\"\n" ++
    b!"\t\t        xmlns:wsdl=\"http://schemas.xmlsoap.org/wsdl/\"\n" ++
    b!"\t\t        targetNamespace=\"http://www.example.com/\">\n" ++
    b!"\t\t  \n" ++
    b!"\t  <simpleType name=\"zipcode\">\n" ++
    b!"\t    <restriction base=\"xs:string\">\n" ++
    b!"\t      <length value=\"10\" />\n" ++
    b!"\t    </restriction>\n" ++
    b!"\t  </simpleType>\n" ++
    b!"\t\n" ++
    b!"\t\t</schema>\n" ++
    b!"\t"

/-- The document of `ExampleReplace` (xsdgen/example_test.go:142). -/
def replaceDoc : Str :=
    b!"\n" ++
    b!"\t\t<schema xmlns=\"http://www.w3.org/2001/XMLSchema\"\n" ++
    b!"\t\t        xmlns:tns=\"http://www.example.com/\"\n" ++
    b!"\t\t        xmlns:xs=\"http://www.w3.org/2001/XMLSchema\"\n" ++
    b!"\t\t        xmlns:soapenc=\"http://schemas.xmlsoap.org/soap/encoding/\"\n" ++
    b!"\t\t        xmlns:wsdl=\"http://schemas.xmlsoap.org/wsdl/\"\n" ++
    b!"\t\t        targetNamespace=\"http://www.example.com/\">\n" ++
    b!"\t\t  \n" ++
    b!"\t  <complexType name=\"ArrayOfString\">\n" ++
    b!"\t    <any maxOccurs=\"unbounded\" />\n" ++
    b!"\t    <attribute name=\"soapenc:arrayType\" type=\"xs:string\" />\n" ++
    b!"\t  </complexType>\n" ++
    b!"\t\n" ++
    b!"\t\t</schema>\n" ++
    b!"\t"

/-- The document of `ExampleHandleSOAPArrayType` (xsdgen/example_test.go:168). -/
def handleSOAPArrayTypeDoc : Str :=
    b!"\n" ++
    b!"\t\t<schema xmlns=\"http://www.w3.org/2001/XMLSchema\"\n" ++
    b!"\t\t        xmlns:tns=\"http://www.example.com/\"\n" ++
    b!"\t\t        xmlns:xs=\"http://www.w3.org/2001/XMLSchema\"\n" ++
    b!"\t\t        xmlns:soapenc=\"http://schemas.xmlsoap.org/soap/encoding/\"\n" ++
    b!"\t\t        xmlns:wsdl=\"http://schemas.xmlsoap.org/wsdl/\"\n" ++
    b!"\t\t        targetNamespace=\"http://www.example.com/\">\n" ++
    b!"\t\t  \n" ++
    b!"\t  <complexType name=\"BoolArray\">\n" ++
    b!"\t    <complexContent>\n" ++
    b!"\t      <restriction base=\"soapenc:Array\">\n" ++
    b!"\t        <attribute ref=\"soapenc:arrayType\" wsdl:arrayType=\"xs:boolean[]\"/>\n" ++
    b!"\t      </restriction>\n" ++
    b!"\t    </complexContent>\n" ++
    b!"\t  </complexType>\n" ++
    b!"\t\t</schema>\n" ++
    b!"\t"

/-- The document of `ExampleSOAPArrayAsSlice` (xsdgen/example_test.go:199). -/
def sOAPArrayAsSliceDoc : Str :=
    b!"\n" ++
    b!"\t\t<schema xmlns=\"http://www.w3.org/2001/XMLSchema\"\n" ++
    b!"\t\t        xmlns:tns=\"http://www.example.com/\"\n" ++
    b!"\t\t        xmlns:xs=\"http://www.w3.org/2001/XMLSchema\"\n" ++
    b!"\t\t        xmlns:soapenc=\"http://schemas.xmlsoap.org/soap/encoding/\"\n" ++
    b!"\t\t        xmlns:wsdl=\"http://schemas.xmlsoap.org/wsdl/\"\n" ++
    b!"\t\t        targetNamespace=\"http://www.example.com/\">\n" ++
    b!"\t\t  \n" ++
    b!"\t  <complexType name=\"BoolArray\">\n" ++
    b!"\t    <complexContent>\n" ++
    b!"\t      <restriction base=\"soapenc:Array\">\n" ++
    b!"\t        <attribute ref=\"soapenc:arrayType\" wsdl:arrayType=\"xs:boolean[]\"/>\n" ++
    b!"\t      </restriction>\n" ++
    b!"\t    </complexContent>\n" ++
    b!"\t  </complexType>\n" ++
    b!"\t\t</schema>\n" ++
    b!"\t"

/-- The document of `ExampleUseFieldNames` (xsdgen/example_test.go:258). -/
def useFieldNamesDoc : Str :=
    b!"\n" ++
    b!"\t\t<schema xmlns=\"http://www.w3.org/2001/XMLSchema\"\n" ++
    b!"\t\t        xmlns:tns=\"http://www.example.com/\"\n" ++
    b!"\t\t        xmlns:xs=\"http://www.w3.org/2001/XMLSchema\"\n" ++
    b!"\t\t        xmlns:soapenc=\"http://schemas.xmlsoap.org/soap/encoding/\"\n" ++
    b!"\t\t        xmlns:wsdl=\"http://schemas.xmlsoap.org/wsdl/\"\n" ++
    b!"\t\t        targetNamespace=\"http://www.example.com/\">\n" ++
    b!"\t\t  \n" ++
    b!"\t  <complexType name=\"library\">\n" ++
    b!"\t    <sequence>\n" ++
    b!"\t      <element name=\"book\" maxOccurs=\"unbounded\">\n" ++
    b!"\t        <complexType>\n" ++
    b!"\t          <all>\n" ++
    b!"\t            <element name=\"title\" type=\"xs:string\" />\n" ++
    b!"\t            <element name=\"published\" type=\"xs:date\" />\n" ++
    b!"\t            <element name=\"author\" type=\"xs:string\" />\n" ++
    b!"\t          </all>\n" ++
    b!"\t        </complexType>\n" ++
    b!"\t      </element>\n" ++
    b!"\t    </sequence>\n" ++
    b!"\t  </complexType>\n" ++
    b!"\t\t</schema>\n" ++
    b!"\t"

/-- A field of a structure. -/
def fld (n : Str) (t : GoExpr) (tag : Str) : Field := ⟨n, t, tag⟩

/-- `ExampleIgnoreAttributes` (xsdgen/example_test.go) prints this. -/
theorem exampleIgnoreAttributes : generated [.ignoreAttributes [b!"arrayType"]] ignoreAttributesDoc =
    some (b!"ws", [.type [] b!"ArrayOfString" (.struct [fld b!"Items" (.array (.ident b!"string")) b!"xml:\",any\""])]) := by
  decide +kernel

/-- `ExampleIgnoreElements`. -/
theorem exampleIgnoreElements :
    generated [.ignoreElements [b!"private"], .ignoreAttributes [b!"id", b!"href"]] ignoreElementsDoc [soapencPart] =
    some (b!"ws", [.type [] b!"Person" (.struct [
      fld b!"Name" (.ident b!"string") b!"xml:\"http://www.example.com/ name\"",
      fld b!"Deceased" (.ident b!"bool") b!"xml:\"http://schemas.xmlsoap.org/soap/encoding/ deceased\""])]) := by
  decide +kernel

/-- `ExamplePackageName` is to print `type Zipcode string` with the comment `May be no more than 10 items long`. The model prints
nothing, as restrictions of the length to one number do not count (C53). -/
theorem examplePackageName_refuted : generated [.packageName b!"postal"] packageNameDoc = some (b!"postal", []) := by
  decide +kernel

/-- `ExampleReplace`. -/
theorem exampleReplace : generated [.replace b!"ArrayOf(.*)" b!"${1}Array"] replaceDoc =
    some (b!"ws", [.type [] b!"StringArray" (.struct [
      fld b!"Items" (.array (.ident b!"string")) b!"xml:\",any\"",
      fld b!"ArrayType" (.ident b!"string") b!"xml:\"arrayType,attr,omitempty\""])]) := by
  decide +kernel

/-- `ExampleHandleSOAPArrayType`. -/
theorem exampleHandleSOAPArrayType : generated [.handleSOAPArrayType] handleSOAPArrayTypeDoc [soapencPart] =
    some (b!"ws", [.type [] b!"BoolArray" (.struct [
      fld b!"Items" (.array (.ident b!"bool")) b!"xml:\",any\"",
      fld b!"Offset" (.ident b!"string") b!"xml:\"offset,attr,omitempty\"",
      fld b!"Id" (.ident b!"string") b!"xml:\"id,attr,omitempty\"",
      fld b!"Href" (.ident b!"string") b!"xml:\"href,attr,omitempty\""])]) := by
  decide +kernel

/-- `ExampleSOAPArrayAsSlice`, without the bodies of the methods. -/
theorem exampleSOAPArrayAsSlice :
    generated [.handleSOAPArrayType, .soapArrayAsSlice, .ignoreAttributes [b!"offset", b!"id", b!"href"]] sOAPArrayAsSliceDoc
      [soapencPart] =
    some (b!"ws", [.type [] b!"BoolArray" (.plain (.array (.ident b!"bool"))),
      .func ⟨b!"a BoolArray", b!"MarshalXML"⟩, .func ⟨b!"a *BoolArray", b!"UnmarshalXML"⟩]) := by
  decide +kernel

/-- `ExampleUseFieldNames`, without the bodies of the methods. -/
theorem exampleUseFieldNames : generated [.useFieldNames] useFieldNamesDoc =
    some (b!"ws", [
      .type [] b!"Book" (.struct [
        fld b!"Title" (.ident b!"string") b!"xml:\"http://www.example.com/ title\"",
        fld b!"Published" (.ident b!"time.Time") b!"xml:\"http://www.example.com/ published\"",
        fld b!"Author" (.ident b!"string") b!"xml:\"http://www.example.com/ author\""]),
      .func ⟨b!"t *Book", b!"MarshalXML"⟩, .func ⟨b!"t *Book", b!"UnmarshalXML"⟩,
      .type [] b!"Library" (.struct [fld b!"Book" (.array (.ident b!"Book")) b!"xml:\"http://www.example.com/ book\""]),
      .type [] b!"xsdDate" (.plain (.ident b!"time.Time")),
      .func ⟨b!"t *xsdDate", b!"UnmarshalText"⟩, .func ⟨b!"t xsdDate", b!"MarshalText"⟩,
      .func ⟨b!"t xsdDate", b!"MarshalXML"⟩, .func ⟨b!"t xsdDate", b!"MarshalXMLAttr"⟩,
      .func ⟨[], b!"_unmarshalTime"⟩, .func ⟨[], b!"_marshalTime"⟩]) := by
  decide +kernel

end GoXml.Xsdgen.RepoExamples
