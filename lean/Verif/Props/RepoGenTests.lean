import Verif.Props.EndToEnd
import Verif.Props.XsdgenValues
import Verif.Model.Cli
set_option autoImplicit false

/-! The generated tests of the repository (directory gentests), run on the model. -/

namespace GoXml.Xsdgen.GenTests
open Xsd Cli Values

/-- gentests/books/books.xsd -/
def booksDoc : Str :=
    b!"<xsd:schema xmlns:xsd=\"http://www.w3.org/2001/XMLSchema\"\n" ++
    b!"            targetNamespace=\"urn:books\"\n" ++
    b!"            xmlns:bks=\"urn:books\">\n" ++
    b!"\n" ++
    b!"  <xsd:element name=\"books\" type=\"bks:BooksForm\"/>\n" ++
    b!"\n" ++
    b!"  <xsd:complexType name=\"BooksForm\">\n" ++
    b!"    <xsd:sequence>\n" ++
    b!"      <xsd:element name=\"book\" \n" ++
    b!"                  type=\"bks:BookForm\" \n" ++
    b!"                  minOccurs=\"0\" \n" ++
    b!"                  maxOccurs=\"unbounded\"/>\n" ++
    b!"      </xsd:sequence>\n" ++
    b!"  </xsd:complexType>\n" ++
    b!"\n" ++
    b!"  <xsd:complexType name=\"BookForm\">\n" ++
    b!"    <xsd:sequence>\n" ++
    b!"      <xsd:element name=\"author\"   type=\"xsd:string\"/>\n" ++
    b!"      <xsd:element name=\"title\"    type=\"xsd:string\"/>\n" ++
    b!"      <xsd:element name=\"genre\"    type=\"xsd:string\"/>\n" ++
    b!"      <xsd:element name=\"price\"    type=\"xsd:float\" />\n" ++
    b!"      <xsd:element name=\"pub_date\" type=\"xsd:date\" />\n" ++
    b!"      <xsd:element name=\"review\"   type=\"xsd:string\"/>\n" ++
    b!"    </xsd:sequence>\n" ++
    b!"    <xsd:attribute name=\"name\" form=\"qualified\" type=\"xsd:string\"/>\n" ++
    b!"  </xsd:complexType>\n" ++
    b!"</xsd:schema>\n" ++
    b!"\n"

/-- gentests/bindata/bindata.xsd -/
def bindataDoc : Str :=
    b!"<?xml version=\"1.0\"?>\n" ++
    b!"<schema xmlns=\"http://www.w3.org/2001/XMLSchema\" xmlns:tns=\"tns\"\n" ++
    b!"  targetNamespace=\"tns\">\n" ++
    b!"  \n" ++
    b!"  <element name=\"bindata\" type=\"tns:bindata\" />\n" ++
    b!"\n" ++
    b!"  <complexType name=\"bindata\">\n" ++
    b!"    <element name=\"hexData\" type=\"hexBinary\"/>\n" ++
    b!"    <element name=\"b64Data\" type=\"base64Binary\"/>\n" ++
    b!"    <element name=\"filename\" type=\"string\"/>\n" ++
    b!"  </complexType>\n" ++
    b!"</schema>\n"

/-- A field of a structure. -/
def fld (n : Str) (t : GoExpr) (tag : Str) : Field := ⟨n, t, tag⟩

/-- gentests/books/books.go, without the bodies of functions. The function `_marshalTime` is not in the file; it has been added to the helpers
(xsdgen/config.go:608-613) after the file was generated. -/
theorem genBooks : generated (xDefaults ++ [.packageName b!"books"]) booksDoc = some (b!"books", [
    .type [] b!"BookForm" (.struct [
      fld b!"Author" (.ident b!"string") b!"xml:\"urn:books author\"",
      fld b!"Title" (.ident b!"string") b!"xml:\"urn:books title\"",
      fld b!"Genre" (.ident b!"string") b!"xml:\"urn:books genre\"",
      fld b!"Price" (.ident b!"float32") b!"xml:\"urn:books price\"",
      fld b!"Pubdate" (.ident b!"time.Time") b!"xml:\"urn:books pub_date\"",
      fld b!"Review" (.ident b!"string") b!"xml:\"urn:books review\"",
      fld b!"Name" (.ident b!"string") b!"xml:\"urn:books name,attr,omitempty\""]),
    .func ⟨b!"t *BookForm", b!"MarshalXML"⟩, .func ⟨b!"t *BookForm", b!"UnmarshalXML"⟩,
    .type [] b!"BooksForm" (.struct [fld b!"Book" (.array (.ident b!"BookForm")) b!"xml:\"urn:books book,omitempty\""]),
    .type [] b!"xsdDate" (.plain (.ident b!"time.Time")),
    .func ⟨b!"t *xsdDate", b!"UnmarshalText"⟩, .func ⟨b!"t xsdDate", b!"MarshalText"⟩,
    .func ⟨b!"t xsdDate", b!"MarshalXML"⟩, .func ⟨b!"t xsdDate", b!"MarshalXMLAttr"⟩,
    .func ⟨[], b!"_unmarshalTime"⟩, .func ⟨[], b!"_marshalTime"⟩]) := by
  decide +kernel

/-- gentests/bindata/bindata.go, without the bodies of functions. -/
theorem genBindata : generated (xDefaults ++ [.packageName b!"bindata"]) bindataDoc = some (b!"bindata", [
    .type [] b!"Bindata" (.struct [
      fld b!"HexData" (.array (.ident b!"byte")) b!"xml:\"tns hexData\"",
      fld b!"B64Data" (.array (.ident b!"byte")) b!"xml:\"tns b64Data\"",
      fld b!"Filename" (.ident b!"string") b!"xml:\"tns filename\""]),
    .func ⟨b!"t *Bindata", b!"MarshalXML"⟩, .func ⟨b!"t *Bindata", b!"UnmarshalXML"⟩,
    .type [] b!"xsdBase64Binary" (.plain (.array (.ident b!"byte"))),
    .func ⟨b!"b *xsdBase64Binary", b!"UnmarshalText"⟩, .func ⟨b!"b xsdBase64Binary", b!"MarshalText"⟩,
    .type [] b!"xsdHexBinary" (.plain (.array (.ident b!"byte"))),
    .func ⟨b!"b *xsdHexBinary", b!"UnmarshalText"⟩, .func ⟨b!"b xsdHexBinary", b!"MarshalText"⟩]) := by
  decide +kernel

/-- An element of the namespace of books. -/
def bk (n : Str) (attrs : List GoXml.Attr) (kids : List XNode) : XNode := .elem ⟨b!"urn:books", n⟩ attrs kids

/-- What the variable that the document is read into is written as: `TestBooks` (gentests/books/books_test.go). -/
def booksAgain (doc : XNode) : Option (List XNode) :=
  (readSchemas [booksDoc]).bind fun r => (trial r.2).prog.again 10 (.ident b!"BooksForm") doc

/-- The document gentests/books/books.xml, and what is written for it. `xmltree.Equal` does not look at the order of elements. -/
theorem testBooks : booksAgain (bk b!"books" [] [.text b!"\n   ",
    bk b!"book" [⟨⟨b!"urn:books", b!"name"⟩, b!"bk001"⟩] [.text b!"\n      ", bk b!"author" [] [.text b!"Writer"], .text b!"\n      ",
      bk b!"title" [] [.text b!"The First Book"], .text b!"\n      ", bk b!"genre" [] [.text b!"Fiction"], .text b!"\n      ",
      bk b!"price" [] [.text b!"44.95"], .text b!"\n      ", bk b!"pub_date" [] [.text b!"2000-10-01"], .text b!"\n      ",
      bk b!"review" [] [.text b!"An amazing story of nothing."], .text b!"\n   "], .text b!"\n\n   ",
    bk b!"book" [⟨⟨b!"urn:books", b!"name"⟩, b!"bk002"⟩] [.text b!"\n      ", bk b!"author" [] [.text b!"Poet"], .text b!"\n      ",
      bk b!"title" [] [.text b!"The Poets First Poem"], .text b!"\n      ", bk b!"genre" [] [.text b!"Poem"], .text b!"\n      ",
      bk b!"price" [] [.text b!"24.95"], .text b!"\n      ", bk b!"review" [] [.text b!"Least poetic poems."], .text b!"\n      ",
      bk b!"pub_date" [] [.text b!"2003-12-01"], .text b!"\n   "], .text b!"\n"]) =
    some [bk b!"books" [] [
      bk b!"book" [⟨⟨b!"urn:books", b!"name"⟩, b!"bk001"⟩] [bk b!"author" [] [.text b!"Writer"], bk b!"title" [] [.text b!"The First Book"],
        bk b!"genre" [] [.text b!"Fiction"], bk b!"price" [] [.text b!"44.95"],
        bk b!"review" [] [.text b!"An amazing story of nothing."], bk b!"pub_date" [] [.text b!"2000-10-01"]],
      bk b!"book" [⟨⟨b!"urn:books", b!"name"⟩, b!"bk002"⟩] [bk b!"author" [] [.text b!"Poet"], bk b!"title" [] [.text b!"The Poets First Poem"],
        bk b!"genre" [] [.text b!"Poem"], bk b!"price" [] [.text b!"24.95"],
        bk b!"review" [] [.text b!"Least poetic poems."], bk b!"pub_date" [] [.text b!"2003-12-01"]]]] := by
  decide +kernel

end GoXml.Xsdgen.GenTests
