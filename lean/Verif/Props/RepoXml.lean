import Verif.Model.Lexer
import Verif.Model.Marshal
import Verif.Model.Graph
import Verif.Props.XmlSource
set_option autoImplicit false

/-! The examples and tests of xmltree (xmltree/example_test.go, xmltree/xmltree_test.go) and of the dependency graph
(internal/dependency/graph_test.go), run on the model. `TestUnmarshal` and `ExampleUnmarshal` use reflection and `TestCharset` a file of
49 KB that is not plain ASCII; they are left out. The output of an example is compared without
the space around it, as `go test` does. -/

namespace GoXml.RepoXml

/-- Lines, each with the line break after it. -/
def printLines : List Str → Str
  | [] => []
  | l :: ls => l ++ [10] ++ printLines ls

/-- What is printed for the tree of a document, without the line breaks at the end. -/
def printed (doc : Str) (f : Element → Str) : Option Str :=
  match parse asciiTables nsSorter doc with
  | .ok root => some ((f root).reverse.dropWhile fun c => c = 10).reverse
  | .error _ => none

/-- The document of `ExampleSearch` (xmltree/example_test.go:10). -/
def searchDoc : Str :=
    b!"\n" ++
    b!"\t  <Staff>\n" ++
    b!"        <Person>\n" ++
    b!"            <FullName>Ira Glass</FullName>\n" ++
    b!"        </Person>\n" ++
    b!"        <Person>\n" ++
    b!"            <FullName>Tom Magliozzi</FullName>\n" ++
    b!"        </Person>\n" ++
    b!"        <Person>\n" ++
    b!"            <FullName>Terry Gross</FullName>\n" ++
    b!"        </Person>\n" ++
    b!"    </Staff>\n" ++
    b!"\t"

/-- Its output. -/
def searchOut : Str :=
    b!"Ira Glass\n" ++
    b!"Tom Magliozzi\n" ++
    b!"Terry Gross"

/-- The document of `ExampleResolve` (xmltree/example_test.go:38). -/
def resolveDoc : Str :=
    b!"\n" ++
    b!"    <collection xmlns:ns=\"http://ns1.net/\">\n" ++
    b!"      <record xmlns:ns=\"http://ns2.net/\">\n" ++
    b!"        <name>Old Town</name>\n" ++
    b!"        <artist xmlns:ns=\"http://ns3.net/\">\n" ++
    b!"          <name>Mustafa Grits</name>\n" ++
    b!"        </artist>\n" ++
    b!"      </record>\n" ++
    b!"      <record xmlns:ns=\"http://ns4.net/\">\n" ++
    b!"        <name>New Town</name>\n" ++
    b!"      </record>\n" ++
    b!"    </collection>\n" ++
    b!"\t"

/-- Its output. -/
def resolveOut : Str :=
    b!"http://ns1.net/ <collection>\n" ++
    b!"http://ns2.net/ <record>\n" ++
    b!"http://ns2.net/ <name>\n" ++
    b!"http://ns3.net/ <artist>\n" ++
    b!"http://ns3.net/ <name>\n" ++
    b!"http://ns4.net/ <record>\n" ++
    b!"http://ns4.net/ <name>"

/-- The document of `ExampleSearchFunc` (xmltree/example_test.go:75). -/
def searchFuncDoc : Str :=
    b!"\n" ++
    b!"\t  <People>\n" ++
    b!"        <Person>\n" ++
    b!"            <FullName>Grace R. Emlin</FullName>\n" ++
    b!"            <Email where=\"home\">\n" ++
    b!"                <Addr>gre@example.com</Addr>\n" ++
    b!"            </Email>\n" ++
    b!"            <Email where='work'>\n" ++
    b!"                <Addr>gre@work.com</Addr>\n" ++
    b!"            </Email>\n" ++
    b!"        </Person>\n" ++
    b!"        <Person>\n" ++
    b!"            <FullName>Michael P. Thompson</FullName>\n" ++
    b!"            <Email where=\"home\">\n" ++
    b!"                <Addr>michaelp@example.com</Addr>\n" ++
    b!"            </Email>\n" ++
    b!"            <Email where='work'>\n" ++
    b!"                <Addr>michaelp@work.com</Addr>\n" ++
    b!"                <Addr>michael.thompson@work.com</Addr>\n" ++
    b!"            </Email>\n" ++
    b!"        </Person>\n" ++
    b!"    </People>\n" ++
    b!"\t"

/-- Its output. -/
def searchFuncOut : Str :=
    b!"gre@work.com\n" ++
    b!"michaelp@work.com\n" ++
    b!"michael.thompson@work.com"

/-- The document of `ExampleMarshal` (xmltree/example_test.go:180). -/
def marshalDoc : Str :=
    b!"<?xml version=\"1.0\" encoding=\"UTF-8\"?>\n" ++
    b!"\t<toc>\n" ++
    b!"\t  <chapter-list>\n" ++
    b!"\t    <chapter>\n" ++
    b!"\t      <title>Civilizing Huck.Miss Watson.Tom Sawyer Waits.</title>\n" ++
    b!"\t      <number>1</number>\n" ++
    b!"\t    </chapter>\n" ++
    b!"\t    <chapter>\n" ++
    b!"\t      <title>The Boys Escape Jim.Torn Sawyer's Gang.Deep-laid Plans.</title>\n" ++
    b!"\t      <number>2</number>\n" ++
    b!"\t    </chapter>\n" ++
    b!"\t    <chapter>\n" ++
    b!"\t      <title>A Good Going-over.Grace Triumphant.\"One of Tom Sawyers's Lies\".</title>\n" ++
    b!"\t      <number>3</number>\n" ++
    b!"\t    </chapter>\n" ++
    b!"\t    <chapter>\n" ++
    b!"\t      <title>Huck and the Judge.Superstition.</title>\n" ++
    b!"\t      <number>4</number>\n" ++
    b!"\t    </chapter>\n" ++
    b!"\t  </chapter-list>\n" ++
    b!"\t</toc>"

/-- Its output. -/
def marshalOut : Str :=
    b!"<toc>\n" ++
    b!"  <chapter>Civilizing Huck.Miss Watson.Tom Sawyer Waits.</chapter>\n" ++
    b!"  <chapter>The Boys Escape Jim.Torn Sawyer's Gang.Deep-laid Plans.</chapter>\n" ++
    b!"  <chapter>A Good Going-over.Grace Triumphant.\"One of Tom Sawyers's Lies\".</chapter>\n" ++
    b!"  <chapter>Huck and the Judge.Superstition.</chapter>\n" ++
    b!"</toc>"

/-- The document of `ExampleMarshalNested` (xmltree/example_test.go:228). -/
def marshalNestedDoc : Str :=
    b!"<?xml version=\"1.0\" encoding=\"UTF-8\"?>\n" ++
    b!"\t<toc>\n" ++
    b!"\t  <level1>\n" ++
    b!"\t    <level2>\n" ++
    b!"\t      <data>Hello World</data>\n" ++
    b!"\t      <justTheTag />\n" ++
    b!"\t      <number>3</number>\n" ++
    b!"\t    </level2>\n" ++
    b!"\t    <level2>\n" ++
    b!"\t      <data with-attr=\"1\">Hello, again</data>\n" ++
    b!"\t      <justTheTag />\n" ++
    b!"\t      <number>12</number>\n" ++
    b!"\t    </level2>\n" ++
    b!"\t  </level1>\n" ++
    b!"\t</toc>"

/-- Its output. -/
def marshalNestedOut : Str :=
    b!"<toc>\n" ++
    b!"  <level1>\n" ++
    b!"    <level2>\n" ++
    b!"      <data>Hello World</data>\n" ++
    b!"      <justTheTag />\n" ++
    b!"      <number>3</number>\n" ++
    b!"    </level2>\n" ++
    b!"    <level2>\n" ++
    b!"      <data with-attr=\"1\">Hello, again</data>\n" ++
    b!"      <justTheTag />\n" ++
    b!"      <number>12</number>\n" ++
    b!"    </level2>\n" ++
    b!"  </level1>\n" ++
    b!"</toc>"

/-- `exampleDoc` (xmltree/xmltree_test.go:77). -/
def exampleDoc : Str :=
    b!"<?xml version=\"1.0\" encoding=\"utf-8\"?>\n" ++
    b!"<wsdl:definitions xmlns:soap=\"http://schemas.xmlsoap.org/wsdl/soap/\" xmlns:tm=\"http://microsoft.com/wsdl/mime/" ++
    b!"textMatching/\" xmlns:soapenc=\"http://schemas.xmlsoap.org/soap/encoding/\" xmlns:mime=\"http://schemas.xmlsoap.or" ++
    b!"g/wsdl/mime/\" xmlns:tns=\"http://www.sci-grupo.com.mx/\" xmlns:s=\"http://www.w3.org/2001/XMLSchema\" xmlns:soap12" ++
    b!"=\"http://schemas.xmlsoap.org/wsdl/soap12/\" xmlns:http=\"http://schemas.xmlsoap.org/wsdl/http/\" targetNamespace=" ++
    b!"\"http://www.sci-grupo.com.mx/\" xmlns:wsdl=\"http://schemas.xmlsoap.org/wsdl/\" xmlns=\"http://defaultns.net/\">\n" ++
    b!"  <wsdl:types>\n" ++
    b!"    <s:schema elementFormDefault=\"qualified\" targetNamespace=\"http://www.sci-grupo.com.mx/\">\n" ++
    b!"      <s:element name=\"RecibeCFD\">\n" ++
    b!"        <s:complexType>\n" ++
    b!"          <s:sequence>\n" ++
    b!"            <s:element minOccurs=\"0\" maxOccurs=\"1\" name=\"XMLCFD\" type=\"s:string\" />\n" ++
    b!"          </s:sequence>\n" ++
    b!"        </s:complexType>\n" ++
    b!"      </s:element>\n" ++
    b!"      <s:element name=\"RecibeCFDResponse\">\n" ++
    b!"        <s:complexType>\n" ++
    b!"          <s:sequence>\n" ++
    b!"            <s:element minOccurs=\"0\" maxOccurs=\"1\" name=\"RecibeCFDResult\" type=\"s:string\" />\n" ++
    b!"          </s:sequence>\n" ++
    b!"        </s:complexType>\n" ++
    b!"      </s:element>\n" ++
    b!"    </s:schema>\n" ++
    b!"  </wsdl:types>\n" ++
    b!"  <wsdl:message name=\"RecibeCFDSoapIn\">\n" ++
    b!"    <wsdl:part name=\"parameters\" element=\"tns:RecibeCFD\" />\n" ++
    b!"  </wsdl:message>\n" ++
    b!"  <wsdl:message name=\"RecibeCFDSoapOut\">\n" ++
    b!"    <wsdl:part name=\"parameters\" element=\"tns:RecibeCFDResponse\" />\n" ++
    b!"  </wsdl:message>\n" ++
    b!"  <wsdl:portType name=\"wseDocReciboSoap\">\n" ++
    b!"    <wsdl:operation name=\"RecibeCFD\">\n" ++
    b!"      <wsdl:input message=\"tns:RecibeCFDSoapIn\" />\n" ++
    b!"      <wsdl:output message=\"tns:RecibeCFDSoapOut\" />\n" ++
    b!"    </wsdl:operation>\n" ++
    b!"  </wsdl:portType>\n" ++
    b!"  <wsdl:binding name=\"wseDocReciboSoap\" type=\"tns:wseDocReciboSoap\" xmlns=\"http://custom2/\">\n" ++
    b!"    <soap:binding transport=\"http://schemas.xmlsoap.org/soap/http\" />\n" ++
    b!"    <wsdl:operation name=\"RecibeCFD\">\n" ++
    b!"      <soap:operation soapAction=\"http://www.sci-grupo.com.mx/RecibeCFD\" style=\"document\" />\n" ++
    b!"      <wsdl:input>\n" ++
    b!"        <soap:body use=\"literal\" />\n" ++
    b!"      </wsdl:input>\n" ++
    b!"      <wsdl:output>\n" ++
    b!"        <soap:body use=\"literal\" />\n" ++
    b!"      </wsdl:output>\n" ++
    b!"    </wsdl:operation>\n" ++
    b!"  </wsdl:binding>\n" ++
    b!"  <wsdl:binding name=\"wseDocReciboSoap12\" type=\"tns:wseDocReciboSoap\" xmlns=\"http://custom/\">\n" ++
    b!"    <soap12:binding transport=\"http://schemas.xmlsoap.org/soap/http\" />\n" ++
    b!"    <wsdl:operation name=\"RecibeCFD\">\n" ++
    b!"      <soap12:operation soapAction=\"http://www.sci-grupo.com.mx/RecibeCFD\" style=\"document\" />\n" ++
    b!"      <wsdl:input>\n" ++
    b!"        <soap12:body use=\"literal\" />\n" ++
    b!"      </wsdl:input>\n" ++
    b!"      <wsdl:output>\n" ++
    b!"        <soap12:body use=\"literal\" />\n" ++
    b!"      </wsdl:output>\n" ++
    b!"    </wsdl:operation>\n" ++
    b!"  </wsdl:binding>\n" ++
    b!"  <wsdl:service name=\"wseDocRecibo\">\n" ++
    b!"    <wsdl:port name=\"wseDocReciboSoap\" binding=\"tns:wseDocReciboSoap\">\n" ++
    b!"      <soap:address location=\"http://www2.soriana.com/integracion/recibecfd/wseDocRecibo.asmx\" />\n" ++
    b!"    </wsdl:port>\n" ++
    b!"    <wsdl:port name=\"wseDocReciboSoap12\" binding=\"tns:wseDocReciboSoap12\">\n" ++
    b!"      <soap12:address location=\"http://www2.soriana.com/integracion/recibecfd/wseDocRecibo.asmx\" />\n" ++
    b!"    </wsdl:port>\n" ++
    b!"  </wsdl:service>\n" ++
    b!"</wsdl:definitions>"

theorem exampleSearch :
    printed searchDoc (fun root => printLines ((root.search [] b!"FullName").map fun p => p.2.content)) = some searchOut := by
  decide +kernel

theorem exampleResolve : printed resolveDoc (fun root =>
    let line := fun (el : Element) => (resolve el.scope b!"ns:foo").space ++ b!" <" ++ el.name.loc ++ b!">"
    printLines (line root :: (root.searchFunc fun _ _ => true).map fun p => line p.2)) = some resolveOut := by
  decide +kernel

theorem exampleSearchFunc : printed searchFuncDoc (fun root =>
    printLines ((root.searchFunc fun _ el => el.name.loc == b!"Email" && el.attr [] b!"where" == b!"work").flatMap fun p =>
      p.2.children.map (·.content))) = some searchFuncOut := by
  decide +kernel

theorem exampleMarshal : printed marshalDoc (fun root =>
    let chapters := (root.search [] b!"chapter").map fun p =>
      Element.mk p.2.name p.2.attrs p.2.scope ((p.2.search [] b!"title").foldl (fun _ c => c.2.content) p.2.content) []
    printLines [marshalIndent (.mk root.name root.attrs root.scope root.content chapters) [] b!"  "]) = some marshalOut := by
  decide +kernel

theorem exampleMarshalNested :
    printed marshalNestedDoc (fun root => printLines [marshalIndent root [] b!"  "]) = some marshalNestedOut := by
  decide +kernel

/-- What holds of the tree of `exampleDoc`. -/
def ofExample (f : Element → Bool) : Bool :=
  match parse asciiTables nsSorter exampleDoc with
  | .ok root => f root
  | .error _ => false

/-- The document can be read. -/
def readable (doc : Str) : Bool :=
  match parse asciiTables nsSorter doc with
  | .ok _ => true
  | .error _ => false

theorem testSearch : ofExample (fun root => (root.search b!"http://schemas.xmlsoap.org/wsdl/" b!"binding").length == 2) = true := by
  decide +kernel

theorem testNSResolution : ofExample (fun root =>
    ((root.search b!"http://schemas.xmlsoap.org/wsdl/" b!"definitions").all fun p =>
      [b!"soap", b!"wsdl", b!"s", b!"soap12"].all fun pre => (resolveNS p.2.scope (pre ++ b!":foo")).2) &&
    match root.searchFunc fun _ el => el.name == ⟨b!"http://schemas.xmlsoap.org/wsdl/", b!"binding"⟩ &&
        el.attr [] b!"name" == b!"wseDocReciboSoap12" with
    | p :: _ => (resolve p.2.scope b!"foo").space == b!"http://custom/"
    | [] => false) = true := by
  decide +kernel

theorem testString : ofExample (fun root => decide (5 ≤ (marshal root).length) && readable (marshal root)) = true := by
  decide +kernel

theorem testSubstring : ofExample (fun root =>
    match root.search b!"http://www.w3.org/2001/XMLSchema" b!"complexType" with
    | p :: _ => readable (marshal p.2)
    | [] => false) = true := by
  decide +kernel

theorem testModification :
    printed b!"<ul><li>1</li><em>bad</em><li>2</li></ul>" (fun root =>
      printLines [marshal (.mk root.name root.attrs root.scope root.content ((root.search [] b!"li").map (·.2)))]) =
    some b!"<ul><li>1</li><li>2</li></ul>" := by
  decide +kernel

theorem testStringPreserveNS : ofExample (fun root =>
    match root.flatten[3]? with
    | some p => match parse asciiTables nsSorter (marshal p.2) with
      | .ok el => !(el.search b!"http://www.w3.org/2001/XMLSchema" b!"sequence").isEmpty
      | .error _ => false
    | none => false) = true := by
  decide +kernel

theorem testExistingNSAttrs : ofExample (fun root =>
    match parse asciiTables nsSorter (marshal root) with
    | .ok el => decide (el.attrs.map (·.name)).Nodup
    | .error _ => false) = true := by
  decide +kernel

end GoXml.RepoXml

namespace GoXml.Dep.RepoGraph

/-- `TestFlatten` (internal/dependency/graph_test.go:57-98). The vertices are numbered as in the test. -/
theorem testFlatten_files : (Graph.build [(0, 1), (2, 3), (4, 0), (4, 2), (4, 5), (5, 6)]).flatten = some [1, 0, 3, 2, 6, 5, 4] := by decide +kernel

theorem testFlatten_people : (Graph.build [(0, 1), (2, 3), (2, 4), (4, 1), (1, 3), (1, 4)]).flatten = some [3, 4, 1, 0, 2] := by decide +kernel

end GoXml.Dep.RepoGraph
