import Verif.Props.RepoExamples
import Verif.Model.WsdlgenFile
import Verif.Model.Cli
set_option autoImplicit false

/-! The examples of wsdlgen (wsdlgen/examples), run on the model and compared with the generated
files in the repository. Of the bundled schemas, the part for SOAP arrays is given. -/

namespace GoXml.Wsdl.RepoExamples
open Xsd Xsdgen Cli

/-- wsdlgen/examples/chemspell/chemspell.wsdl. -/
def chemspell : Str :=
    b!"<?xml version=\"1.0\" encoding=\"UTF-8\"?>\n" ++
    b!"<wsdl:definitions targetNamespace=\"http://chemspell.nlm.nih.gov/axis/SpellAid.jws/axis/SpellAid.jws\" xmlns:apa" ++
    b!"chesoap=\"http://xml.apache.org/xml-soap\" xmlns:impl=\"http://chemspell.nlm.nih.gov/axis/SpellAid.jws/axis/Spell" ++
    b!"Aid.jws-impl\" xmlns:intf=\"http://chemspell.nlm.nih.gov/axis/SpellAid.jws/axis/SpellAid.jws\" xmlns:soapenc=\"htt" ++
    b!"p://schemas.xmlsoap.org/soap/encoding/\" xmlns:wsdl=\"http://schemas.xmlsoap.org/wsdl/\" xmlns:wsdlsoap=\"http://s" ++
    b!"chemas.xmlsoap.org/wsdl/soap/\" xmlns:xsd=\"http://www.w3.org/2001/XMLSchema\"><wsdl:types><schema targetNamespac" ++
    b!"e=\"http://chemspell.nlm.nih.gov/axis/SpellAid.jws/axis/SpellAid.jws\" xmlns=\"http://www.w3.org/2001/XMLSchema\">" ++
    b!"<import namespace=\"http://schemas.xmlsoap.org/soap/encoding/\"/><complexType name=\"ArrayOf_xsd_string\"><complex" ++
    b!"Content><restriction base=\"soapenc:Array\"><attribute ref=\"soapenc:arrayType\" wsdl:arrayType=\"xsd:string[]\"/></" ++
    b!"restriction></complexContent></complexType><element name=\"ArrayOf_xsd_string\" nillable=\"true\" type=\"intf:Array" ++
    b!"Of_xsd_string\"/></schema></wsdl:types>\n" ++
    b!"  <wsdl:message name=\"mainResponse\">\n" ++
    b!"  </wsdl:message>\n" ++
    b!"  <wsdl:message name=\"mainRequest\">\n" ++
    b!"    <wsdl:part name=\"args\" type=\"intf:ArrayOf_xsd_string\"/>\n" ++
    b!"  </wsdl:message>\n" ++
    b!"  <wsdl:message name=\"getSugListRequest\">\n" ++
    b!"    <wsdl:part name=\"name\" type=\"xsd:string\"/>\n" ++
    b!"    <wsdl:part name=\"src\" type=\"xsd:string\"/>\n" ++
    b!"  </wsdl:message>\n" ++
    b!"  <wsdl:message name=\"getSugListResponse\">\n" ++
    b!"    <wsdl:part name=\"return\" type=\"xsd:string\"/>\n" ++
    b!"  </wsdl:message>\n" ++
    b!"  <wsdl:portType name=\"SpellAid\">\n" ++
    b!"    <wsdl:operation name=\"getSugList\" parameterOrder=\"name src\">\n" ++
    b!"      <wsdl:input message=\"intf:getSugListRequest\" name=\"getSugListRequest\"/>\n" ++
    b!"      <wsdl:output message=\"intf:getSugListResponse\" name=\"getSugListResponse\"/>\n" ++
    b!"    </wsdl:operation>\n" ++
    b!"    <wsdl:operation name=\"main\" parameterOrder=\"args\">\n" ++
    b!"      <wsdl:input message=\"intf:mainRequest\" name=\"mainRequest\"/>\n" ++
    b!"      <wsdl:output message=\"intf:mainResponse\" name=\"mainResponse\"/>\n" ++
    b!"    </wsdl:operation>\n" ++
    b!"  </wsdl:portType>\n" ++
    b!"  <wsdl:binding name=\"SpellAidSoapBinding\" type=\"intf:SpellAid\">\n" ++
    b!"    <wsdlsoap:binding style=\"rpc\" transport=\"http://schemas.xmlsoap.org/soap/http\"/>\n" ++
    b!"    <wsdl:operation name=\"getSugList\">\n" ++
    b!"      <wsdlsoap:operation soapAction=\"\"/>\n" ++
    b!"      <wsdl:input name=\"getSugListRequest\">\n" ++
    b!"        <wsdlsoap:body encodingStyle=\"http://schemas.xmlsoap.org/soap/encoding/\" namespace=\"http://chemspell.n" ++
    b!"lm.nih.gov/axis/SpellAid.jws/axis/SpellAid.jws\" use=\"encoded\"/>\n" ++
    b!"      </wsdl:input>\n" ++
    b!"      <wsdl:output name=\"getSugListResponse\">\n" ++
    b!"        <wsdlsoap:body encodingStyle=\"http://schemas.xmlsoap.org/soap/encoding/\" namespace=\"http://chemspell.n" ++
    b!"lm.nih.gov/axis/SpellAid.jws/axis/SpellAid.jws\" use=\"encoded\"/>\n" ++
    b!"      </wsdl:output>\n" ++
    b!"    </wsdl:operation>\n" ++
    b!"    <wsdl:operation name=\"main\">\n" ++
    b!"      <wsdlsoap:operation soapAction=\"\"/>\n" ++
    b!"      <wsdl:input name=\"mainRequest\">\n" ++
    b!"        <wsdlsoap:body encodingStyle=\"http://schemas.xmlsoap.org/soap/encoding/\" namespace=\"http://chemspell.n" ++
    b!"lm.nih.gov/axis/SpellAid.jws/axis/SpellAid.jws\" use=\"encoded\"/>\n" ++
    b!"      </wsdl:input>\n" ++
    b!"      <wsdl:output name=\"mainResponse\">\n" ++
    b!"        <wsdlsoap:body encodingStyle=\"http://schemas.xmlsoap.org/soap/encoding/\" namespace=\"http://chemspell.n" ++
    b!"lm.nih.gov/axis/SpellAid.jws/axis/SpellAid.jws\" use=\"encoded\"/>\n" ++
    b!"      </wsdl:output>\n" ++
    b!"    </wsdl:operation>\n" ++
    b!"  </wsdl:binding>\n" ++
    b!"  <wsdl:service name=\"SpellAidService\">\n" ++
    b!"    <wsdl:port binding=\"intf:SpellAidSoapBinding\" name=\"SpellAid\">\n" ++
    b!"      <wsdlsoap:address location=\"http://chemspell.nlm.nih.gov/axis/SpellAid.jws\"/>\n" ++
    b!"    </wsdl:port>\n" ++
    b!"  </wsdl:service>\n" ++
    b!"</wsdl:definitions>"

/-- The command with the given arguments (wsdlgen/cli.go:28-88) on the document `doc`, with the bundled schemas `bundled`, up to the
printing of declarations: the name of the package, the comment on it, and the declarations. -/
def wsdlgenRun (arguments : List Str) (doc : Str) (bundled : List Str) : Option (Str × List Str × File) :=
  match GoXml.parse asciiTables nsSorter doc with
  | .error _ => none
  | .ok root =>
    let schemas := readSchemas (doc :: bundled)
    let run := fun (H : THeap) =>
      match wsdlgenCLI (genEnv H) (wsdlgenMain (genEnv H) 2) arguments with
      | .generate cfg _ _ =>
        match genCode (genEnv H) (Sorter.byKey fun s => s) 40
            (fun _ => match schemas with
              | some r => .ok r
              | none => .error) cfg.xsdgen [some root] with
        | (_, .done (.ok r)) => some r.1
        | _ => none
      | _ => none
    -- the second run postprocesses with the memory of the first
    (run []).bind fun H =>
      match wsdlgenCLI (genEnv H) (wsdlgenMain (genEnv H) 2) arguments with
      | .generate cfg _ _ =>
        match genFile (genEnv H) (Sorter.byKey fun s => s) 40 40
            (fun _ => match schemas with
              | some r => .ok r
              | none => .error) cfg.xsdgen ⟨none, cfg.maxArgs, cfg.maxReturns⟩ [some root] with
        | .ok file =>
          let c := packageClause cfg (Wsdl.parse root).doc
          some (c.1, c.2, file)
        | _ => none
      | _ => none

def chemspellArgs : List Str :=
  [b!"-v", b!"-pkg", b!"chemspell", b!"-c", b!"Package chemspell accesses the NLM ChemSpell web service.", b!"chemspell.wsdl"]

/-- A function without its port and its operation. -/
structure Signature where
  name : Str
  params : List Str
  results : List Str
  returns : List Str
  decls : List (Str × List (Str × Str))
  body : Body
deriving DecidableEq

def signature (f : Str × FuncDecl) : Signature := ⟨f.1, f.2.params, f.2.results, f.2.returns, f.2.decls, f.2.body⟩

def chemspellNS : Str := b!"http://chemspell.nlm.nih.gov/axis/SpellAid.jws/axis/SpellAid.jws"

/-- The types that wsdlgen/examples/chemspell/wsdlgen_output.go declares, with the comment on the package. The file has these
at lines 3-42, the bodies of the methods are left out. -/
theorem chemspell_types :
    ((wsdlgenRun chemspellArgs chemspell [Xsdgen.RepoExamples.soapencPart]).map fun r => (r.1, r.2.1, r.2.2.types)) =
      some (b!"chemspell", [b!"// Package chemspell accesses the NLM ChemSpell web service.", b!"// "],
        [.type [] b!"ArrayOfxsdstring" (.plain (.array (.ident b!"string"))),
          .func ⟨b!"a ArrayOfxsdstring", b!"MarshalXML"⟩, .func ⟨b!"a *ArrayOfxsdstring", b!"UnmarshalXML"⟩]) := by
  decide +kernel

/-- The functions that wsdlgen/examples/chemspell/wsdlgen_output.go:108-141 declares. -/
theorem chemspell_functions :
    ((wsdlgenRun chemspellArgs chemspell [Xsdgen.RepoExamples.soapencPart]).map fun r => r.2.2.funcs.map signature) = some [
      ⟨b!"GetSugList", [b!"ctx context.Context", b!"name string", b!"src string"], [b!"string", b!"error"],
        [b!"string(output.Args.Return)", b!"err"], [],
        { msgName := ⟨chemspellNS, b!"getSugList"⟩, inputName := ⟨chemspellNS, b!"getSugListRequest"⟩
          outputName := ⟨chemspellNS, b!"getSugListResponse"⟩
          sent := [(b!"Name", b!"string", ⟨chemspellNS, b!"name"⟩, b!"string(name)"),
            (b!"Src", b!"string", ⟨chemspellNS, b!"src"⟩, b!"string(src)")]
          received := [(b!"Return", b!"string", ⟨chemspellNS, b!"return"⟩)]
          method := b!"POST", address := b!"http://chemspell.nlm.nih.gov/axis/SpellAid.jws", soapAction := [] }⟩,
      ⟨b!"Main", [b!"ctx context.Context", b!"args ArrayOfxsdstring"], [b!"error"], [b!"err"], [],
        { msgName := ⟨chemspellNS, b!"main"⟩, inputName := ⟨chemspellNS, b!"mainRequest"⟩
          outputName := ⟨chemspellNS, b!"mainResponse"⟩
          sent := [(b!"Args", b!"ArrayOfxsdstring", ⟨chemspellNS, b!"args"⟩, b!"ArrayOfxsdstring(args)")]
          received := []
          method := b!"POST", address := b!"http://chemspell.nlm.nih.gov/axis/SpellAid.jws", soapAction := [] }⟩] := by
  decide +kernel

/-- Parts of wsdlgen/examples/forecast/ndfd.wsdl: two of the operations and what they need, without the comment, the documentation
of the service and most of the weather parameters. -/
def forecast : Str :=
    b!"<definitions xmlns:SOAP-ENV=\"http://schemas.xmlsoap.org/soap/envelope/\" xmlns:xsd=\"http://www.w3.org/2001/XMLS" ++
    b!"chema\" xmlns:xsi=\"http://www.w3.org/2001/XMLSchema-instance\" xmlns:SOAP-ENC=\"http://schemas.xmlsoap.org/soap/e" ++
    b!"ncoding/\" xmlns:si=\"http://soapinterop.org/xsd\" xmlns:tns=\"http://graphical.weather.gov/xml/DWMLgen/wsdl/ndfdX" ++
    b!"ML.wsdl\" xmlns:typens=\"http://graphical.weather.gov/xml/DWMLgen/schema/DWML.xsd\" xmlns:soap=\"http://schemas.xm" ++
    b!"lsoap.org/wsdl/soap/\" xmlns:wsdl=\"http://schemas.xmlsoap.org/wsdl/\" xmlns=\"http://schemas.xmlsoap.org/wsdl/\" t" ++
    b!"argetNamespace=\"http://graphical.weather.gov/xml/DWMLgen/wsdl/ndfdXML.wsdl\">\n" ++
    b!"<types>\n" ++
    b!" <xsd:schema targetNamespace=\"http://graphical.weather.gov/xml/DWMLgen/schema/DWML.xsd\">\n" ++
    b!" <xsd:import namespace=\"http://schemas.xmlsoap.org/soap/encoding/\" />\n" ++
    b!" <xsd:import namespace=\"http://schemas.xmlsoap.org/wsdl/\" />\n" ++
    b!" <xsd:simpleType name=\"unitType\">\n" ++
    b!"  <xsd:restriction base='xsd:string'>\n" ++
    b!"   <xsd:enumeration value='e'/>\n" ++
    b!"   <xsd:enumeration value='m'/>\n" ++
    b!"  </xsd:restriction>\n" ++
    b!" </xsd:simpleType>\n" ++
    b!" <xsd:simpleType name=\"productType\">\n" ++
    b!"  <xsd:restriction base='xsd:string'>\n" ++
    b!"   <xsd:enumeration value='time-series'/>\n" ++
    b!"   <xsd:enumeration value='glance'/>\n" ++
    b!"  </xsd:restriction>\n" ++
    b!" </xsd:simpleType>\n" ++
    b!" <xsd:simpleType name=\"listLatLonType\">\n" ++
    b!"  <xsd:restriction base='xsd:string'>\n" ++
    b!"   <xsd:pattern value=\"[\\-]?\\d{1,2}\\.\\d+,[\\-]?\\d{1,3}\\.\\d+( [\\-]?\\d{1,2}\\.\\d+,[\\-]?\\d{1,3}\\.\\d+)*\" />\n" ++
    b!"  </xsd:restriction>\n" ++
    b!" </xsd:simpleType>\n" ++
    b!" <xsd:simpleType name=\"zipCodeListType\">\n" ++
    b!"  <xsd:restriction base='xsd:string'>\n" ++
    b!"   <xsd:pattern value=\"\\d{5}(\\-\\d{4})?( \\d{5}(\\-\\d{4})?)*\" />\n" ++
    b!"  </xsd:restriction>\n" ++
    b!" </xsd:simpleType>\n" ++
    b!" <xsd:complexType name=\"weatherParametersType\">\n" ++
    b!"  <xsd:all>\n" ++
    b!"   <xsd:element name=\"maxt\"         type=\"xsd:boolean\"/>\n" ++
    b!"   <xsd:element name=\"mint\"         type=\"xsd:boolean\"/>\n" ++
    b!"   <xsd:element name=\"temp\"         type=\"xsd:boolean\"/>\n" ++
    b!"   <xsd:element name=\"precipa_r\"    type=\"xsd:boolean\"/>\n" ++
    b!"  </xsd:all>\n" ++
    b!" </xsd:complexType>\n" ++
    b!"</xsd:schema>\n" ++
    b!"</types>\n" ++
    b!"<message name=\"NDFDgenRequest\">\n" ++
    b!"   <part name=\"latitude\"          type=\"xsd:decimal\" />\n" ++
    b!"   <part name=\"longitude\"         type=\"xsd:decimal\" />\n" ++
    b!"   <part name=\"product\"           type=\"typens:productType\" />\n" ++
    b!"   <part name=\"startTime\"         type=\"xsd:dateTime\" />\n" ++
    b!"   <part name=\"endTime\"           type=\"xsd:dateTime\" />\n" ++
    b!"   <part name=\"Unit\"              type=\"typens:unitType\" />   \n" ++
    b!"   <part name=\"weatherParameters\" type=\"typens:weatherParametersType\" />\n" ++
    b!"</message>\n" ++
    b!"<message name=\"NDFDgenResponse\">\n" ++
    b!"   <part name=\"dwmlOut\"           type=\"xsd:string\" />\n" ++
    b!"</message>\n" ++
    b!"<message name=\"LatLonListZipCodeRequest\">\n" ++
    b!"   <part name=\"zipCodeList\"       type=\"typens:zipCodeListType\" />\n" ++
    b!"</message>\n" ++
    b!"<message name=\"LatLonListZipCodeResponse\">\n" ++
    b!"   <part name=\"listLatLonOut\"     type=\"typens:listLatLonType\" />\n" ++
    b!"</message>\n" ++
    b!"<portType name=\"ndfdXMLPortType\">\n" ++
    b!"   <operation name=\"NDFDgen\">\n" ++
    b!"      <documentation>Returns National Weather Service digital weather forecast data</documentation>\n" ++
    b!"      <input  message=\"tns:NDFDgenRequest\"/>\n" ++
    b!"      <output message=\"tns:NDFDgenResponse\"/>\n" ++
    b!"   </operation>\n" ++
    b!"   <operation name=\"LatLonListZipCode\">\n" ++
    b!"      <documentation>Returns a list of latitude and longitude pairs with each pair corresponding to an input z" ++
    b!"ip code.</documentation>\n" ++
    b!"      <input  message=\"tns:LatLonListZipCodeRequest\"/>\n" ++
    b!"      <output message=\"tns:LatLonListZipCodeResponse\"/>\n" ++
    b!"   </operation>\n" ++
    b!"</portType>\n" ++
    b!"<binding name=\"ndfdXMLBinding\" type=\"tns:ndfdXMLPortType\">\n" ++
    b!"   <soap:binding style=\"rpc\" transport=\"http://schemas.xmlsoap.org/soap/http\"/>\n" ++
    b!"   <operation name=\"NDFDgen\">\n" ++
    b!"      <soap:operation soapAction=\"http://graphical.weather.gov/xml/DWMLgen/wsdl/ndfdXML.wsdl#NDFDgen\" style=\"r" ++
    b!"pc\"/>\n" ++
    b!"      <input>\n" ++
    b!"         <soap:body use=\"encoded\" namespace=\"http://graphical.weather.gov/xml/DWMLgen/wsdl/ndfdXML.wsdl\" encod" ++
    b!"ingStyle=\"http://schemas.xmlsoap.org/soap/encoding/\"/>\n" ++
    b!"      </input>\n" ++
    b!"      <output>\n" ++
    b!"         <soap:body use=\"encoded\" namespace=\"http://graphical.weather.gov/xml/DWMLgen/wsdl/ndfdXML.wsdl\" encod" ++
    b!"ingStyle=\"http://schemas.xmlsoap.org/soap/encoding/\"/>\n" ++
    b!"      </output>\n" ++
    b!"   </operation>\n" ++
    b!"   <operation name=\"LatLonListZipCode\">\n" ++
    b!"      <soap:operation soapAction=\"http://graphical.weather.gov/xml/DWMLgen/wsdl/ndfdXML.wsdl#LatLonListZipCode" ++
    b!"\" style=\"rpc\"/>\n" ++
    b!"      <input>\n" ++
    b!"         <soap:body use=\"encoded\" namespace=\"http://graphical.weather.gov/xml/DWMLgen/wsdl/ndfdXML.wsdl\" encod" ++
    b!"ingStyle=\"http://schemas.xmlsoap.org/soap/encoding/\"/>\n" ++
    b!"      </input>\n" ++
    b!"      <output>\n" ++
    b!"         <soap:body use=\"encoded\" namespace=\"http://graphical.weather.gov/xml/DWMLgen/wsdl/ndfdXML.wsdl\" encod" ++
    b!"ingStyle=\"http://schemas.xmlsoap.org/soap/encoding/\"/>\n" ++
    b!"      </output>\n" ++
    b!"   </operation>\n" ++
    b!"</binding>\n" ++
    b!"<service name=\"ndfdXML\">\n" ++
    b!"\n" ++
    b!"   <port name=\"ndfdXMLPort\" binding=\"tns:ndfdXMLBinding\">\n" ++
    b!"      <soap:address location=\"http://graphical.weather.gov/xml/SOAP_server/ndfdXMLserver.php\"/>\n" ++
    b!"   </port>\n" ++
    b!"</service>\n" ++
    b!"</definitions>\n"

/-- The arguments in wsdlgen/examples/forecast/gen.go, as the program gets them. -/
def forecastArgs : List Str :=
  [b!"-pkg", b!"forecast", b!"-c", b!"Package forecast access the National Digital Forecast Database.", b!"-r", b!"Type$ -> ",
    b!"ndfd.wsdl"]

def forecastNS : Str := b!"http://graphical.weather.gov/xml/DWMLgen/wsdl/ndfdXML.wsdl"

/-- A field for one weather parameter. -/
def weather (name xml : Str) : Xsdgen.Field :=
  ⟨name, .ident b!"bool", b!"xml:\"http://graphical.weather.gov/xml/DWMLgen/schema/DWML.xsd " ++ xml ++ b!"\""⟩

/-- The part of wsdlgen/examples/forecast/wsdlgen_output.go:53-146 and 213-252 and 501-519 that belongs to these parts of the document. -/
theorem forecast_file :
    ((wsdlgenRun forecastArgs forecast []).map fun r => (r.1, r.2.2.types, r.2.2.funcs.map signature)) = some (b!"forecast",
      [.type b!"Must match the pattern [\\-]?\\d{1,2}\\.\\d+,[\\-]?\\d{1,3}\\.\\d+( [\\-]?\\d{1,2}\\.\\d+,[\\-]?\\d{1,3}\\.\\d+)*"
          b!"ListLatLon" (.plain (.ident b!"string")),
        .type b!"May be one of time-series, glance" b!"Product" (.plain (.ident b!"string")),
        .type b!"May be one of e, m" b!"Unit" (.plain (.ident b!"string")),
        .type [] b!"WeatherParameters" (.struct [weather b!"Maxt" b!"maxt", weather b!"Mint" b!"mint", weather b!"Temp" b!"temp",
          weather b!"Precipar" b!"precipa_r"]),
        .type b!"Must match the pattern \\d{5}(\\-\\d{4})?( \\d{5}(\\-\\d{4})?)*" b!"ZipCodeList" (.plain (.ident b!"string"))],
      [⟨b!"NDFDgen", [b!"ctx context.Context", b!"v NDFDgenRequest"], [b!"string", b!"error"], [b!"string(output.Args.DwmlOut)", b!"err"],
        [(b!"NDFDgenRequest", [(b!"Latitude", b!"float64"), (b!"Longitude", b!"float64"), (b!"Product", b!"Product"),
          (b!"StartTime", b!"time.Time"), (b!"EndTime", b!"time.Time"), (b!"Unit", b!"Unit"),
          (b!"WeatherParameters", b!"WeatherParameters")])],
        { msgName := ⟨forecastNS, b!"NDFDgen"⟩, inputName := ⟨forecastNS, b!"NDFDgenRequest"⟩, outputName := ⟨forecastNS, b!"NDFDgenResponse"⟩
          sent := [(b!"Latitude", b!"float64", ⟨forecastNS, b!"latitude"⟩, b!"float64(v.Latitude)"),
            (b!"Longitude", b!"float64", ⟨forecastNS, b!"longitude"⟩, b!"float64(v.Longitude)"),
            (b!"Product", b!"Product", ⟨forecastNS, b!"product"⟩, b!"Product(v.Product)"),
            (b!"StartTime", b!"time.Time", ⟨forecastNS, b!"startTime"⟩, b!"time.Time(v.StartTime)"),
            (b!"EndTime", b!"time.Time", ⟨forecastNS, b!"endTime"⟩, b!"time.Time(v.EndTime)"),
            (b!"Unit", b!"Unit", ⟨forecastNS, b!"Unit"⟩, b!"Unit(v.Unit)"),
            (b!"WeatherParameters", b!"WeatherParameters", ⟨forecastNS, b!"weatherParameters"⟩, b!"WeatherParameters(v.WeatherParameters)")]
          received := [(b!"DwmlOut", b!"string", ⟨forecastNS, b!"dwmlOut"⟩)]
          method := b!"POST", address := b!"http://graphical.weather.gov/xml/SOAP_server/ndfdXMLserver.php"
          soapAction := b!"http://graphical.weather.gov/xml/DWMLgen/wsdl/ndfdXML.wsdl#NDFDgen" }⟩,
      ⟨b!"LatLonListZipCode", [b!"ctx context.Context", b!"zipCodeList ZipCodeList"], [b!"ListLatLon", b!"error"],
        [b!"ListLatLon(output.Args.ListLatLonOut)", b!"err"], [],
        { msgName := ⟨forecastNS, b!"LatLonListZipCode"⟩, inputName := ⟨forecastNS, b!"LatLonListZipCodeRequest"⟩
          outputName := ⟨forecastNS, b!"LatLonListZipCodeResponse"⟩
          sent := [(b!"ZipCodeList", b!"ZipCodeList", ⟨forecastNS, b!"zipCodeList"⟩, b!"ZipCodeList(zipCodeList)")]
          received := [(b!"ListLatLonOut", b!"ListLatLon", ⟨forecastNS, b!"listLatLonOut"⟩)]
          method := b!"POST", address := b!"http://graphical.weather.gov/xml/SOAP_server/ndfdXMLserver.php"
          soapAction := b!"http://graphical.weather.gov/xml/DWMLgen/wsdl/ndfdXML.wsdl#LatLonListZipCode" }⟩]) := by
  decide +kernel

end GoXml.Wsdl.RepoExamples
