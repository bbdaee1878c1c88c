import Verif.Model.XmlTree
set_option autoImplicit false

/-! The built-in types of XML Schema Part 2, independent of the code. -/

namespace GoXml.Xsd

/-- The namespace of XML Schema. -/
def w3cSchemaNS : Str := b!"http://www.w3.org/2001/XMLSchema"

/-- Each built-in type of the XML Schema namespace with the number of its Go constant. -/
def w3cTypes : List (Int × Str) :=
  [(0, b!"anyType"), (1, b!"ENTITIES"), (2, b!"ENTITY"), (3, b!"ID"), (4, b!"IDREF"), (5, b!"IDREFS"),
   (6, b!"NCName"), (7, b!"NMTOKEN"), (8, b!"NMTOKENS"), (9, b!"NOTATION"), (10, b!"Name"), (11, b!"QName"),
   (12, b!"anyURI"), (13, b!"base64Binary"), (14, b!"boolean"), (15, b!"byte"), (16, b!"date"),
   (17, b!"dateTime"), (18, b!"decimal"), (19, b!"double"), (20, b!"duration"), (21, b!"float"),
   (22, b!"gDay"), (23, b!"gMonth"), (24, b!"gMonthDay"), (25, b!"gYear"), (26, b!"gYearMonth"),
   (27, b!"hexBinary"), (28, b!"int"), (29, b!"integer"), (30, b!"language"), (31, b!"long"),
   (32, b!"negativeInteger"), (33, b!"nonNegativeInteger"), (34, b!"nonPositiveInteger"),
   (35, b!"normalizedString"), (36, b!"positiveInteger"), (37, b!"short"), (38, b!"string"), (39, b!"time"),
   (40, b!"token"), (41, b!"unsignedByte"), (42, b!"unsignedInt"), (43, b!"unsignedLong"),
   (44, b!"unsignedShort"), (49, b!"anySimpleType")]

end GoXml.Xsd
