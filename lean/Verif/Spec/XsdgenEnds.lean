import Verif.Model.XsdgenCli
set_option autoImplicit false

/-! What it means that `GenCode` ends (C158). -/

namespace GoXml.Xsdgen

/-- A call of `GenCode` answers with code or an error: it does not panic, and it does not run on. -/
def Answers : CodeResult → Prop
  | .done .panic => False
  | .done .running => False
  | _ => True

end GoXml.Xsdgen
