import Verif.Basic
import Verif.Props.Graph
import Verif.Props.XmlScope
import Verif.Props.XmlSearch
import Verif.Props.XmlParse
import Verif.Props.XmlMarshal
import Verif.Props.XmlCompare
import Verif.Props.XmlMemory
import Verif.Props.XmlMisc
import Verif.Props.XsdBuiltin
import Verif.Props.XsdNormalize
import Verif.Props.XsdDeref
import Verif.Props.XsdParse
import Verif.Props.XsdAnnotation
import Verif.Props.XsdDecls
import Verif.Props.XsdMixed
import Verif.Props.XsdPanic
import Verif.Props.XsdHeapRef
import Verif.Props.XsdExpand
import Verif.Props.XsdNames
import Verif.Props.XsdHeapCycle
import Verif.Props.XsdgenConfig
import Verif.Props.XsdgenTypes
import Verif.Props.XsdgenList
import Verif.Props.XsdgenSpec
import Verif.Props.XsdgenDecls
import Verif.Props.XsdgenCli
import Verif.Props.XsdgenText
import Verif.Props.Gen
import Verif.Props.Wsdl
import Verif.Props.WsdlGen
import Verif.Spec.XsdgenClosed
import Verif.Proofs.XsdgenFlow
import Verif.Proofs.XsdgenFit
import Verif.Proofs.XsdgenClosed
import Verif.Proofs.XsdgenCheck
import Verif.Proofs.XsdgenKeep
import Verif.Proofs.XsdgenDeclared
import Verif.Props.XsdgenClosed
import Verif.Props.XsdgenLoop
import Verif.Spec.GoCheck
import Verif.Model.XsdgenListCode
import Verif.Props.XsdgenListCode
import Verif.Proofs.XsdgenListFlat
import Verif.Props.XsdgenListFile
import Verif.Spec.XsdgenMeaning
import Verif.Proofs.XsdgenMeaning
import Verif.Props.XsdgenMeaning
import Verif.Props.XsdgenHelpers
import Verif.Model.XsdgenName
import Verif.Spec.XsdgenName
import Verif.Proofs.XsdgenName
import Verif.Props.XsdgenName
import Verif.Props.XsdgenSoap
import Verif.Model.WsdlgenFile
import Verif.Spec.WsdlgenFile
import Verif.Proofs.XsdgenQuiet
import Verif.Proofs.WsdlgenFile
import Verif.Props.WsdlgenFile
import Verif.Props.WsdlBody
import Verif.Props.XsdWildcard
import Verif.Props.XsdDoc
import Verif.Props.XsdgenProcess
import Verif.Model.WsdlgenClient
import Verif.Spec.WsdlgenClient
import Verif.Proofs.WsdlgenClient
import Verif.Props.WsdlgenClient
import Verif.Spec.Source
import Verif.Proofs.Source
import Verif.Proofs.SourceTree
import Verif.Props.XmlSource
import Verif.Model.Cli
import Verif.Spec.Cli
import Verif.Proofs.Cli
import Verif.Props.Cli
import Verif.Spec.Rewrite
import Verif.Proofs.Rewrite
import Verif.Props.XmlRewrite
import Verif.Model.XsdgenValues
import Verif.Spec.XsdgenValues
import Verif.Proofs.XsdgenTags
import Verif.Proofs.XsdgenSlots
import Verif.Proofs.XsdgenValues
import Verif.Proofs.XsdgenKept
import Verif.Proofs.XsdgenMade
import Verif.Props.XsdgenValues
import Verif.Spec.XsdgenNested
import Verif.Proofs.XsdgenReads
import Verif.Proofs.XsdgenNested
import Verif.Props.XsdgenReads
import Verif.Props.XsdgenNested
import Verif.Model.XsdPipeline
import Verif.Spec.XsdContent
import Verif.Spec.XsdCanonical
import Verif.Proofs.XsdContent
import Verif.Proofs.XsdCanonical
import Verif.Props.XsdContent
import Verif.Props.XsdCanonical
import Verif.Props.XsdRefType
import Verif.Props.EndToEnd
import Verif.Props.RepoTests
import Verif.Props.RepoExamples
import Verif.Props.RepoXml
import Verif.Props.RepoGenTests
import Verif.Props.RepoWsdl
import Verif.Props.XsdgenComment
import Verif.Props.GenSource
import Verif.Model.XmlUnmarshal
import Verif.Spec.XmlUnmarshal
import Verif.Proofs.XmlUnmarshal
import Verif.Props.XmlUnmarshal
import Verif.Model.XsdErrors
import Verif.Spec.XsdErrors
import Verif.Proofs.XsdErrors
import Verif.Props.XsdErrors
import Verif.Model.XsdMissing
import Verif.Spec.XsdMissing
import Verif.Proofs.XsdMissing
import Verif.Props.XsdMissing
import Verif.Proofs.XsdgenRecursive
import Verif.Props.XsdgenRecursive
import Verif.Proofs.XsdgenCost
import Verif.Props.XsdgenCost
import Verif.Spec.XsdgenDocuments
import Verif.Proofs.XsdgenDocuments
import Verif.Proofs.XsdNamed
import Verif.Proofs.XsdNamedCheck
import Verif.Props.XsdgenDocuments
import Verif.Spec.XsdNormal
import Verif.Proofs.XsdSlices
import Verif.Proofs.XsdRefine
import Verif.Proofs.XsdExpandDocs
import Verif.Proofs.XsdNormal
import Verif.Props.XsdNormal
import Verif.Spec.XsdAnon
import Verif.Proofs.XsdAnon
import Verif.Props.XsdAnon
import Verif.Spec.XsdAccept
import Verif.Proofs.XsdAccept
import Verif.Proofs.XsdAcceptDocs
import Verif.Props.XsdAccept
import Verif.Proofs.XsdgenShape
import Verif.Proofs.XsdgenUnknown
import Verif.Proofs.XsdRelink
import Verif.Proofs.XsdLinks
import Verif.Proofs.XsdRelinked
import Verif.Spec.XsdgenSucceeds
import Verif.Proofs.XsdgenSucceeds
import Verif.Proofs.XsdgenAccepted
import Verif.Proofs.XsdgenAcceptedCheck
import Verif.Props.XsdgenSucceeds
import Verif.Spec.WsdlgenSucceeds
import Verif.Proofs.WsdlgenSucceeds
import Verif.Props.WsdlgenSucceeds
import Verif.Spec.XsdLinked
import Verif.Proofs.XsdLinked
import Verif.Props.XsdLinked
import Verif.Spec.XsdgenDerivable
import Verif.Proofs.XsdgenDerivable
import Verif.Proofs.XsdgenDerivableCheck
import Verif.Props.XsdgenDerivable
import Verif.Props.XsdgenSound
import Verif.Props.XsdLinkedContent
import Verif.Spec.XsdgenStruct
import Verif.Proofs.XsdgenStruct
import Verif.Props.XsdgenStruct
import Verif.Spec.XsdgenSimple
import Verif.Props.XsdgenSimple
import Verif.Spec.XsdgenEnds
import Verif.Props.XsdgenEnds
import Verif.Props.XsdgenUnlisted
import Verif.Props.XsdgenCommentFile
import Verif.Props.WsdlgenStruct
import Verif.Props.XsdgenDefault
import Verif.Props.WsdlgenDefault
