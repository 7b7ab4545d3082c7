import Verif.Basic
import Verif.Conformance.Cbor
import Verif.Conformance.Certification
import Verif.Conformance.HashTree
import Verif.Conformance.Hashes
import Verif.Conformance.Header
import Verif.Conformance.Paths
import Verif.Conformance.RbOrd
import Verif.Conformance.RbTree
import Verif.Conformance.Rih
import Verif.Conformance.Util
import Verif.Conformance.Validation
import Verif.Lemmas.Asset
import Verif.Lemmas.AssetServe
import Verif.Lemmas.AssetState
import Verif.Lemmas.Cbor
import Verif.Lemmas.Cel
import Verif.Lemmas.CertNode
import Verif.Lemmas.CertTree
import Verif.Lemmas.CustomAssets
import Verif.Lemmas.FullSize
import Verif.Lemmas.HashTree
import Verif.Lemmas.Header
import Verif.Lemmas.Http
import Verif.Lemmas.HttpPath
import Verif.Lemmas.Lookup
import Verif.Lemmas.Nested
import Verif.Lemmas.NestedSize
import Verif.Lemmas.Normal
import Verif.Lemmas.Range
import Verif.Lemmas.RangeSize
import Verif.Lemmas.RbComplete
import Verif.Lemmas.RbCost
import Verif.Lemmas.RbCostDelete
import Verif.Lemmas.RbDelete
import Verif.Lemmas.RbInv
import Verif.Lemmas.RbIter
import Verif.Lemmas.RbOps
import Verif.Lemmas.RbShow
import Verif.Lemmas.RbSize
import Verif.Lemmas.RbWitness
import Verif.Lemmas.Rih
import Verif.Lemmas.Stable
import Verif.Lemmas.TodoApi
import Verif.Lemmas.Utf8
import Verif.Lemmas.Verify
import Verif.Lemmas.Wasm
import Verif.Model.Asset
import Verif.Model.AssetMap
import Verif.Model.AssetsExample
import Verif.Model.Base64
import Verif.Model.Body
import Verif.Model.Builders
import Verif.Model.Candid
import Verif.Model.Cbor
import Verif.Model.Cel
import Verif.Model.CertBuilder
import Verif.Model.CertTree
import Verif.Model.CertVerify
import Verif.Model.Certification
import Verif.Model.CustomAssets
import Verif.Model.HashTree
import Verif.Model.Header
import Verif.Model.Http
import Verif.Model.HttpPath
import Verif.Model.JsBuilder
import Verif.Model.JsVerify
import Verif.Model.LabelText
import Verif.Model.Leb
import Verif.Model.Nested
import Verif.Model.Out
import Verif.Model.RbCost
import Verif.Model.RbOrd
import Verif.Model.RbTree
import Verif.Model.Rih
import Verif.Model.Serde
import Verif.Model.SkipCert
import Verif.Model.SmallExamples
import Verif.Model.TestUtils
import Verif.Model.TodoApi
import Verif.Model.Utf8
import Verif.Model.Verify
import Verif.Model.Wasm
import Verif.Props.Asset
import Verif.Props.AssetDelete
import Verif.Props.AssetEncodings
import Verif.Props.AssetExamples
import Verif.Props.AssetFail
import Verif.Props.AssetFailExamples
import Verif.Props.AssetFiles
import Verif.Props.AssetFound
import Verif.Props.AssetFoundExamples
import Verif.Props.AssetMap
import Verif.Props.AssetOnly
import Verif.Props.AssetPlace
import Verif.Props.AssetProvisos
import Verif.Props.AssetRange
import Verif.Props.AssetShared
import Verif.Props.AssetSharedExamples
import Verif.Props.AssetSharedOnly
import Verif.Props.AssetStale
import Verif.Props.AssetVerify
import Verif.Props.AssetVerifyExamples
import Verif.Props.AssetsExample
import Verif.Props.AssetsExampleExamples
import Verif.Props.AssetsExampleOnly
import Verif.Props.Base64
import Verif.Props.Base64Bits
import Verif.Props.Body
import Verif.Props.Builders
import Verif.Props.Candid
import Verif.Props.CandidHash
import Verif.Props.Cbor
import Verif.Props.CborGrammar
import Verif.Props.CborTotal
import Verif.Props.Cel
import Verif.Props.CelGrammar
import Verif.Props.CertBuilder
import Verif.Props.CertRanges
import Verif.Props.CertTree
import Verif.Props.CertVerify
import Verif.Props.Certification
import Verif.Props.Complete
import Verif.Props.Cost
import Verif.Props.CustomAssets
import Verif.Props.CustomAssetsExamples
import Verif.Props.CustomAssetsInit
import Verif.Props.CustomAssetsOnly
import Verif.Props.DebugText
import Verif.Props.Decimal
import Verif.Props.EndToEnd
import Verif.Props.EndToEndExamples
import Verif.Props.Errors
import Verif.Props.ErrorsExamples
import Verif.Props.Hash
import Verif.Props.HashTree
import Verif.Props.Header
import Verif.Props.HeaderAdded
import Verif.Props.HeaderLast
import Verif.Props.HeaderText
import Verif.Props.HeaderVersion
import Verif.Props.HttpPath
import Verif.Props.Interface
import Verif.Props.InterfaceCbor
import Verif.Props.JsBuilder
import Verif.Props.JsVerify
import Verif.Props.LabelText
import Verif.Props.Nested
import Verif.Props.NestedCost
import Verif.Props.Network
import Verif.Props.NetworkDelegation
import Verif.Props.NetworkExamples
import Verif.Props.NetworkJs
import Verif.Props.NetworkRouter
import Verif.Props.RbCost
import Verif.Props.RbOrd
import Verif.Props.RbTree
import Verif.Props.SecurityHeaders
import Verif.Props.Serde
import Verif.Props.Show
import Verif.Props.Size
import Verif.Props.SkipCert
import Verif.Props.SmallExamples
import Verif.Props.Stability
import Verif.Props.StabilityExamples
import Verif.Props.Stable
import Verif.Props.TestUtils
import Verif.Props.TodoApi
import Verif.Props.TodoRoutes
import Verif.Props.TodoServed
import Verif.Props.UrlEscapes
import Verif.Props.Verify
import Verif.Props.Wasm
import Verif.Props.WasmNum
import Verif.Props.WasmObjects
import Verif.Props.WasmText
import Verif.Spec.Asset
import Verif.Spec.AssetsExample
import Verif.Spec.Base64
import Verif.Spec.Builders
import Verif.Spec.Cbor
import Verif.Spec.CborGrammar
import Verif.Spec.Cel
import Verif.Spec.CelGrammar
import Verif.Spec.CertBuilder
import Verif.Spec.CertTree
import Verif.Spec.CertVerify
import Verif.Spec.Cost
import Verif.Spec.CustomAssets
import Verif.Spec.DebugText
import Verif.Spec.EndToEnd
import Verif.Spec.Errors
import Verif.Spec.HashTree
import Verif.Spec.Header
import Verif.Spec.Http
import Verif.Spec.HttpPath
import Verif.Spec.Interface
import Verif.Spec.InterfaceCbor
import Verif.Spec.JsBuilder
import Verif.Spec.JsVerify
import Verif.Spec.LabelText
import Verif.Spec.Nested
import Verif.Spec.Network
import Verif.Spec.Normal
import Verif.Spec.RbTree
import Verif.Spec.Rih
import Verif.Spec.Serde
import Verif.Spec.Sha256
import Verif.Spec.Shared
import Verif.Spec.Show
import Verif.Spec.Size
import Verif.Spec.Stability
import Verif.Spec.TestUtils
import Verif.Spec.TodoApi
import Verif.Spec.Toy
import Verif.Spec.Uri
import Verif.Spec.Verify
import Verif.Spec.Wasm
