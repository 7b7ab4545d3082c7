import Verif.Conformance.HashTree
import Verif.Conformance.Validation
import Verif.Model.CertVerify

/-! # The tests of packages/ic-response-verification/src/verification/{certificate_header,certificate_header_field}.rs,
and a certificate of the Internet Computer -/

namespace Verif.Conformance
open Verif HashTree
attribute [local instance] realSHA
set_option maxRecDepth 100000

/-- `create_certificate(None)` (ic-response-verification-test-utils/src/certificate.rs:43-101). -/
def createCertificate : Certificate where
  tree := .fork (.fork (.fork (lbl "canister" (.labeled [0, 0, 0, 0, 0, 0, 0, 7, 1, 1]
          (.fork (.fork (.fork
              (lbl "certified_data" (.leaf (hex "D9EF7E1964D85B0EA088C9318C913B77152E14C3A6A04277D051514CE62667EE")))
              (.pruned (hexHash "FD5B59459758C8AFECAF7285DA359E4B5ADB945FB86A3C1F0EFD996C21A96938")))
              (.pruned (hexHash "E872843059989FD8F4B051D1C420833575932E70CC6F0E2D0EF93D461DA03F29")))
            (.pruned (hexHash "281A9DF147D24DD72C6E7CD02D93D7558B092CCE9D73F7E2F9195C5BD0FF5891")))))
        (.pruned (hexHash "8001B84283EE0697540FD89F32CE340AF9FDBE7D306A12E349330E06C315E220")))
      (.pruned (hexHash "A1AC221030FE0E70538B98FD3632C73161C502559A564E3EDBAFAE970154609E")))
    (.fork (.pruned (hexHash "0B2F12CF83A8A339691C0D39BE38432CEE1A64DA8E3898BB69AFDB6970823C5E"))
      (lbl "time" (.leaf (hex "AFB18DEEB0DA8C9517"))))
  signature := hex "869F2D2BECA39513342CA14E1446EFE3B5E07E70EE2EC3CC79F5680FDDA91C33" ++ hex "885067614B56D6D6C0A817D8E5CA0415"
  delegation := none

/-- In all tests but the first a smaller certificate and tree are used, as evaluation in the kernel is slow. -/
def smallCertificate : Certificate where
  tree := .fork (lbl "canister" (.pruned (fill 7))) (lbl "time" (.leaf (hex "AFB18DEEB0DA8C9517")))
  signature := hex "869F2D2BECA39513"
  delegation := none
def smallTree : HashTree := lbl "http_assets" (lbl "/" (.leaf [1, 2, 3]))

def defaultTree : HashTree := createTree (str "/") (hex "784C0F825A938AA7F471587CDF7C7796F828F9362495E2B9C8490F2232359BDB")
def imgPath : List Bytes := [str "/", str "assets", str "img.jpg"]

/-- `cbor_encode` (ic-response-verification-test-utils/src/cbor.rs): serde_cbor with the self-describe tag. -/
def selfDescribed (d : Sd) : Bytes := [0xd9, 0xd9, 0xf7] ++ d.cbor
def cborCertificate : Bytes := selfDescribed (serCertificate smallCertificate)
def cborTree : Bytes := selfDescribed (serTree smallTree)
def cborPath : Bytes := [0xd9, 0xd9, 0xf7] ++ (Sd.seq (imgPath.map (Sd.str false))).cbor

/-- `create_header_field` and `create_encoded_header_field` (test_utils.rs:48-56). -/
def field (name : String) (value : List Char) : List Char := name.toList ++ "=:".toList ++ value ++ ":".toList
def encField (name : String) (value : Bytes) : List Char := field name (b64Encode true value)
def joined (fs : List (List Char)) : List Char := [','].intercalate fs

/-- `certificate_header_parses_valid_header` (certificate_header.rs:137-159). -/
example : (match headerFrom machine (joined [encField "certificate" (selfDescribed (serCertificate createCertificate)),
      encField "tree" (selfDescribed (serTree defaultTree)), field "version" "2".toList, encField "expr_path" cborPath]) with
    | .ok h => h.certificate == createCertificate && h.tree == defaultTree && h.version == 2 && h.exprPath == some imgPath
    | _ => false) = true := by decide +kernel

def headerIs (fs : List (List Char)) (version : Nat) (path : Option (List Bytes)) : Bool :=
  match headerFrom machine (joined fs) with
  | .ok h => h.certificate == smallCertificate && h.tree == smallTree && h.version == version && h.exprPath == path
  | _ => false

def certField : List Char := encField "certificate" cborCertificate
def treeField : List Char := encField "tree" cborTree
def versionField : List Char := field "version" "2".toList
def pathField : List Char := encField "expr_path" cborPath

/-- `certificate_header_parses_valid_header_with_unpadded_base64`. -/
example : headerIs [field "certificate" (b64Encode false cborCertificate), field "tree" (b64Encode false cborTree),
    versionField, field "expr_path" (b64Encode false cborPath)] 2 (some imgPath) = true := by decide +kernel

/-- `certificate_header_ignores_extraneous_fields`. -/
example : headerIs [certField, treeField, versionField, pathField, encField "garbage" (str "asdhlasjdasdoou")] 2
    (some imgPath) = true := by decide +kernel

/-- `certificate_header_throws_with_missing_tree`, `…_empty_tree`, `…_missing_certificate`, `…_empty_certificate`. -/
def missing (fs : List (List Char)) : Option Bool :=
  match headerFrom machine (joined fs) with
  | .err .missingTree => some false
  | .err .missingCertificate => some true
  | _ => none

example :
    missing [certField, versionField, pathField] = some false ∧
    missing [certField, encField "tree" [], versionField, pathField] = some false ∧
    missing [treeField, versionField, pathField] = some true ∧
    missing [encField "certificate" [], treeField, versionField, pathField] = some true := by decide +kernel

/-- `certificate_header_handles_missing_version`, `…_empty_version`, `…_missing_expr_path`, `…_empty_expr_path`. -/
example :
    headerIs [certField, treeField, pathField] 1 (some imgPath) = true ∧
    headerIs [certField, treeField, encField "version" [], pathField] 1 (some imgPath) = true ∧
    headerIs [certField, treeField, versionField] 2 none = true ∧
    headerIs [certField, treeField, versionField, encField "expr_path" []] 2 none = true := by decide +kernel

/-- `certificate_header_ignores_duplicate_fields`. -/
example : headerIs [certField, encField "certificate" (str "Goodbye Certificate!"), treeField,
    encField "tree" (str "Goodbye tree!"), versionField, pathField, encField "version" (str "3"),
    encField "expr_path" (str "Goodbye expr_path!")] 2 (some imgPath) = true := by decide +kernel

/-- The five tests of certificate_header_field.rs:60-122. -/
example :
    headerField certField = some ("certificate".toList, b64Encode true cborCertificate) ∧
    headerField "version=2".toList = some ("version".toList, "2".toList) ∧
    headerField (encField "" []) = none ∧ headerField [] = none ∧
    headerField ("certificate:".toList ++ b64Encode true cborCertificate) = none := by decide +kernel

/-- The certificate in `create_certificate_delegation` (ic-response-verification-test-utils/src/certificate.rs:106), a
delegation certificate as the NNS subnet of the Internet Computer issued it: the parser reads it, the subnet of the
delegation has the canister ranges and the public key of the subnet, the public key is DER-encoded as the library
expects, and the time is there. -/
def nnsDelegation : Bytes :=
  hex "D9D9F7A26474726565830182045820E752271175EF859A5F69FBF8FAD54EC920" ++
  hex "C889C4288E3EA9DD7D1E44E6A43E2E83018302467375626E6574830183018301" ++
  hex "82045820267FE55111B56E3C3975532EA3373F7B72E9F82072FE8E607ED34486" ++
  hex "478A5B39830182045820466A70286CF9ACE9801CA53E22AF6EE059A094FD6049" ++
  hex "8606D484B6854058307D83018301820458208B2F6C15078AE4D3B93470915CA5" ++
  hex "3E373327F37EA74BA1B8177D986BB79B31AE8302581D43DCAF1180DB82FDA708" ++
  hex "CE3AC7A03A6060ABDE13E9546C60E8CCE65D02830183024F63616E6973746572" ++
  hex "5F72616E67657382035832D9D9F782824A000000000000000701014A00000000" ++
  hex "000000070101824A000000000210000001014A00000000021FFFFF010183024A" ++
  hex "7075626C69635F6B657982035885308182301D060D2B0601040182DC7C050301" ++
  hex "0201060C2B0601040182DC7C050302010361008675B634A43E39726238CFE39C" ++
  hex "9518BC3E3225CB6F5A8479BFCF2B608FBA6F8524DCB80F35A8AE44B47F262F0A" ++
  hex "6620D41279F06FE0C53A739FCCA01A48926FE651A3519B5B329FFBECC9F0CB90" ++
  hex "8B098DD3E8845CFB99C56379E049AC465EC8068204582087CD2136474DE60488" ++
  hex "79C3B70200535651703DC972CACB94FA065FFE2EE6368A820458204A1D76C08E" ++
  hex "642E3DB6982E6653BE8C736F275A24AC221083430B2D5B441CE754820458202D" ++
  hex "856BBA7B6C80171CE8E5D121BB7E4450B3565A644D9135E9FE5884281C1FB983" ++
  hex "024474696D65820349B5D28BDCCB84969417697369676E61747572655830ADEB" ++
  hex "2390B09EB25DCC7C59B3DA6C2DF63F87ECB39CC2018875FC96A5D5E9DC256AAA" ++
  hex "C5B003F52BF3EDBB022185ACD447"

def nnsSubnet : Bytes := hex "43DCAF1180DB82FDA708CE3AC7A03A6060ABDE13E9546C60E8CCE65D02"

def nnsFacts : Bool :=
  match certificateFromCbor machine nnsDelegation with
  | some (.ok c) =>
    c.signature.length == 48 && c.delegation.isNone &&
    (match c.tree.lookupPath [str "time"] with
      | .found t => t == hex "B5D28BDCCB84969417"
      | _ => false) &&
    (match c.tree.lookupPath [str "subnet", nnsSubnet, str "canister_ranges"] with
      | .found r => (match rangesFromCbor machine r with
        | some (.ok rs) => rs == [(hex "00000000000000070101", hex "00000000000000070101"),
            (hex "00000000021000000101", hex "00000000021FFFFF0101")]
        | _ => false)
      | _ => false) &&
    (match c.tree.lookupPath [str "subnet", nnsSubnet, str "public_key"] with
      | .found k => (match extractDer k with
        | .ok r => r.length == 96
        | _ => false)
      | _ => false)
  | _ => false

example : nnsFacts = true := by decide +kernel

end Verif.Conformance
