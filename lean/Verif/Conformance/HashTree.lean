import Verif.Conformance.Util
import Verif.Model.Cbor
import Verif.Model.Serde

/-! # The tests of packages/ic-certification/src/hash_tree/tests.rs -/

namespace Verif.Conformance
open Verif HashTree
attribute [local instance] realSHA
set_option maxRecDepth 100000

/-- `works_with_simple_tree` (hash_tree/tests.rs:18-32). -/
example : (digest (.fork (.labeled (str "label 1") .empty) (.fork (.pruned (fill 1)) (.leaf [1, 2, 3, 4, 5, 6])))).1 =
    hex "69cf325d0f20505b261821a7e77ff72fb9a8753a7964f0b587553bfb44e72532" := by decide +kernel

/-- The tree of `spec_example` (hash_tree/tests.rs:37-49). -/
def specTree : HashTree :=
  .fork (.fork
      (.labeled (str "a") (.fork (.fork (.labeled (str "x") (.leaf (str "hello"))) .empty)
        (.labeled (str "y") (.leaf (str "world")))))
      (.labeled (str "b") (.leaf (str "good"))))
    (.fork (.labeled (str "c") .empty) (.labeled (str "d") (.leaf (str "morning"))))

/-- Its CBOR (hash_tree/tests.rs:55). -/
def specCbor : Bytes := hex "8301830183024161830183018302417882034568656c6c6f8100830241798203" ++
  hex "45776f726c6483024162820344676f6f64830183024163810083024164820347" ++
  hex "6d6f726e696e67"

/-- `spec_example` (hash_tree/tests.rs:35-62). -/
example : (serTree specTree).cbor = specCbor ∧
    specTree.digest.1 = hex "eb5c5b2195e62d996b84c9bcc8259d19a83786a2f59e0878cec84c811f669aa0" := by decide +kernel

/-- The 64-bit machine on which the parser of `ic-cbor` is evaluated. -/
def machine : Machine := { usize := 2 ^ 64, mapCap := 2 ^ 40, stack := 1000, celStack := 1000, celStack_ok := by decide }

/-- The parser of `ic-cbor` reads it back. -/
example : treeFromCbor machine specCbor = some (.ok specTree) := by decide +kernel

/-- The CBOR of `serialize_to_cbor` and `serialize_to_cbor_with_delegation` (certificate.rs:296-334). -/
def certCbor : Bytes := hex "a264747265658301830183024161830183018302417882034568656c6c6f8100" ++
  hex "83024179820345776f726c6483024162820344676f6f64830183024163810083" ++
  hex "0241648203476d6f726e696e67697369676e617475726546010203040506"
def certDelegationCbor : Bytes := hex "a364747265658301830183024161830183018302417882034568656c6c6f8100" ++
  hex "83024179820345776f726c6483024162820344676f6f64830183024163810083" ++
  hex "0241648203476d6f726e696e67697369676e6174757265460102030405066a64" ++
  hex "656c65676174696f6ea2697375626e65745f6964460708090a0b0c6b63657274" ++
  hex "69666963617465460d0e0f101112"
def specCert : Certificate := { tree := specTree, signature := [1, 2, 3, 4, 5, 6], delegation := none }
def specCertDelegation : Certificate :=
  { specCert with delegation := some { subnetId := [7, 8, 9, 10, 11, 12], certificate := [13, 14, 15, 16, 17, 18] } }

/-- `serialize_to_cbor` and `serialize_to_cbor_with_delegation` (certificate.rs:296-334), and reading back. -/
example :
    (serCertificate specCert).cbor = certCbor ∧
    (serCertificate specCertDelegation).cbor = certDelegationCbor ∧
    certificateFromCbor machine certCbor = some (.ok specCert) ∧
    certificateFromCbor machine certDelegationCbor = some (.ok specCertDelegation) := by decide +kernel

/-- The tree of `spec_example_pruned` (hash_tree/tests.rs:67-92). -/
def specPruned : HashTree :=
  .fork (.fork
      (.labeled (str "a") (.fork
        (.pruned (hexHash "1b4feff9bef8131788b0c9dc6dbad6e81e524249c879e9f10f71ce3749f5a638"))
        (.labeled (str "y") (.leaf (str "world")))))
      (.labeled (str "b") (.pruned (hexHash "7b32ac0c6ba8ce35ac82c255fc7906f7fc130dab2a090f80fe12f9c2cae83ba6"))))
    (.fork (.pruned (hexHash "ec8324b8a1f1ac16bd2e806edba78006479c9877fed4eb464a25485465af601d"))
      (.labeled (str "d") (.leaf (str "morning"))))

/-- `spec_example_pruned` (hash_tree/tests.rs:64-112). -/
example :
    specPruned.digest.1 = hex "eb5c5b2195e62d996b84c9bcc8259d19a83786a2f59e0878cec84c811f669aa0" ∧
    specPruned.lookupPath [str "a", str "a"] = .unknown ∧
    specPruned.lookupPath [str "a", str "y"] = .found (str "world") ∧
    specPruned.lookupPath [str "aa"] = .absent ∧
    specPruned.lookupPath [str "ax"] = .absent ∧
    specPruned.lookupPath [str "b"] = .unknown ∧
    specPruned.lookupPath [str "bb"] = .unknown ∧
    specPruned.lookupPath [str "d"] = .found (str "morning") ∧
    specPruned.lookupPath [str "e"] = .absent := by decide +kernel

/-- `fork(label("label 3", leaf([1..6])), label("label 5", empty()))`. -/
def inner35 : HashTree := .fork (.labeled (str "label 3") (.leaf [1, 2, 3, 4, 5, 6])) (.labeled (str "label 5") .empty)
def lab (s : String) : HashTree := .labeled (str s) .empty
/-- The eight trees of `can_lookup_paths_1` to `_8` and `can_lookup_subtrees_1` to `_8`. -/
def tree1 : HashTree := .fork (lab "label 1") (.fork (.pruned (fill 1)) inner35)
def tree2 : HashTree := .fork (lab "label 1") (.fork inner35 (.pruned (fill 1)))
def tree3 : HashTree := .fork (.pruned (fill 0)) (.fork (.pruned (fill 1)) inner35)
def tree4 : HashTree := .fork (.pruned (fill 0)) (.fork inner35 (.pruned (fill 1)))
def tree5 : HashTree := .fork (.fork (.pruned (fill 1)) inner35) (lab "label 7")
def tree6 : HashTree := .fork (.fork inner35 (.pruned (fill 1))) (lab "label 7")
def tree7 : HashTree := .fork (.fork (.pruned (fill 1)) inner35) (.pruned (fill 0))
def tree8 : HashTree := .fork (.fork inner35 (.pruned (fill 1))) (.pruned (fill 0))

/-- The results of looking up the given labels, one path each. -/
def paths (t : HashTree) (ls : List String) : List LookupResult := ls.map (fun l => t.lookupPath [str l])
def subtrees (t : HashTree) (ls : List String) : List SubtreeResult := ls.map (fun l => t.lookupSubtree [str l])

/-- `can_lookup_paths_1` to `_8` (hash_tree/tests.rs:114-303). -/
example :
    paths tree1 ["label 0", "label 1", "label 2", "label 3", "label 4", "label 5", "label 6"] =
      [.absent, .absent, .unknown, .found [1, 2, 3, 4, 5, 6], .absent, .absent, .absent] ∧
    paths tree2 ["label 0", "label 1", "label 2", "label 3", "label 4", "label 5", "label 6"] =
      [.absent, .absent, .absent, .found [1, 2, 3, 4, 5, 6], .absent, .absent, .unknown] ∧
    paths tree3 ["label 2", "label 3", "label 4", "label 5", "label 6"] =
      [.unknown, .found [1, 2, 3, 4, 5, 6], .absent, .absent, .absent] ∧
    paths tree4 ["label 2", "label 3", "label 4", "label 5", "label 6"] =
      [.unknown, .found [1, 2, 3, 4, 5, 6], .absent, .absent, .unknown] ∧
    paths tree5 ["label 2", "label 3", "label 4", "label 5", "label 6", "label 7", "label 8"] =
      [.unknown, .found [1, 2, 3, 4, 5, 6], .absent, .absent, .absent, .absent, .absent] ∧
    paths tree6 ["label 2", "label 3", "label 4", "label 5", "label 6", "label 7", "label 8"] =
      [.absent, .found [1, 2, 3, 4, 5, 6], .absent, .absent, .unknown, .absent, .absent] ∧
    paths tree7 ["label 2", "label 3", "label 4", "label 5", "label 6"] =
      [.unknown, .found [1, 2, 3, 4, 5, 6], .absent, .absent, .unknown] ∧
    paths tree8 ["label 2", "label 3", "label 4", "label 5", "label 6"] =
      [.absent, .found [1, 2, 3, 4, 5, 6], .absent, .absent, .unknown] := by decide +kernel

/-- `can_lookup_subtrees_1` to `_8` (hash_tree/tests.rs:305-508). -/
example :
    subtrees tree1 ["label 0", "label 1", "label 2", "label 3", "label 4", "label 5", "label 6"] =
      [.absent, .found .empty, .unknown, .found (.leaf [1, 2, 3, 4, 5, 6]), .absent, .found .empty, .absent] ∧
    subtrees tree2 ["label 0", "label 1", "label 2", "label 3", "label 4", "label 5", "label 6"] =
      [.absent, .found .empty, .absent, .found (.leaf [1, 2, 3, 4, 5, 6]), .absent, .found .empty, .unknown] ∧
    subtrees tree3 ["label 2", "label 3", "label 4", "label 5", "label 6"] =
      [.unknown, .found (.leaf [1, 2, 3, 4, 5, 6]), .absent, .found .empty, .absent] ∧
    subtrees tree4 ["label 2", "label 3", "label 4", "label 5", "label 6"] =
      [.unknown, .found (.leaf [1, 2, 3, 4, 5, 6]), .absent, .found .empty, .unknown] ∧
    subtrees tree5 ["label 2", "label 3", "label 4", "label 5", "label 6", "label 7", "label 8"] =
      [.unknown, .found (.leaf [1, 2, 3, 4, 5, 6]), .absent, .found .empty, .absent, .found .empty, .absent] ∧
    subtrees tree6 ["label 2", "label 3", "label 4", "label 5", "label 6", "label 7", "label 8"] =
      [.absent, .found (.leaf [1, 2, 3, 4, 5, 6]), .absent, .found .empty, .unknown, .found .empty, .absent] ∧
    subtrees tree7 ["label 2", "label 3", "label 4", "label 5", "label 6"] =
      [.unknown, .found (.leaf [1, 2, 3, 4, 5, 6]), .absent, .found .empty, .unknown] ∧
    subtrees tree8 ["label 2", "label 3", "label 4", "label 5", "label 6"] =
      [.absent, .found (.leaf [1, 2, 3, 4, 5, 6]), .absent, .found .empty, .unknown] := by decide +kernel

end Verif.Conformance
