import Verif.Conformance.Util
import Verif.Model.Rih

/-! # The tests of packages/ic-representation-independent-hash/src/representation_independent_hash.rs -/

namespace Verif.Conformance
attribute [local instance] realSHA
set_option maxRecDepth 100000

/-- `hash_key_value_map` (representation_independent_hash.rs:66-80). -/
example : (rih [(str "name", .string (str "foo")), (str "message", .string (str "Hello World!")),
      (str "answer", .number 42)]).1 =
    hex "b0c6f9191e37dceafdfc47fbfc7e9cc95f21c7b985c2f7ba5855015c2a8f13ac" := by decide +kernel

/-- `handles_duplicate_keys` (representation_independent_hash.rs:82-96). -/
example : (rih [(str "name", .string (str "foo")), (str "name", .string (str "bar")),
      (str "message", .string (str "Hello World!"))]).1 =
    hex "435f77c9bdeca5dba4a4b8a34e4f732b4311f1fc252ec6d4e8ee475234b170f9" := by decide +kernel

/-- `hash_reordered_key_value_map` (representation_independent_hash.rs:98-115). -/
example : rih [(str "name", .string (str "foo")), (str "message", .string (str "Hello World!")),
      (str "name", .string (str "bar"))] =
    rih [(str "message", .string (str "Hello World!")), (str "name", .string (str "bar")),
      (str "name", .string (str "foo"))] := by decide +kernel

/-- `hash_bytes` (representation_independent_hash.rs:117-128). -/
example : (rih [(str "bytes", .bytes [1, 2, 3, 4])]).1 =
    hex "546729666d96a712bd94f902a0388e33f9a19a335c35bc3d95b0221a4a574455" := by decide +kernel

/-- `hash_array_reference_1` to `_6` (representation_independent_hash.rs:134-200). -/
example :
    (RValue.array [.string (str "a")]).hash.1 =
      hex "bf5d3affb73efd2ec6c36ad3112dd933efed63c4e1cbffcfa88e2759c144f2d8" ∧
    (RValue.array [.string (str "a"), .string (str "b")]).hash.1 =
      hex "e5a01fee14e0ed5c48714f22180f25ad8365b53f9779f79dc4a3d7e93963f94a" ∧
    (RValue.array [.bytes [97], .string (str "b")]).hash.1 =
      hex "e5a01fee14e0ed5c48714f22180f25ad8365b53f9779f79dc4a3d7e93963f94a" ∧
    (RValue.array [.array [.string (str "a")]]).hash.1 =
      hex "eb48bdfa15fc43dbea3aabb1ee847b6e69232c0f0d9705935e50d60cce77877f" ∧
    (RValue.array [.array [.string (str "a"), .string (str "b")]]).hash.1 =
      hex "029fd80ca2dd66e7c527428fc148e812a9d99a5e41483f28892ef9013eee4a19" ∧
    (RValue.array [.array [.string (str "a"), .string (str "b")], .bytes [97]]).hash.1 =
      hex "aec3805593d9ec6df50da070597f73507050ce098b5518d0456876701ada7bb7" := by decide +kernel

end Verif.Conformance
