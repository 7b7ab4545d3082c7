import Verif.Model.Asset

/-!
# Model of the `AssetMap` interface

`ic-asset-certification/src/asset_map.rs`. A `HashMap` is a finite function; iterating over it gives every entry exactly once, in an
order that is not specified (std), so iteration is a relation.
-/

namespace Verif

/-- The table of responses or of fallback responses (`get_assets`, `get_fallback_assets`, asset_router.rs:245-263). -/
abbrev AssetTable := RequestKey → Option CertifiedResponse

/-- `AssetMap::get` (asset_map.rs:40-49). -/
def AssetTable.get (t : AssetTable) (path : Bytes) (encoding : Option AssetEncoding) (range : Option Nat) : Option HttpResponse :=
  (t (assetKey path encoding range)).map CertifiedResponse.response

/-- One item of the iterator (asset_map.rs:66-81): path, encoding and beginning of the range, and the response. -/
abbrev AssetMapItem := (Bytes × Option Bytes × Option Nat) × HttpResponse

/-- `AssetMap::iter` (asset_map.rs:55-57, 70-81) can give the items `l`, in this order. -/
def AssetTable.Iterates (t : AssetTable) (l : List AssetMapItem) : Prop :=
  ∃ ks : List RequestKey, ks.Nodup ∧ (∀ k, k ∈ ks ↔ t k ≠ none) ∧
    l = ks.filterMap (fun k => (t k).map (fun x => ((k.path, k.encoding, k.rangeBegin), x.response)))

/-- `AssetMap::len` (asset_map.rs:51-53): `n` is the number of entries. -/
def AssetTable.Len (t : AssetTable) (n : Nat) : Prop := ∃ ks : List RequestKey, ks.Nodup ∧ (∀ k, k ∈ ks ↔ t k ≠ none) ∧ ks.length = n

end Verif
