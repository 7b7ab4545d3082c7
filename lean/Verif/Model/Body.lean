import Verif.Basic

/-!
# Model of the decompression loop (`ic-response-verification/src/verification/body.rs`)
-/

namespace Verif

/-- `body_from_decoder` (body.rs:15-29), given the results of the successive calls of `read` with a buffer of 1024 bytes: at most 1024
bytes, or an error; after the last of them reading yields nothing. -/
def bodyFromDecoder {E : Type} : List (Except E Bytes) → Except E Bytes
  | [] => .ok []
  | .error e :: _ => .error e
  | .ok [] :: _ => .ok []
  | .ok (b :: bs) :: r => (bodyFromDecoder r).map (fun rest => (b :: bs) ++ rest)

end Verif
