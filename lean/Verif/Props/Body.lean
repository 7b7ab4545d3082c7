import Verif.Model.Body

/-!
# C28: the decompression loop
-/

namespace Verif.Props
open Verif

/-- **C28** Decompression returns all that the decoder yields up to its end, in whatever portions it yields it. -/
theorem C28_decompress {E : Type} (chunks : List Bytes) (after : List (Except E Bytes)) (hne : ∀ c ∈ chunks, c ≠ []) :
    bodyFromDecoder (chunks.map .ok ++ .ok [] :: after) = .ok chunks.flatten := by
  induction chunks with
  | nil => rfl
  | cons c cs ih =>
    have := ih (fun d hd => hne d (List.mem_cons_of_mem _ hd))
    cases c with
    | nil => exact absurd rfl (hne [] List.mem_cons_self)
    | cons b bs =>
      simp only [List.map_cons, List.cons_append, bodyFromDecoder, this, Except.map, List.flatten_cons]

/-- **C28** If the decoder reports an error before its end, decompression fails with this error, whatever was read before. -/
theorem C28_decompress_error {E : Type} (chunks : List Bytes) (e : E) (after : List (Except E Bytes)) (hne : ∀ c ∈ chunks, c ≠ []) :
    bodyFromDecoder (chunks.map .ok ++ .error e :: after) = .error e := by
  induction chunks with
  | nil => rfl
  | cons c cs ih =>
    have := ih (fun d hd => hne d (List.mem_cons_of_mem _ hd))
    cases c with
    | nil => exact absurd rfl (hne [] List.mem_cons_self)
    | cons b bs =>
      simp only [List.map_cons, List.cons_append, bodyFromDecoder, this, Except.map]

example : bodyFromDecoder (E := Unit) [.ok [1, 2], .ok [3], .ok [], .error ()] = .ok [1, 2, 3] := rfl
example : bodyFromDecoder (E := Unit) [.ok [1, 2], .error ()] = .error () := rfl

end Verif.Props
