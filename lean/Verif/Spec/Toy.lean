import Verif.Basic

/-!
A small concrete hash function, used only in `example`s that show hypotheses of theorems to be
satisfiable. It is *not* part of the model.
-/

namespace Verif

/-- Last 32 bytes (reversed, zero padded). -/
def toyHash (b : Bytes) : Hash :=
  ⟨(b.reverse ++ List.replicate 32 0).take 32, by simp⟩

/-- Toy instance for examples. -/
@[instance_reducible] def toySHA : SHA := ⟨toyHash⟩

end Verif
