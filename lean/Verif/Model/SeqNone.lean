import Verif.Model.Forward

/-!
# Modules without parameters in a sequential model

Mirrors the test `is_leaf` of the reduction in `/repo/parametricmatrixmodels/sequentialmodel.py` lines 319-328. A module whose `get_params()` is `None` (an `Einsum` without arrays of its own,
modules/einsum.py:175, 816-817) fails the test; its tuple is then flattened, and `sequential` is called with the bare callable in place of a tuple, which its type checker refuses
(sequentialmodel.py:265-270).
-/

namespace Verif
namespace Forward

variable {M P S K A : Type}

/-- The modules as the reduction calls them: `isNone` tells which parameters are `None` (sequentialmodel.py:266-330). -/
def reduced (sig : Sig M P S K A) (isNone : P → Bool) : Sig M P S K A :=
  { sig with call := fun m p x t s k => if isNone p then .error .typeError else sig.call m p x t s k }

/-- The callable of a sequential model (sequentialmodel.py:299-332) with this test. -/
def seqCallNone (sig : Sig M P S K A) (isNone : P → Bool) (modules : Tree M) (params : Tree P) (data : Tree A) (training : Bool) (state : Tree S) (rng : K) : Except PyErr (Tree A × Tree S) :=
  seqCall (reduced sig isNone) modules params data training state rng

end Forward
end Verif
