import Verif.Model.Str

/-!
# Model of `Model.set_rng`

Mirrors `/repo/parametricmatrixmodels/model.py` lines 398-418. The key constructor of JAX and Python's random generator are parameters.
-/

namespace Verif
namespace Rng

/-- The argument of `set_rng`: a Python integer or boolean (a subclass of `int`), `None`, a key, or an integer of another type (NumPy's
scalars and zero-dimensional arrays are not instances of `int`) (model.py:401-418). -/
inductive Arg (K : Type) where
  | int (n : Int)
  | bool (b : Bool)
  | none
  | key (k : K)
  | npInt (n : Int)

/-- What can be stored as the model's key (model.py:413-418). -/
inductive Stored (K : Type) where
  | key (k : K)
  | npInt (n : Int)
deriving DecidableEq

/-- The stored key with the state of Python's random generator (model.py:398-418). -/
structure St (K G : Type) where
  rng : Stored K
  gen : G

variable {K G : Type}

/-- `Model.set_rng` (model.py:413-418): `mk` is `jax.random.key`, `randint` is `random.randint(0, 2**32 - 1)`. -/
def setRng (mk : Int → K) (randint : G → Int × G) (a : Arg K) (s : St K G) : St K G := match a with
  | .int n => { s with rng := .key (mk n) }
  | .bool b => { s with rng := .key (mk (if b then 1 else 0)) }
  | .none => ⟨.key (mk (randint s.gen).1), (randint s.gen).2⟩
  | .key k => { s with rng := .key k }
  | .npInt n => { s with rng := .npInt n }

/-- `Model.get_rng` (model.py:398-399). -/
def getRng (s : St K G) : Stored K := s.rng

end Rng
end Verif
