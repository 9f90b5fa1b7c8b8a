import Verif.Model.JaxTree
import Verif.Model.TreeMap

/-!
# Precision of parameters and data

Mirrors `/repo/parametricmatrixmodels/modules/basemodule.py` lines 610-694 and `model.py` lines 957-1028 (`set_precision`),
`nonsequentialmodel.py` lines 339-370 and `model.py` lines 157-165 (`is_ready`), and `tree_util.py` lines 1299-1342
(`safecast`).

`conv d e v` is the value of `v`, an entry of an array of type `d`, in an array of type `e`. Simplifications: `get_params`
and `set_params` of a module are reading and writing a list of arrays; the shapes of the arrays play no role.
-/

namespace Verif
namespace Precision

/-- The types of arrays (basemodule.py:644-665). -/
inductive DType
  | bool
  | int (bits : Nat)
  | uint (bits : Nat)
  | float (bits : Nat)
  | complex (bits : Nat)
  deriving DecidableEq, Repr

/-- `np.iscomplexobj`, `np.issubdtype(_, np.complexfloating)` (basemodule.py:688; tree_util.py:1316-1326). -/
def DType.isComplex : DType → Bool
  | .complex _ => true
  | _ => false

/-- An array (basemodule.py:683-691). -/
structure Arr (V : Type) where
  dtype : DType
  vals : List V
  deriving DecidableEq, Repr

/-- `x.astype(dtype)` (basemodule.py:689-691; tree_util.py:1316-1326). -/
def Arr.astype {V : Type} (conv : DType → DType → V → V) (x : Arr V) (d : DType) : Arr V := ⟨d, x.vals.map (conv x.dtype d)⟩

/-- The argument of `set_precision`: a NumPy type, a string, an integer (basemodule.py:644-665; model.py:980-1002). -/
inductive Option'
  | dtype (d : DType)
  | str (s : Str)
  | int (n : Int)
  deriving DecidableEq

/-- The two lists of options (basemodule.py:643-673, model.py:980-1010). -/
def parse (o : Option') : Option Nat :=
  if o ∈ [.dtype (.float 32), .dtype (.complex 64), .str "float32".toList, .str "complex64".toList, .str "single".toList, .str "f32".toList,
      .str "c64".toList, .int 32] then some 32
  else if o ∈ [.dtype (.float 64), .dtype (.complex 128), .str "float64".toList, .str "complex128".toList, .str "double".toList,
      .str "f64".toList, .str "c128".toList, .int 64] then some 64
  else none

/-- `set_param_prec` (basemodule.py:683-691). -/
def castArr {V : Type} (conv : DType → DType → V → V) (p : Nat) (x : Arr V) : Arr V :=
  if x.dtype.isComplex then x.astype conv (if p = 32 then .complex 64 else .complex 128)
  else x.astype conv (if p = 32 then .float 32 else .float 64)

/-- A module: an ordinary module with `is_ready()`, parameters and state, or a model. A model has its modules in the order of
`jax.tree.leaves` and knows which of them are executed (all of them in a sequential model). `compiled` says that its shapes
are set, for a graph model also its execution order, and for a sequential model that it has modules (basemodule.py:640-694; model.py:957-1020). -/
inductive PrecMod (V : Type)
  | base (ready : Bool) (params state : List (Arr V))
  | model (compiled : Bool) (subs : List (Bool × PrecMod V))

variable {V : Type}

mutual
/-- `is_ready` (model.py:157-165, nonsequentialmodel.py:339-370). -/
def ready : PrecMod V → Bool
  | .base r _ _ => r
  | .model c subs => c && readyL subs
/-- The executed modules are ready (nonsequentialmodel.py:354-370; model.py:157-165). -/
def readyL : List (Bool × PrecMod V) → Bool
  | [] => true
  | (b, m) :: l => (!b || ready m) && readyL l
end

mutual
/-- `set_precision` with a valid precision (basemodule.py:640-641, 683-694; model.py:973-978, 1020): the exception, if any, and
the module afterwards. -/
def setPrec (conv : DType → DType → V → V) (p : Nat) : PrecMod V → Option PyErr × PrecMod V
  | .base r ps ss => if r then (none, .base r (ps.map (castArr conv p)) (ss.map (castArr conv p))) else (some .runtimeError, .base r ps ss)
  | .model c subs =>
    if c && readyL subs then ((setPrecL conv p subs).1, .model c (setPrecL conv p subs).2)
    else (some .runtimeError, .model c subs)
/-- The modules are treated in order; an exception ends the loop (model.py:1020). -/
def setPrecL (conv : DType → DType → V → V) (p : Nat) : List (Bool × PrecMod V) → Option PyErr × List (Bool × PrecMod V)
  | [] => (none, [])
  | (b, m) :: l =>
    match (setPrec conv p m).1 with
    | some e => (some e, (b, (setPrec conv p m).2) :: l)
    | none => ((setPrecL conv p l).1, (b, (setPrec conv p m).2) :: (setPrecL conv p l).2)
end

/-- `set_precision(prec)` (basemodule.py:640-694, model.py:973-1020). `x64` is `jax_enable_x64`. -/
def setPrecision (conv : DType → DType → V → V) (x64 : Bool) (o : Option') (m : PrecMod V) : Option PyErr × PrecMod V :=
  if !ready m then (some .runtimeError, m)
  else match parse o with
    | none => (some .valueError, m)
    | some p => if !x64 && p == 64 then (some .valueError, m) else setPrec conv p m

/-! ### `safecast` -/

/-- The type that JAX uses for a requested type: without `jax_enable_x64` the 64-bit types become 32-bit types. (The leaves
are JAX arrays; NumPy arrays always behave as with `jax_enable_x64`.) Used by tree_util.py:1316-1326. -/
def canonical (x64 : Bool) (d : DType) : DType :=
  if x64 then d else match d with
    | .int 64 => .int 32
    | .uint 64 => .uint 32
    | .float 64 => .float 32
    | .complex 128 => .complex 64
    | d => d

/-- `cast_with_complex_check` (tree_util.py:1316-1326). -/
def castLeaf (conv : DType → DType → V → V) (x64 : Bool) (d : DType) (x : Arr V) : Except PyErr (Tree (Arr V)) :=
  if x.dtype.isComplex && !d.isComplex then .error .valueError else .ok (.leaf (x.astype conv (canonical x64 d)))

/-- `safecast(X, dtype)` (tree_util.py:1299-1342): the data, and whether a warning is shown (1331-1340). -/
def safecast (conv : DType → DType → V → V) (x64 : Bool) (d : DType) (X : Tree (Arr V)) : Except PyErr (Tree (Arr V) × Bool) :=
  match Tree.mapM (castLeaf conv x64 d) X.norm with
  | .error e => .error e
  | .ok Y => .ok (Y, (Tree.jaxLeaves Y).any fun y => y.dtype != d)

/-- `astype(pytree, dtype)` (tree_util.py:911-945): the data, and whether the warning about imaginary parts is shown (931-943). (Warnings of JAX itself are not modelled.) -/
def treeAstype (conv : DType → DType → V → V) (x64 : Bool) (d : DType) (X : Tree (Arr V)) : Tree (Arr V) × Bool :=
  (Tree.map (fun x => x.astype conv (canonical x64 d)) X.norm, !d.isComplex && (Tree.jaxLeaves X).any fun x => x.dtype.isComplex)

end Precision
end Verif
