import Verif.Model.Reshape
import Verif.Model.TreeMap

/-!
# Model of automatic batching on trees of arrays

Mirrors `/repo/parametricmatrixmodels/model_util.py` lines 73-262 and `/repo/parametricmatrixmodels/tree_util.py` lines 872-907 and 1118-1232, like
`Verif.Model.Batch`, but on whole trees of arrays with their structures and shapes, and with the exceptions of the called function.
-/

namespace Verif
namespace BatchArr

variable {V S : Type}

/-- `jax.tree.leaves(X)[0].shape[0]` (model_util.py:124; tree_util.py:1212). -/
def numSamples (X : Tree (NArr V)) : Except PyErr Nat :=
  match X.jaxLeaves with
  | [] => .error .indexError
  | x :: _ => match x.shape with
    | [] => .error .indexError
    | n :: _ => .ok n

/-- `jax.lax.dynamic_slice_in_dim(x, start, length, axis=0)` (tree_util.py:1159): an array without axes has no axis 0; a slice longer than the axis raises;
the start is clamped so that the slice fits. -/
def slice0 (start len : Nat) (x : NArr V) : Except PyErr (NArr V) :=
  match x.shape with
  | [] => .error .valueError
  | d :: s => if d < len then .error .typeError else .ok ⟨len :: s, fun i => x.val ((i.headD 0 + min start (d - len)) :: i.tail)⟩

/-- `batch_leaves(pytree, batch_size, batch_idx, length)` along axis 0 (tree_util.py:1119-1161). -/
def batchLeaves (X : Tree (NArr V)) (size idx len : Nat) : Except PyErr (Tree (NArr V)) :=
  Tree.mapM (fun x => match slice0 (idx * size) len x with
    | .error e => .error e
    | .ok y => .ok (.leaf y)) X.norm

/-- `pytree_split(pytree, size)` along axis 0 (tree_util.py:1165-1232). Simplification: the batches, which `vmap` stacks along a new axis (1215), are a list; the
callers only take the elements of the stack. With a first leaf shorter than `size` (never the case in `autobatch`) `vmap` would still be traced, which is not
modelled. -/
def split (X : Tree (NArr V)) (size : Nat) : Except PyErr (List (Tree (NArr V)) × Option (Tree (NArr V))) :=
  match numSamples X with
  | .error e => .error e
  | .ok n =>
    if size = 0 then .error .zeroDivision
    else match (List.range (n / size)).mapM fun j => batchLeaves X size j size with
      | .error e => .error e
      | .ok parts =>
        if 0 < n % size then match batchLeaves X size (n / size) (n % size) with
          | .error e => .error e
          | .ok r => .ok (parts, some r)
        else .ok (parts, none)

/-- The leaves `jax.tree.map` hands over must be arrays (tree_util.py:903-907). -/
def asArrays : List (Tree (NArr V)) → Except PyErr (List (NArr V))
  | [] => .ok []
  | .leaf x :: ts => match asArrays ts with
    | .error e => .error e
    | .ok xs => .ok (x :: xs)
  | _ :: _ => .error .typeError

/-- `jax.tree.map(lambda *leaves: g(leaves), *trees)` (tree_util.py:903-907). -/
def overTrees (g : List (NArr V) → Except PyErr (NArr V)) : List (Tree (NArr V)) → Except PyErr (Tree (NArr V))
  | [] => .error .valueError
  | t :: ts => Tree.jaxMap (fun x vs => match asArrays vs with
    | .error e => .error e
    | .ok xs => match g (x :: xs) with
      | .error e => .error e
      | .ok y => .ok (.leaf y)) t ts

/-- `concatenate(pytrees, axis=0)` (tree_util.py:873-907). -/
def concatenate [Inhabited V] (ts : List (Tree (NArr V))) : Except PyErr (Tree (NArr V)) := overTrees (fun xs => Reshape.concat xs 0) ts

/-- What `jax.lax.scan` returns for one leaf of the outputs: the outputs of all steps, stacked along a new first axis (model_util.py:184-188). `scan` traces its
body once, so that different shapes in different steps cannot occur; here they raise. -/
def stack [Inhabited V] (xs : List (NArr V)) : Except PyErr (NArr V) :=
  match xs with
  | [] => .error .valueError
  | x :: xs' =>
    if xs'.all (fun y => decide (y.shape = x.shape)) then .ok ⟨xs.length :: x.shape, fun i => match xs[i.headD 0]? with
      | some y => y.val i.tail
      | none => default⟩
    else .error .typeError

/-- `np.reshape(o_leaf, (-1,) + o_leaf.shape[2:])` (model_util.py:193-195). -/
def unstack (x : NArr V) : Except PyErr (NArr V) := Reshape.npReshape x (-1 :: (x.shape.drop 2).map Int.ofNat)

/-- The outputs of the scan, flattened again (model_util.py:184-197). -/
def scanOutputs [Inhabited V] (ts : List (Tree (NArr V))) : Except PyErr (Tree (NArr V)) :=
  overTrees (fun xs => match stack xs with
    | .error e => .error e
    | .ok y => unstack y) ts

/-- `x[j][None, :]` (model_util.py:216): an array whose samples are numbers has no axis left for the colon. -/
def single (j : Nat) (x : NArr V) : Except PyErr (NArr V) :=
  match x.shape with
  | [] => .error .indexError
  | [_] => .error .indexError
  | _ :: s => .ok ⟨1 :: s, fun i => x.val (j :: i.tail)⟩

/-- `jax.tree.map(lambda x: x[j][None, :], X_remainder)` (model_util.py:215-217). -/
def singles (j : Nat) (X : Tree (NArr V)) : Except PyErr (Tree (NArr V)) :=
  Tree.mapM (fun x => match single j x with
    | .error e => .error e
    | .ok y => .ok (.leaf y)) X.norm

/-- A compiled function on data: the arguments and results of a compiled function are taken apart and rebuilt, which puts the keys of dictionaries in
order (model_util.py:109, 260; the scan of 184 does the same). The state is not rebuilt (simplification). -/
def jit (f : Tree (NArr V) → S → Except PyErr (Tree (NArr V) × S)) (X : Tree (NArr V)) (s : S) : Except PyErr (Tree (NArr V) × S) :=
  match f X.norm s with
  | .error e => .error e
  | .ok r => .ok (r.1.norm, r.2)

/-- Calling a function on one batch after another, threading the state (model_util.py:155-163 in the loop 172-175 or the scan 184-188; 214-225 for the single
samples of the remainder). Simplification: a tree to slice is sliced before the first call. -/
def runBatches (f : Tree (NArr V) → S → Except PyErr (Tree (NArr V) × S)) : List (Tree (NArr V)) → S → Except PyErr (List (Tree (NArr V)) × S)
  | [], s => .ok ([], s)
  | b :: bs, s => match f b s with
    | .error e => .error e
    | .ok (y, s') => match runBatches f bs s' with
      | .error e => .error e
      | .ok (ys, s'') => .ok (y :: ys, s'')

/-- The remainder (model_util.py:201-247): in one call, or one sample after the other if recompilation is to be avoided. -/
def runRemainder [Inhabited V] (avoid : Bool) (f : Tree (NArr V) → S → Except PyErr (Tree (NArr V) × S)) (r : Nat) (X : Tree (NArr V)) (s : S) :
    Except PyErr (Tree (NArr V) × S) :=
  if avoid then match (List.range r).mapM fun j => singles j X with
    | .error e => .error e
    | .ok bs => match runBatches f bs s with
      | .error e => .error e
      | .ok (ys, s') => match concatenate ys with
        | .error e => .error e
        | .ok y => .ok (y, s')
  else f X s

/-- The function returned by `autobatch(fn, max_batch_size, avoid_recompilation)` on data and state (model_util.py:73-262). Progress bars are left out. -/
def autobatch [Inhabited V] (avoid : Bool) (f : Tree (NArr V) → S → Except PyErr (Tree (NArr V) × S)) (max : Option Nat) (X : Tree (NArr V)) (s : S) :
    Except PyErr (Tree (NArr V) × S) :=
  match numSamples X with
  | .error e => .error e
  | .ok n => match max with
    | none => jit f X s
    | some m =>
      if n ≤ m then jit f X s
      else match split X m with
        | .error e => .error e
        | .ok (parts, rest) => match runBatches (jit f) parts s with
          | .error e => .error e
          | .ok (ys, s') => match (if avoid then concatenate ys else scanOutputs ys) with
            | .error e => .error e
            | .ok out => match rest with
              | none => .ok (out, s')
              | some X' => match runRemainder avoid (jit f) (n % m) X' s' with
                | .error e => .error e
                | .ok (out', s'') => match concatenate [out, out'] with
                  | .error e => .error e
                  | .ok y => .ok (y, s'')

end BatchArr
end Verif
