import Verif.Model.Str

/-!
# Model of batching, shuffling and automatic batching

Mirrors `/repo/parametricmatrixmodels/tree_util.py` lines 872-907 and 1118-1295 and
`/repo/parametricmatrixmodels/model_util.py` lines 73-262.

A PyTree of arrays is the list of its leaves (`jax.tree.leaves`; its structure is fixed by every function here), and a leaf
is the list of its slices along axis 0 (simplification: other batch axes are not modelled). `α` is the type of one slice.
-/

namespace Verif
namespace Batch

/-- The leaves of a PyTree of arrays (tree_util.py:1157-1161). -/
abbrev Leaves (α : Type) := List (List α)

variable {α γ S : Type}

/-- `jax.lax.dynamic_slice_in_dim(x, start, length)` (tree_util.py:1159): raises if the slice is longer than the array; the
start is clamped so that the slice fits. -/
def dynSlice (start len : Nat) (x : List α) : Except PyErr (List α) :=
  if x.length < len then .error .typeError
  else .ok ((x.drop (min start (x.length - len))).take len)

/-- `batch_leaves(pytree, batch_size, batch_idx, length)` (tree_util.py:1119-1161). -/
def batchLeaves (X : Leaves α) (size idx : Nat) (length : Option Nat) : Except PyErr (Leaves α) :=
  X.mapM (dynSlice (idx * size) (length.getD size))

/-- `jax.tree.leaves(pytree)[0].shape[0]` (model_util.py:124; training.py:1393, 1671). -/
def numSamples (X : Leaves α) : Except PyErr Nat :=
  match X with
  | [] => .error .indexError
  | x :: _ => .ok x.length

/-- `pytree_split(pytree, size)` (tree_util.py:1165-1232): for every leaf the stacked batches, and the remainder if there
is one. The `vmap` over batch indices (1214) is a map; it is traced even for zero batches, hence the explicit check. -/
def pytreeSplit (X : Leaves α) (size : Nat) : Except PyErr (List (List (List α)) × Option (Leaves α)) := do
  let n ← numSamples X
  if size = 0 then throw .zeroDivision
  let nb := n / size
  if X.any (fun x => x.length < size) then throw .typeError
  let parts ← X.mapM fun x => (List.range nb).mapM fun i => dynSlice (i * size) size x
  if n % size > 0 then
    let r ← batchLeaves X size nb (some (n % size))
    return (parts, some r)
  else
    return (parts, none)

/-- `concatenate(pytrees)` along axis 0 (tree_util.py:873-907); `jax.tree.map` raises if the structures differ. -/
def concatenate (ts : List (Leaves α)) : Except PyErr (Leaves α) :=
  match ts with
  | [] => .error .valueError
  | t :: rest =>
    if rest.any (fun u => u.length != t.length) then .error .valueError
    else .ok ((List.range t.length).map fun k => (ts.map fun u => (u[k]?).getD []).flatten)

/-- `jax.random.permutation(key, x, axis=0)`: the permutation of the indices depends on the key and the length only
(`perm` is the library's generator) (tree_util.py:1277-1293). -/
def permuteLeaf {K : Type} (perm : K → Nat → List Nat) (key : K) (x : List α) : List α :=
  (perm key x.length).filterMap fun i => x[i]?

/-- `random_permute_leaves(pytree, key)` (tree_util.py:1236-1295): one key for all leaves, or one key per leaf. `split` is
`jax.random.split`. `independent_arrays=True` is not modelled. -/
def permuteLeaves {K : Type} (perm : K → Nat → List Nat) (split : K → Nat → List K) (X : Leaves α) (key : K)
    (independentLeaves : Bool) : Leaves α :=
  if independentLeaves then List.zipWith (fun x k => permuteLeaf perm k x) X (split key X.length)
  else X.map (permuteLeaf perm key)

/-- Calling `f` on one batch after another, threading the state (model_util.py:155-163 inside the loop 169-172 or the scan
183-187; 219-231 for the remainder). -/
def runBatches (f : Leaves α → S → Leaves γ × S) : List (Leaves α) → S → List (Leaves γ) × S
  | [], s => ([], s)
  | b :: bs, s =>
    let (y, s') := f b s
    let (ys, s'') := runBatches f bs s'
    (y :: ys, s'')

/-- The function returned by `autobatch(fn, max_batch_size, avoid_recompilation)` (model_util.py:108-262), for fixed
parameters, `training` flag and rng, which are passed unchanged to every call. `isScalar` tells whether the slices of a leaf
are scalars: `x[j][None, :]` (217) raises on them. The scan stacks the outputs and lines 191-196 flatten the stack again,
which is concatenation. Simplification: exceptions inside `f` are not modelled. -/
def autobatch (isScalar : α → Bool) (f : Leaves α → S → Leaves γ × S) (maxSize : Option Nat) (avoid : Bool)
    (X : Leaves α) (s : S) : Except PyErr (Leaves γ × S) := do
  let n ← numSamples X
  match maxSize with
  | none => return f X s
  | some m =>
    if n ≤ m then return f X s
    else
      if m = 0 then throw .zeroDivision
      let (parts, rem) ← pytreeSplit X m
      let batches := (List.range (n / m)).map fun j => parts.map fun p => (p[j]?).getD []
      let (outs, s1) := runBatches f batches s
      let out ← concatenate outs
      match rem with
      | none => return (out, s1)
      | some r =>
        if avoid then
          if r.any (fun x => x.any isScalar) then throw .indexError
          let singles := (List.range (n % m)).map fun j => r.map fun x => (x[j]?).toList
          let (outs2, s2) := runBatches f singles s1
          let out2 ← concatenate outs2
          return (← concatenate [out, out2], s2)
        else
          let (out2, s2) := f r s1
          return (← concatenate [out, out2], s2)

end Batch
end Verif
