import Verif.Model.Str

/-!
# Model of the argument validation of `train`

Mirrors `/repo/parametricmatrixmodels/training.py` lines 1275-1284, 1393-1431, 1497-1529, 1540-1563, 1670-1681 and
`/repo/parametricmatrixmodels/tree_util.py` lines 972-1115. Data is represented by its tree structure and the shapes of its
leaves, in leaf order. `σ` is the type of tree structures. Warnings and prints are left out.
-/

namespace Verif
namespace TrainArgs

/-- A tree of arrays, by structure and shapes (training.py:1132-1270). -/
structure Shaped (σ : Type) where
  struct : σ
  shapes : List (List Nat)

/-- The arguments of `train` that are validated. For parameters and optimiser state only the structure matters (training.py:1132-1270). -/
structure Args (σ : Type) where
  resume : Bool
  adam : Option σ
  params : Option σ
  flags : σ
  X : Shaped σ
  Y : Option (Shaped σ)
  Yunc : Option (Shaped σ)
  Xval : Option (Shaped σ)
  Yval : Option (Shaped σ)
  YvalUnc : Option (Shaped σ)
  batchSize : Nat
  valBatchSize : Int

/-- What training continues with (training.py:1684-1720). -/
structure Plan (σ : Type) where
  Xval : Shaped σ
  Yval : Option (Shaped σ)
  YvalUnc : Option (Shaped σ)
  batchSize : Nat
  valBatchSize : Nat

variable {σ : Type} [DecidableEq σ]

/-- `shape[0]` (tree_util.py:1003-1014; training.py:1393). -/
def dim0 (s : List Nat) : Except PyErr Nat :=
  match s with
  | [] => .error .indexError
  | n :: _ => .ok n

/-- The loop of `has_uniform_leaf_shapes(..., axis=0)` (tree_util.py:1003-1014) against the reference shape. -/
def uniformFrom (ref : List Nat) : List (List Nat) → Except PyErr Bool
  | [] => .ok true
  | s :: ss => do
    let a ← dim0 s
    let b ← dim0 ref
    if a ≠ b then return false
    uniformFrom ref ss

/-- `has_uniform_leaf_shapes(pytree, axis=0)` (tree_util.py:973-1015). -/
def hasUniform0 (d : Shaped σ) : Except PyErr Bool :=
  match d.shapes with
  | [] => .ok true
  | s :: ss => uniformFrom s ss

/-- `uniform_leaf_shapes_equal(a, b, axis=0)` (tree_util.py:1019-1063). -/
def uniformEqual0 (a b : Shaped σ) : Except PyErr Bool := do
  if !(← hasUniform0 a) then return false
  if !(← hasUniform0 b) then return false
  match a.shapes, b.shapes with
  | s :: _, t :: _ =>
    let x ← dim0 s
    let y ← dim0 t
    return decide (x = y)
  | _, _ => throw .indexError

/-- `shapes_equal(a, b, axis=slice(skip, None))` (tree_util.py:1067-1115); `skip = 0` is `axis=None`. -/
def shapesEqual (skip : Nat) (a b : Shaped σ) : Bool :=
  decide (a.struct = b.struct) && (List.zipWith (fun s t => decide (s.drop skip = t.drop skip)) a.shapes b.shapes).all id

/-- `if cond: raise ValueError` (training.py:1275-1421). -/
def raiseIf (b : Bool) : Except PyErr Unit := if b then .error .valueError else .ok ()

/-- `shapes_equal` with a target that may be `None` (an empty tree, different from every tree of arrays) (training.py:1520-1525). -/
def shapesEqualOpt (skip : Nat) (a : Shaped σ) (b : Option (Shaped σ)) : Bool :=
  match b with
  | none => false
  | some b => shapesEqual skip a b

/-- `not uniform_leaf_shapes_equal(x, y, axis=0)` raises, if `y` is given (training.py:1499-1513). -/
def checkSamples (x : Shaped σ) (y : Option (Shaped σ)) : Except PyErr Unit :=
  match y with
  | none => .ok ()
  | some y => do
    let b ← uniformEqual0 x y
    raiseIf !b

/-- `not shapes_equal(y, u)` raises, if both are given (training.py:1503-1519). -/
def checkUnc (y u : Option (Shaped σ)) : Except PyErr Unit :=
  match y, u with
  | some y, some u => raiseIf !(shapesEqual 0 y u)
  | _, _ => .ok ()

/-- `jax.tree.leaves(d)[0].shape[0]` (training.py:1393, 1671). -/
def numSamples (d : Shaped σ) : Except PyErr Nat :=
  match d.shapes with
  | [] => .error .indexError
  | s :: _ => dim0 s

/-- A structure, if given, must be that of the trainable flags (training.py:1546, 1557). -/
def structDiffers (s : Option σ) (flags : σ) : Bool :=
  match s with
  | none => false
  | some s => decide (s ≠ flags)

/-- `Y is not None and not shapes_equal(Y, Y_val, axis=slice(1, None))` (training.py:1525). -/
def targetsDiffer (y yv : Option (Shaped σ)) : Bool :=
  match y with
  | none => false
  | some y => !(shapesEqualOpt 1 y yv)

/-- The validation part of `train` (training.py:1132-1738). -/
def validate (a : Args σ) : Except PyErr (Plan σ) := do
  raiseIf (a.resume && a.adam.isNone)                                                   -- 1275-1279
  raiseIf (!a.resume && a.params.isNone)                                                -- 1280-1284
  let n ← numSamples a.X                                                                -- 1393
  let batchSize := if a.batchSize > n then n else a.batchSize                           -- 1395-1400
  raiseIf (a.Y.isNone && a.Yval.isSome)                                                 -- 1402-1406
  raiseIf (a.Yunc.isSome && a.Y.isNone)                                                 -- 1407-1411
  raiseIf (a.YvalUnc.isSome && a.Yval.isNone)                                           -- 1412-1416
  raiseIf (a.Yunc.isSome && a.Yval.isSome && a.YvalUnc.isNone)                          -- 1417-1421
  let YvalUnc0 := if a.Yunc.isNone && a.Yval.isSome then none else a.YvalUnc            -- 1423-1424
  let Xval := a.Xval.getD a.X                                                           -- 1428-1431
  let Yval := if a.Xval.isNone then a.Y else a.Yval
  let YvalUnc := if a.Xval.isNone then a.Yunc else YvalUnc0
  checkSamples a.X a.Y                                                                  -- 1499-1502
  checkUnc a.Y a.Yunc                                                                   -- 1503-1504
  checkSamples Xval Yval                                                                -- 1505-1513
  checkUnc Yval YvalUnc                                                                 -- 1514-1519
  raiseIf !(shapesEqual 1 a.X Xval)                                                     -- 1520-1524
  raiseIf (targetsDiffer a.Y Yval)                                                      -- 1525-1529
  raiseIf (structDiffers a.params a.flags)                                              -- 1544-1551
  raiseIf (a.resume && structDiffers a.adam a.flags)                                    -- 1553-1562
  let nv ← numSamples Xval                                                              -- 1671
  let vbs := if 0 < a.valBatchSize ∧ (nv : Int) < a.valBatchSize then nv                -- 1672-1681
    else if a.valBatchSize ≤ 0 then nv else a.valBatchSize.toNat
  return ⟨Xval, Yval, YvalUnc, batchSize, vbs⟩

end TrainArgs
end Verif
