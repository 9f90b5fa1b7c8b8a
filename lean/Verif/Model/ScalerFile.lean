import Verif.Model.Npz
import Verif.Model.Scalers
import Verif.Model.MixedScaler
import Verif.Model.OneHot

/-!
# Model of saving and loading scalers

Mirrors `serialize` and `deserialize` in `/repo/parametricmatrixmodels/preprocessing/*.py` together with `Scaler.save` and `Scaler.load`
(`scaler.py` lines 145-213).
-/

namespace Verif
namespace Scalers
open Tree Npz

/-- A number read from a file. (A text does not occur there; here it is not a number.) (scaler.py:195-209). -/
noncomputable def entryNum : Entry (Option ℝ) → Option ℝ
  | .num x => x
  | .int n => some n
  | .flag b => some (if b then 1 else 0)
  | .text _ => Option.none

/-- An array as a value (minmax_scaler.py:187-202; standard_scaler.py:108-122). -/
def arrVal (x : RArr) : NArr (Entry (Option ℝ)) := ⟨x.shape, fun i => .num (x.val i)⟩

/-- A value as an array (minmax_scaler.py:205-225; standard_scaler.py:125-145). -/
noncomputable def valArr (x : NArr (Entry (Option ℝ))) : RArr := ⟨x.shape, fun i => entryNum (x.val i)⟩

/-- A fitted attribute, `None` before `fit` (minmax_scaler.py:187-202; standard_scaler.py:108-122; robust_scaler.py:253-254). -/
def optVal : Option (Tree RArr) → Val (Option ℝ)
  | Option.none => .none
  | some t => map arrVal t

/-- The value of an attribute; `None` means not fitted (minmax_scaler.py:205-225; standard_scaler.py:125-145; robust_scaler.py:281-282). -/
noncomputable def valOpt : Val (Option ℝ) → Option (Tree RArr)
  | .none => Option.none
  | t => some (map valArr t)

/-- `StandardScaler.serialize` (standard_scaler.py:108-122). -/
def Std.serialize (s : Std) : Record (Option ℝ) := [("mean_".toList, optVal s.mean), ("scale_".toList, optVal s.scale)]

/-- `StandardScaler.deserialize` (standard_scaler.py:124-145). -/
noncomputable def Std.deserialize (d : Record (Option ℝ)) : Except PyErr Std := do
  let m ← field d "mean_".toList
  let s ← field d "scale_".toList
  return ⟨valOpt m, valOpt s⟩

/-- `MinMaxScaler.serialize` (minmax_scaler.py:187-202). -/
def MinMax.serialize (s : MinMax) : Record (Option ℝ) :=
  [("feature_range".toList, .tuple [map arrVal s.minVal, map arrVal s.maxVal]), ("data_min_".toList, optVal s.dmin), ("data_max_".toList, optVal s.dmax)]

/-- `MinMaxScaler.deserialize` (minmax_scaler.py:204-225) with `__init__` (minmax_scaler.py:64-66). -/
noncomputable def MinMax.deserialize (d : Record (Option ℝ)) : Except PyErr MinMax := do
  let r ← field d "feature_range".toList
  let (lo, hi) ← unpack2 r
  let dn ← field d "data_min_".toList
  let dx ← field d "data_max_".toList
  return ⟨map valArr lo, map valArr hi, valOpt dn, valOpt dx⟩

/-- A setting as a value (robust_scaler.py:249-251). -/
def optionVal : Opt → NArr (Entry (Option ℝ))
  | .level q => arrVal q
  | .flag b => ⟨[], fun _ => .flag b⟩

/-- A value as a setting (robust_scaler.py:276-278). -/
noncomputable def valOption (x : NArr (Entry (Option ℝ))) : Opt :=
  match x.shape, x.val [] with
  | [], .flag b => .flag b
  | _, _ => .level (valArr x)

/-- `RobustScaler.serialize` (robust_scaler.py:237-255). -/
def Robust.serialize (s : Robust) : Record (Option ℝ) :=
  [("quantile_range".toList, .tuple [map optionVal s.qlow, map optionVal s.qhigh]), ("with_centering".toList, map optionVal s.centering),
   ("with_scaling".toList, map optionVal s.scaling), ("eps".toList, .leaf (arrVal (num s.eps))), ("scale_".toList, optVal s.scale), ("median_".toList, optVal s.median)]

/-- `eps` of a value; it is always a number (robust_scaler.py:279). -/
noncomputable def valNum : Val (Option ℝ) → ℝ
  | .leaf x => (entryNum (x.val [])).getD 0
  | _ => 0

/-- `RobustScaler.deserialize` (robust_scaler.py:257-283) with `__init__` (robust_scaler.py:103-108). -/
noncomputable def Robust.deserialize (d : Record (Option ℝ)) : Except PyErr Robust := do
  let r ← field d "quantile_range".toList
  let (lo, hi) ← unpack2 r
  let c ← field d "with_centering".toList
  let sc ← field d "with_scaling".toList
  let eps ← field d "eps".toList
  let s ← field d "scale_".toList
  let m ← field d "median_".toList
  return ⟨map valOption lo, map valOption hi, map valOption c, map valOption sc, valNum eps, valOpt s, valOpt m⟩

end Scalers

namespace OneHot
open Tree Npz

variable {K : Type} [LinearOrder K] [Semiring K]

/-- `unique_vals_` of one array (onehot.py:152). -/
def tableVal (u : Fitted K) : NArr (Entry K) := ⟨[u.table.length, u.width], fun i => .num ((u.table.getD (i.getD 0 0) []).getD (i.getD 1 0) 0)⟩

/-- `original_shapes_` of one array: a tuple of integers (onehot.py:153). -/
def shapeVal (u : Fitted K) : Val K := .tuple (u.shape.map fun n => .leaf ⟨[], fun _ => .int n⟩)

/-- `OneHot.serialize` (onehot.py:140-154). -/
def serialize (s : Option (Tree (Fitted K))) : Record K :=
  match s with
  | Option.none => [("unique_vals_".toList, .none), ("original_shapes_".toList, .none)]
  | some t => [("unique_vals_".toList, map tableVal t), ("original_shapes_".toList, Tree.bind shapeVal t)]

/-- An entry as a number (onehot.py:175). -/
def entryK : Entry K → K
  | .num x => x
  | _ => 0

/-- An entry as a size (onehot.py:176). -/
def entryInt : Entry K → Nat
  | .int n => n
  | _ => 0

/-- The sizes in `*original_shape` (onehot.py:134): from a tuple, a list or an array of integers. -/
def sizesOf : Val K → Except PyErr (List Nat)
  | .leaf x => match x.shape with
    | [n] => .ok ((List.range n).map fun i => entryInt (x.val [i]))
    | _ => .error .typeError
  | .tuple ts => .ok (ts.map fun t => entryInt (entryOf t []))
  | .list ts => .ok (ts.map fun t => entryInt (entryOf t []))
  | _ => .error .typeError

/-- The table in an array (onehot.py:175). -/
def tableOf (x : NArr (Entry K)) : List (List K) := (List.range (x.shape.getD 0 0)).map fun r => (List.range (x.shape.getD 1 0)).map fun c => entryK (x.val [r, c])

/-- Table and sizes of one array (onehot.py:175-176). -/
def fittedOf (x : NArr (Entry K)) : List (Val K) → Except PyErr (Tree (Fitted K))
  | [v] => match sizesOf v with
    | .error e => .error e
    | .ok s => .ok (.leaf ⟨tableOf x, s⟩)
  | _ => .error .typeError

/-- `OneHot.deserialize` (onehot.py:156-177). (Simplification: that the sizes belong to the tables is checked here and not by the first call.) -/
def deserialize (d : Record K) : Except PyErr (Option (Tree (Fitted K))) := do
  let u ← field d "unique_vals_".toList
  let o ← field d "original_shapes_".toList
  match u, o with
  | .none, .none => return Option.none
  | u, o => return some (← jaxMap fittedOf u [o])

end OneHot

namespace Mixed
open Tree Npz

/-- The methods of the scalers in the tree that concern files: contents, name and module of the class, and `deserialize` of the class with that name in that module (mixed_scaler.py:167-188, 222-234). -/
structure FileOps (σ R : Type) where
  ser : σ → Record R
  name : σ → Str
  module : σ → Str
  deser : Str → Str → Record R → Except PyErr σ

variable {σ R A : Type}

/-- A single text (mixed_scaler.py:174-188). -/
def textVal (s : Str) : Val R := .leaf ⟨[], fun _ => .text s⟩

/-- The value for one place (mixed_scaler.py:167-188). -/
def onScaler (f : σ → Val R) (h : Nat → σ) : Option Nat → Val R
  | Option.none => .none
  | some r => f (h r)

/-- Every scaler is replaced by a value, `None` stays `None` (mixed_scaler.py:167-188). -/
def onScalers (f : σ → Val R) (h : Nat → σ) (S : Tree (Option Nat)) : Val R :=
  Tree.bind (onScaler f h) S.norm

/-- `MixedScaler.serialize` (mixed_scaler.py:148-195). -/
def serialize (fo : FileOps σ R) (h : Nat → σ) (S : Scalers) : Record R :=
  match S with
  | Option.none => [("feature_scalers".toList, .none), ("scaler_fulltypenames".toList, .none), ("scaler_typenames".toList, .none), ("scaler_modules".toList, .none)]
  | some S => [("feature_scalers".toList, onScalers (fun s => .dict (fo.ser s)) h S),
      ("scaler_fulltypenames".toList, onScalers (fun s => textVal (fo.module s ++ '.' :: fo.name s)) h S),
      ("scaler_typenames".toList, onScalers (fun s => textVal (fo.name s)) h S), ("scaler_modules".toList, onScalers (fun s => textVal (fo.module s)) h S)]

mutual
/-- `None` counts as a leaf (`is_leaf`, mixed_scaler.py:233). -/
def noneLeaf {α : Type} : Tree α → Tree (Option α)
  | .leaf a => .leaf (some a)
  | .none => .leaf Option.none
  | .list ts => .list (noneLeafL ts)
  | .tuple ts => .tuple (noneLeafL ts)
  | .dict kvs => .dict (noneLeafD kvs)
/-- `noneLeaf` of members (mixed_scaler.py:233). -/
def noneLeafL {α : Type} : List (Tree α) → List (Tree (Option α))
  | [] => []
  | t :: ts => noneLeaf t :: noneLeafL ts
/-- `noneLeaf` of values (mixed_scaler.py:233). -/
def noneLeafD {α : Type} : List (Str × Tree α) → List (Str × Tree (Option α))
  | [] => []
  | (k, t) :: ts => (k, noneLeaf t) :: noneLeafD ts
end

/-- A single text, read back (mixed_scaler.py:223-226). -/
def valText : Val R → Option Str
  | .leaf x => match x.shape, x.val [] with
    | [], .text s => some s
    | _, _ => Option.none
  | _ => Option.none

/-- One scaler (mixed_scaler.py:222-229). -/
def build (fo : FileOps σ R) (o : Option (NArr (Entry R))) (vs : List (Val R)) : Except PyErr (Tree (Option σ)) :=
  match vs with
  | [m, s] => match s with
    | .none => .ok (.leaf Option.none)
    | .dict d => match o.bind fun x => valText (.leaf x), valText m with
      | some n, some m => match fo.deser n m d with
        | .error e => .error e
        | .ok a => .ok (.leaf (some a))
      | _, _ => .error .typeError
    | _ => .error .typeError
  | _ => .error .typeError

/-- `MixedScaler.deserialize` (mixed_scaler.py:197-235): the tree of the new scalers. -/
def deserialize (fo : FileOps σ R) (d : Record R) : Except PyErr (Option (Tree (Option σ))) :=
  match d.lookup "feature_scalers".toList with
  | Option.none => .ok Option.none
  | some .none => .ok Option.none
  | some serial => match jaxMap (build fo) (noneLeaf ((d.lookup "scaler_typenames".toList).getD .none)) [(d.lookup "scaler_modules".toList).getD .none, serial] with
    | .error e => .error e
    | .ok t => .ok (some t)

/-- `jax.tree.map(f, scalers, X)` for a tree of scalers (mixed_scaler.py:93-106, 131-144). -/
def eachObj (f : σ → Tree A → Except PyErr (Tree A)) (S : Tree (Option σ)) (X : Tree A) : Except PyErr (Tree A) :=
  jaxMap (fun o vs => match o, vs with
    | Option.none, [x] => .ok x
    | some s, [x] => f s x
    | _, _ => .error .typeError) S [X]

/-- `MixedScaler.transform` (mixed_scaler.py:75-108) of the loaded scalers. -/
def transformObj (ops : Ops σ A) (S : Option (Tree (Option σ))) (X : Tree A) : Except PyErr (Tree A) :=
  annotated ops X (match S with
    | Option.none => .ok X
    | some S => eachObj ops.transform S X)

/-- `MixedScaler.inverse_transform` (mixed_scaler.py:110-146) of the loaded scalers. -/
def inverseObj (ops : Ops σ A) (S : Option (Tree (Option σ))) (X : Tree A) : Except PyErr (Tree A) :=
  annotated ops X (match S with
    | Option.none => .ok X
    | some S => eachObj ops.inverse S X)

end Mixed
end Verif
