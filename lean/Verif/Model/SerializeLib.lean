import Verif.Model.Serialize

/-!
# The hyperparameters and parameters of the library's module classes

For every class: the attributes its constructor sets, `get_hyperparameters`, `set_hyperparameters`, `get_params`,
`set_params`. All of them keep the default (empty) state. The constructors with arguments and `compile` are modelled as far as
they determine which attribute values can occur.
-/

namespace Verif.Ser

/-- All attribute names of the library's modules (basemodule.py:507-512). -/
inductive Attr where
  | args | kwargs | Ms | Ds | us | ls | matrixSize | matrixRank | smoothing | initMagnitude | biasTerm | tensorShape | real
  | bias | scalar | comment | axis | pathOrder | separator | constant | shape | name | numEig | which | einsumStr | params
  | dimMap | inputShape | outputShape | numObservables | outputSize | centered | a | singleParameter | keypaths
  deriving DecidableEq, Repr

open Attr

/-- An object whose attributes are listed; every other attribute is unset (basemodule.py:507-512). -/
def obj (h : List (Attr × PyVal)) : Attrs Attr := setAll (fun _ => .none) h

/-- `True`, `False` (typing.py:187-198). -/
def vBool (b : Bool) : PyVal := .leaf (.bool b)
/-- A float constant (typing.py:187-198). -/
def vFloat (x : Nat) : PyVal := .leaf (.float x)
/-- An integer (typing.py:187-198). -/
def vInt (i : Int) : PyVal := .leaf (.int i)
/-- A string (typing.py:187-198). -/
def vStr (s : String) : PyVal := .leaf (.str s.toList)
/-- An array (typing.py:187-198). -/
def vArr (x : Arr) : PyVal := .leaf (.arr x)

/-- A setter that does nothing (`set_params` of classes without parameters, default `set_state`) (e.g. activationbase.py:174-175; basemodule.py:590-607). -/
def ignore (a : Attrs Attr) (_ : PyVal) : Except PyErr (Attrs Attr) := .ok a

/-- A class with the default `set_hyperparameters`, no parameters and no state (basemodule.py:481-512, 566-607). -/
def plainCls (nm : String) (fresh : List (Attr × PyVal)) (keys : List Attr) : Cls Attr where
  name := nm.toList
  version := "0.0.0".toList
  fresh := obj fresh
  freshTrainable := true
  getHyper := fun _ a => hypers keys a
  setHyper := fun _ a h => .ok (setAll a h)
  getParams := fun _ => .tuple []
  setParams := ignore
  getState := fun _ => .tuple []
  setState := ignore

/-- activationbase.py:40-43, 151-175 and `_autogenerated_activationfuncs.py`. -/
def activation : Cls Attr := plainCls "Activation" [(args, .tuple []), (kwargs, .dict [])] [args, kwargs]

/-- comment.py:31, 57-64. -/
def commentCls : Cls Attr := plainCls "Comment" [] [Attr.comment]

/-- concatenateleaves.py:58-60, 176-185: `path_order` and `separator` are not among the hyperparameters. -/
def concatLeaves : Cls Attr :=
  plainCls "ConcatenateLeaves" [(axis, .none), (pathOrder, .none), (separator, vStr ".")] [axis]

/-- eigenvalues.py:94-95, 160-173; eigenvectors.py:100-101, 165-178; eigensystem.py:97-98, 214-227. -/
def eigenCls (nm : String) : Cls Attr := plainCls nm [(numEig, vInt 1), (which, vStr "sa")] [numEig, which]

/-- reshape.py:63, 87, 225-234; flatten.py:39-62 changes only `shape`. -/
def reshapeCls : Cls Attr := plainCls "Reshape" [] [shape]

/-- treeflatten.py:52-59. -/
def treeFlatten : Cls Attr := plainCls "TreeFlatten" [] []

/-- treekey.py:61-62, 137-147. -/
def treeKey : Cls Attr := plainCls "TreeKey" [(separator, vStr ".")] [keypaths, separator]

/-- The integers of a Python tuple or list of integers (affinetensor.py:245-262). -/
def intsOf : PyVal → Option (List Int)
  | .tuple ts | .list ts => ts.mapM fun
    | .leaf (.int i) => some i
    | _ => none
  | _ => none

/-- An integer attribute, if it is one (affinehermitianmatrix.py:295-299). -/
def intOf : PyVal → Option Int
  | .leaf (.int i) => some i
  | _ => none

/-- A shape as integers (affinehermitianmatrix.py:301). -/
def shapeInts (x : Arr) : List Int := x.shape.map Int.ofNat

/-- `set_hyperparameters` of the classes that refuse it once they have parameters (affinehermitianmatrix.py:278-284 and
alike). -/
def setHyperBefore (p : Attr) (a : Attrs Attr) (h : List (Attr × PyVal)) : Except PyErr (Attrs Attr) :=
  match a p with
  | .none => .ok (setAll a h)
  | _ => .error .valueError

/-- `new.shape[0] if self.Ms is None else self.Ms.shape[0]` (affinehermitianmatrix.py:296). -/
def leadOf (old : PyVal) (new : Arr) : Nat :=
  match old with
  | .leaf (.arr x) => x.shape.headD 0
  | _ => new.shape.headD 0

/-- affinehermitianmatrix.py:289-311. The code raises `IndexError` for a zero-dimensional array and here it is the same
`ValueError` as for any other wrong shape. -/
def affHermSetParams (a : Attrs Attr) : PyVal → Except PyErr (Attrs Attr)
  | .leaf (.arr x) =>
    match intOf (a matrixSize) with
    | some n =>
      if shapeInts x ≠ [(leadOf (a Ms) x : Int), n, n] then .error .valueError          -- 301-306
      else if x.herm = false then .error .valueError                                    -- 308-309
      else .ok (setAttr a Ms (.leaf (.arr x)))                                          -- 311
    | none => .error .valueError
  | _ => .error .valueError                                                             -- 290-291

/-- A class with parameters in one attribute, the default hyperparameter accessors guarded by `setHyperBefore` (affinehermitianmatrix.py:270-311). -/
def guardedCls (nm : String) (fresh : List (Attr × PyVal)) (keys : List Attr) (p : Attr)
    (setP : Attrs Attr → PyVal → Except PyErr (Attrs Attr)) : Cls Attr where
  name := nm.toList
  version := "0.0.0".toList
  fresh := obj fresh
  freshTrainable := true
  getHyper := fun _ a => hypers keys a
  setHyper := fun _ a h => setHyperBefore p a h
  getParams := fun a => a p
  setParams := setP
  getState := fun _ => .tuple []
  setState := ignore

/-- affinehermitianmatrix.py:112-116, 270-311. -/
def affHerm : Cls Attr :=
  guardedCls "AffineHermitianMatrix" [(smoothing, vFloat 0), (initMagnitude, vFloat 1), (biasTerm, vBool true)]
    [matrixSize, smoothing, initMagnitude, biasTerm] Ms affHermSetParams

/-- affinetensor.py:245-262. -/
def affTensorSetParams (a : Attrs Attr) : PyVal → Except PyErr (Attrs Attr)
  | .leaf (.arr x) =>
    match intsOf (a tensorShape) with
    | some s =>
      if shapeInts x ≠ (leadOf (a Ms) x : Int) :: s then .error .valueError
      else .ok (setAttr a Ms (.leaf (.arr x)))
    | none => .error .typeError                                                         -- `*None`
  | _ => .error .valueError

/-- affinetensor.py:92-96, 226-262. -/
def affTensor : Cls Attr :=
  guardedCls "AffineTensor" [(initMagnitude, vFloat 1), (biasTerm, vBool true), (real, vBool true)]
    [tensorShape, initMagnitude, biasTerm, real] Ms affTensorSetParams

/-- expectationvaluesum.py:310-337, transitionamplitudesum.py:311-338. -/
def expValSetParams (a : Attrs Attr) : PyVal → Except PyErr (Attrs Attr)
  | .leaf (.arr x) =>
    match shapeInts x, intOf (a outputSize), intOf (a numObservables) with
    | [d₀, d₁, d₂, d₃], some q, some l =>
      if [d₀, d₁, d₂, d₃] ≠ [q, l, d₂, d₂] then .error .valueError
      else if x.herm = false then .error .valueError
      else .ok (setAttr a Ds (.leaf (.arr x)))
    | _, _, _ => .error .valueError
  | _ => .error .valueError

/-- expectationvaluesum.py:139-145, 291-337; transitionamplitudesum.py:139-145, 292-338. -/
def expVal (nm : String) : Cls Attr :=
  guardedCls nm [(initMagnitude, vFloat 1), (centered, vBool true)]
    [numObservables, outputSize, initMagnitude, centered] Ds expValSetParams

/-- Is the value an array? (bias.py:277-279). -/
def isArr : Atom → Bool
  | .arr _ => true
  | _ => false

/-- `np.isrealobj` of a leaf (bias.py:291-293). -/
def isRealLeaf : Atom → Bool
  | .arr x => x.real
  | .cplx _ => false
  | _ => true

/-- The truth of a flag (bias.py:282, 291). -/
def flagOn : PyVal → Bool
  | .leaf (.bool true) => true
  | _ => false

/-- `isinstance(params, np.ndarray) and params.shape == (1,)` (bias.py:282-284). -/
def isScalarArr : PyVal → Bool
  | .leaf (.arr x) => x.shape == [1]
  | _ => false

/-- bias.py:266-299. -/
def biasSetParams (a : Attrs Attr) (v : PyVal) : Except PyErr (Attrs Attr) :=
  if (match a bias with | .none => false | b => !Tree.sameStruct v.norm b.norm) then .error .valueError   -- 267-275
  else if !v.flat.all isArr then .error .valueError                                     -- 277-280
  else if flagOn (a scalar) && !isScalarArr v then .error .valueError                   -- 282-288
  else match a real with
    | .leaf (.bool true) => if v.flat.all isRealLeaf then .ok (setAttr a bias v) else .error .valueError   -- 291-292
    | _ => if v.flat.all isRealLeaf then .error .valueError else .ok (setAttr a bias v)                    -- 293-299

/-- bias.py:67-71, 253-299. -/
def biasCls : Cls Attr where
  name := "Bias".toList
  version := "0.0.0".toList
  fresh := obj [(initMagnitude, vFloat 1), (real, vBool true), (scalar, vBool false)]
  freshTrainable := true
  getHyper := fun _ a => hypers [initMagnitude, real, scalar] a
  setHyper := fun _ a h => .ok (setAll a h)
  getParams := fun a => a bias
  setParams := biasSetParams
  getState := fun _ => .tuple []
  setState := ignore

/-- constant.py:109-114, 229-244. -/
def constantCls : Cls Attr where
  name := "Constant".toList
  version := "0.0.0".toList
  fresh := obj [(initMagnitude, vFloat 1), (Attr.name, vStr "Constant")]
  freshTrainable := false
  getHyper := fun _ a => hypers [shape, initMagnitude, real, Attr.name] a
  setHyper := fun _ a h => .ok (setAll a h)
  getParams := fun a => a constant
  setParams := fun a v => .ok (setAttr a constant v)
  getState := fun _ => .tuple []
  setState := ignore

/-- lowrankaffinehermitianmatrix.py:295-332. -/
def lowRankSetParams (a : Attrs Attr) : PyVal → Except PyErr (Attrs Attr)
  | .tuple [.leaf (.arr l), .leaf (.arr u)] =>
    match intOf (a matrixSize), intOf (a matrixRank) with
    | some n, some r =>
      if shapeInts u ≠ [(leadOf (a us) u : Int), n, r] then .error .valueError
      else if shapeInts l ≠ [(leadOf (a ls) l : Int), r] then .error .valueError
      else .ok (setAttr (setAttr a ls (.leaf (.arr l))) us (.leaf (.arr u)))
    | _, _ => .error .valueError                                                        -- a shape never contains `None`
  | _ => .error .valueError

/-- lowrankaffinehermitianmatrix.py:107-113, 276-332: `matrix_rank` is not among the hyperparameters. -/
def lowRank : Cls Attr where
  name := "LowRankAffineHermitianMatrix".toList
  version := "0.0.0".toList
  fresh := obj [(smoothing, vFloat 0), (initMagnitude, vFloat 1), (biasTerm, vBool true)]
  freshTrainable := true
  getHyper := fun _ a => hypers [matrixSize, smoothing, initMagnitude, biasTerm] a
  setHyper := fun _ a h =>
    match a us, a ls with
    | .none, .none => .ok (setAll a h)
    | _, _ => .error .valueError
  getParams := fun a => .tuple [a ls, a us]
  setParams := lowRankSetParams
  getState := fun _ => .tuple []
  setState := ignore

/-- einsum.py:789-799: the fixed arrays are hyperparameters, trainable ones are not. -/
def einsumKeys (trainable : Bool) : List Attr :=
  [einsumStr, dimMap] ++ (if trainable then [] else [params]) ++ [initMagnitude, real, inputShape]

/-- einsum.py:801-814: only the known keys are set, `params` only if the object is not trainable. -/
def einsumSetHyper (trainable : Bool) (a : Attrs Attr) (h : List (Attr × PyVal)) : Attrs Attr :=
  h.foldl (fun a kv => if kv.1 ∈ einsumKeys trainable then setAttr a kv.1 kv.2 else a) a

/-- einsum.py:174-180, 789-820. -/
def einsumCls : Cls Attr where
  name := "Einsum".toList
  version := "0.0.0".toList
  fresh := obj [(initMagnitude, vFloat 1), (real, vBool true)]
  freshTrainable := false
  getHyper := fun t a => hypers (einsumKeys t) a
  setHyper := fun t a h => .ok (einsumSetHyper t a h)
  getParams := fun a => a params
  setParams := fun a v => .ok (setAttr a params v)
  getState := fun _ => .tuple []
  setState := ignore

/-- matmul.py:392-402: the keys of `Einsum` updated with those of `MatMul`. -/
def matmulKeys (trainable : Bool) : List Attr := einsumKeys trainable ++ [outputShape, pathOrder, separator]

/-- `MatMul.__init__` on an existing object with everything but the separator passed on (matmul.py:115-131, 417-424). -/
def matmulReinit (a : Attrs Attr) : Attrs Attr :=
  setAll a [(separator, vStr "."), (einsumStr, .none), (dimMap, .none), (inputShape, .none)]

/-- matmul.py:404-426. -/
def matmulSetHyper (trainable : Bool) (a : Attrs Attr) (h : List (Attr × PyVal)) : Attrs Attr :=
  let a₁ := einsumSetHyper trainable a h                                                -- 405
  let a₂ := h.foldl (fun a kv => if kv.1 ∈ matmulKeys trainable then setAttr a kv.1 kv.2 else a) a₁   -- 406-414
  einsumSetHyper trainable (matmulReinit a₂) h                                          -- 416-426

/-- matmul.py:115-131, 392-426. -/
def matmulCls : Cls Attr where
  name := "MatMul".toList
  version := "0.0.0".toList
  fresh := obj [(initMagnitude, vFloat 1), (real, vBool true), (separator, vStr ".")]
  freshTrainable := false
  getHyper := fun t a => hypers (matmulKeys t) a
  setHyper := fun t a h => .ok (matmulSetHyper t a h)
  getParams := fun a => a params
  setParams := fun a v => .ok (setAttr a params v)
  getState := fun _ => .tuple []
  setState := ignore

mutual
/-- Parameters against a tree of shapes (prelu.py:226-250): same structure, where a tuple of integers is a leaf, and the
shape of every array. -/
def fitsShape : PyVal → PyVal → Bool
  | .leaf (.arr x), .tuple ss => intsOf (.tuple ss) == some (shapeInts x)
  | .none, .none => true
  | .list vs, .list ss => fitsShapeL vs ss
  | .tuple vs, .tuple ss => (intsOf (.tuple ss)).isNone && fitsShapeL vs ss
  | .dict vs, .dict ss => fitsShapeD vs ss
  | _, _ => false
/-- `fitsShape` on lists (prelu.py:241-250). -/
def fitsShapeL : List PyVal → List PyVal → Bool
  | [], [] => true
  | v :: vs, s :: ss => fitsShape v s && fitsShapeL vs ss
  | _, _ => false
/-- `fitsShape` on dictionaries (prelu.py:241-250). -/
def fitsShapeD : List (Str × PyVal) → List (Str × PyVal) → Bool
  | [], [] => true
  | (k, v) :: vs, (k', s) :: ss => decide (k = k') && (fitsShape v s && fitsShapeD vs ss)
  | _, _ => false
end

/-- prelu.py:215-252. Both checks raise `ValueError`. With a single parameter, a value without length or items (`len(params)`, `params[0].shape`) raises another exception in the code, and so does a leaf without a shape otherwise (`AttributeError`, 244); here it is `ValueError` too. An array of
shape `(1, 1)` has one item, of shape `(1,)`. -/
def preluSetParams (a : Attrs Attr) (v : PyVal) : Except PyErr (Attrs Attr) :=
  match a Attr.a, a inputShape with
  | .none, _ => .ok (setAttr a Attr.a v)
  | _, .none => .ok (setAttr a Attr.a v)
  | _, s => match a singleParameter with
    | .leaf (.bool true) => match v with                                                -- 217-224
      | .tuple [.leaf (.arr x)] | .list [.leaf (.arr x)] =>
        if x.shape = [1] then .ok (setAttr a Attr.a v) else .error .valueError
      | .leaf (.arr x) => if x.shape = [1, 1] then .ok (setAttr a Attr.a v) else .error .valueError
      | _ => .error .valueError
    | _ => if fitsShape v.norm s.norm then .ok (setAttr a Attr.a v) else .error .valueError   -- 225-250

/-- prelu.py:72-81, 196-252. -/
def preluCls : Cls Attr :=
  guardedCls "PReLU" [(singleParameter, vBool true), (initMagnitude, vFloat 2), (real, vBool true)]
    [singleParameter, initMagnitude, inputShape, real] Attr.a preluSetParams

/-! ### Constructors with arguments and `compile` -/

/-- `AffineHermitianMatrix(...)` (affinehermitianmatrix.py:93-116). `smooth` is the smoothing after `None` was replaced. A
non-integer `matrix_size` is not representable here. -/
def affHermInit (size : Option Int) (smooth mag : Nat) (bt : Bool) (M : Option Arr) : Except PyErr (Attrs Attr) :=
  let mk := fun (n : PyVal) (m : PyVal) =>
    obj [(matrixSize, n), (smoothing, vFloat smooth), (initMagnitude, vFloat mag), (biasTerm, vBool bt), (Ms, m)]
  if (match size with | some n => decide (n ≤ 0) | none => false) then .error .valueError      -- 94-97
  else match M with
    | none => .ok (mk (match size with | some n => vInt n | none => .none) .none)
    | some x =>
      match x.shape with
      | d₀ :: d₁ :: _ =>
        let n := size.getD d₁                                                                  -- 101
        if shapeInts x ≠ [(d₀ : Int), n, n] then .error .valueError                            -- 102-107
        else if x.herm = false then .error .valueError                                         -- 109-110
        else .ok (mk (vInt n) (vArr x))
      | _ => .error .indexError

/-- `compile` with `p` the number of matrices asked for and `rnd` the outcome of the random generator
(affinehermitianmatrix.py:212-253). -/
def affHermCompile (p rnd : Nat) (a : Attrs Attr) : Except PyErr (Attrs Attr) :=
  match a Ms with
  | .leaf (.arr x) => if x.shape.headD 0 ≠ p then .error .valueError else .ok a                -- 230-236
  | _ => match intOf (a matrixSize) with
    | some n =>
      .ok (setAttr a Ms (vArr { shape := [p, n.toNat, n.toNat], real := false, herm := true, data := rnd }))   -- 238-253
    | none => .error .typeError

/-- `tensor_shape or Ms.shape[1:]` (affinetensor.py:85). -/
def shapeOr : Option (List Nat) → List Nat → List Nat
  | some (n :: s), _ => n :: s
  | _, tl => tl

/-- `AffineTensor(...)` (affinetensor.py:73-96). -/
def affTensorInit (ts : Option (List Nat)) (mag : Nat) (bt re : Bool) (M : Option Arr) : Except PyErr (Attrs Attr) :=
  let mk := fun (s : PyVal) (m : PyVal) =>
    obj [(tensorShape, s), (initMagnitude, vFloat mag), (biasTerm, vBool bt), (real, vBool re), (Ms, m)]
  let sh := fun (s : List Nat) => Tree.tuple (s.map fun n : Nat => vInt (n : Int))
  match M with
  | none => .ok (mk (match ts with | some s => sh s | none => .none) .none)
  | some x =>
    match x.shape with
    | d₀ :: tl =>
      let s := shapeOr ts tl
      if x.shape ≠ d₀ :: s then .error .valueError
      else .ok (mk (sh s) (vArr x))
    | _ => .error .indexError

/-- `compile` (affinetensor.py:166-209). -/
def affTensorCompile (p rnd : Nat) (a : Attrs Attr) : Except PyErr (Attrs Attr) :=
  match a Ms with
  | .leaf (.arr x) => if x.shape.headD 0 ≠ p then .error .valueError else .ok a
  | _ => match intsOf (a tensorShape) with
    | some s => .ok (setAttr a Ms (vArr
        { shape := p :: s.map Int.toNat, real := (match a real with | .leaf (.bool true) => true | _ => false),
          herm := false, data := rnd }))
    | none => .error .typeError

/-- `ExpectationValueSum(...)`, `TransitionAmplitudeSum(...)` (expectationvaluesum.py:101-145). -/
def expValInit (l q : Option Nat) (mag : Nat) (cen : Bool) (D : Option Arr) : Except PyErr (Attrs Attr) :=
  let opt := fun (n : Option Nat) => match n with | some n => vInt n | none => Tree.none
  let mk := fun (l q m : PyVal) =>
    obj [(numObservables, l), (outputSize, q), (initMagnitude, vFloat mag), (centered, vBool cen), (Ds, m)]
  match D with
  | none => .ok (mk (opt l) (opt q) .none)
  | some x =>
    match x.shape with
    | [d₀, d₁, d₂, d₃] =>
      if d₂ ≠ d₃ then .error .valueError
      else if x.herm = false then .error .valueError
      else if l ≠ none ∧ l ≠ some d₁ then .error .valueError
      else if q ≠ none ∧ q ≠ some d₀ then .error .valueError
      else .ok (mk (vInt d₁) (vInt d₀) (vArr x))
    | _ => .error .valueError

/-- `compile` for `n × n` observables (expectationvaluesum.py:210-273). -/
def expValCompile (n rnd : Nat) (a : Attrs Attr) : Except PyErr (Attrs Attr) :=
  match a Ds with
  | .leaf (.arr x) => if x.shape.getD 2 0 ≠ n ∨ x.shape.getD 3 0 ≠ n then .error .valueError else .ok a
  | _ => match intOf (a outputSize), intOf (a numObservables) with
    | some q, some l =>
      .ok (setAttr a Ds (vArr { shape := [q.toNat, l.toNat, n, n], real := false, herm := true, data := rnd }))
    | _, _ => .error .typeError

/-- `LowRankAffineHermitianMatrix(...)` (lowrankaffinehermitianmatrix.py:93-113) without the validation. -/
def lowRankInit (n r : Option Nat) (smooth mag : Nat) (bt : Bool) : Attrs Attr :=
  let opt := fun (n : Option Nat) => match n with | some n => vInt n | none => Tree.none
  obj [(matrixSize, opt n), (matrixRank, opt r), (smoothing, vFloat smooth), (initMagnitude, vFloat mag), (biasTerm, vBool bt)]

/-- `compile` (lowrankaffinehermitianmatrix.py:215-259). -/
def lowRankCompile (p rnd : Nat) (a : Attrs Attr) : Except PyErr (Attrs Attr) :=
  match a us with
  | .leaf (.arr x) => if x.shape.headD 0 ≠ p then .error .valueError else .ok a
  | _ => match intOf (a matrixSize), intOf (a matrixRank) with
    | some n, some r =>
      .ok (setAttr (setAttr a us (vArr { shape := [p, n.toNat, r.toNat], real := false, herm := false, data := rnd })) ls
        (vArr { shape := [p, r.toNat], real := true, herm := false, data := rnd }))
    | _, _ => .error .typeError

end Verif.Ser
