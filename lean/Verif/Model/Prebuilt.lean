import Verif.Model.Matmul
import Verif.Model.Elementwise

/-!
# Model of the prebuilt models

Mirrors the life cycle of `/repo/parametricmatrixmodels/modules/linearnn.py`, `affineeigenvaluepmm.py` and `affineobservablepmm.py`: sequential models that
create their modules when they are compiled; and `LinearNN` in full. The random numbers are a parameter.
-/

namespace Verif
namespace Prebuilt
open Reshape Elementwise

/-! ## The life cycle -/

/-- The attributes: hyperparameters of the subclass, the modules (an empty list after `__init__`, model.py:124-134), the shapes of the last compilation. -/
structure Mdl (H L S : Type) where
  hyper : H
  modules : L
  inShape : Option S
  outShape : Option S

/-- What a subclass supplies: the checks at the beginning of `compile`, the modules it builds, and the compilation of the modules (sequentialmodel.py:132-147), which returns
the modules with their new parameters and the final shape. -/
structure Ops (H L S : Type) where
  check : H → S → Except PyErr Unit
  build : H → L
  sub : L → S → L × Except PyErr S

variable {H L S : Type} [DecidableEq S]

/-- `compile` (linearnn.py:58-118, affineeigenvaluepmm.py:143-186, affineobservablepmm.py:230-301, sequentialmodel.py:124-155). The input shape is stored before the modules are
compiled. (Simplification: `self.modules is None` never holds after `__init__`; the test for an empty output shape is left out.) -/
def compile (ops : Ops H L S) (m : Mdl H L S) (s : S) : Mdl H L S × Except PyErr Unit :=
  match ops.check m.hyper s with
  | .error e => (m, .error e)
  | .ok _ =>
    let ms := if m.inShape = some s then m.modules else ops.build m.hyper
    match ops.sub ms s with
    | (ms', .error _) => ({ m with modules := ms', inShape := some s }, .error .runtimeError)
    | (ms', .ok o) => ({ m with modules := ms', inShape := some s, outShape := some o }, .ok ())

/-- The dictionary of hyperparameters: the subclass's own, `modules` (absent or `None`: `none`), `input_shape` and `output_shape` (the outer `none`: absent) (model.py:1529-1578; linearnn.py:142-178). -/
structure Dict (H L S : Type) where
  hyper : H
  modules : Option L
  inShape : Option (Option S)
  outShape : Option (Option S)

/-- `get_hyperparameters` (linearnn.py:142-159, model.py:1529-1544). -/
def getHyper (m : Mdl H L S) : Dict H L S := ⟨m.hyper, some m.modules, some m.inShape, some m.outShape⟩

/-- `set_hyperparameters` (linearnn.py:161-178, model.py:1546-1563): the subclass's own first, then the modules, then the two shapes, which have to be there. (Simplification: all of
the subclass's own hyperparameters are given; the generator and the optimizer state are left out.) -/
def setHyper (m : Mdl H L S) (d : Dict H L S) : Mdl H L S × Except PyErr Unit :=
  let m₁ := { m with hyper := d.hyper, modules := d.modules.getD m.modules }
  match d.inShape with
  | none => (m₁, .error .keyError)
  | some i => match d.outShape with
    | none => ({ m₁ with inShape := i }, .error .keyError)
    | some o => ({ m₁ with inShape := i, outShape := o }, .ok ())

/-! ## LinearNN -/

variable {K : Type}

/-- The constructor's arguments (linearnn.py:32-56). -/
structure LinHyper (K : Type) where
  out : Option Nat
  bias : Bool
  act : Option (NArr K → NArr K)

/-- The modules: `Flatten` with its target, `MatMul` with its parameters and what `compile` stores, `Bias` with its parameters if there is one, the activation if there is one (linearnn.py:91-118). -/
structure Layers (K : Type) where
  out : Nat
  hasBias : Bool
  act : Option (NArr K → NArr K)
  params : Einsum.Params K
  plan : Option (Str × Tree (List Nat) × Target)
  b : Option (BiasParam K)

/-- The settings of the `MatMul` (linearnn.py:95-101, matmul.py:62-78). -/
def Layers.cfg (ly : Layers K) : Matmul.Cfg := ⟨.int ly.out, none, true, '.'⟩

/-- The modules built by `compile` (linearnn.py:91-118). -/
def linBuild (h : LinHyper K) : Layers K := ⟨h.out.getD 0, h.bias, h.act, .none, none, none⟩

/-- The checks of `compile` (linearnn.py:81-89). -/
def linCheck (h : LinHyper K) (s : Tree (List Nat)) : Except PyErr Unit :=
  match h.out with
  | none => .error .valueError
  | some _ => if (treeFlattenShape s).length ≠ 1 then .error .valueError else .ok ()

/-- Concrete shapes (flatten.py:28-49). -/
def concrete (t : Target) : Tree (List Nat) := Tree.map (fun o => (o.getD []).map Int.toNat) t

/-- Compiling the four modules in turn (sequentialmodel.py:134-147). (Simplifications: shapes contain no `None`; after a failure the modules are unchanged; the activation module
needs no compilation and keeps the shape.) -/
def linSub (draw : Nat → List Nat → K) (drawB : List Nat → List Nat → K) (ly : Layers K) (s : Tree (List Nat)) : Layers K × Except PyErr (Tree (List Nat)) :=
  match flattenShape (Tree.map some s) with
  | .error e => (ly, .error e)
  | .ok o =>
    match Matmul.compile draw ly.cfg ly.params.arrays.head? (concrete o) with
    | .error e => (ly, .error e)
    | .ok c =>
      match Matmul.outputShape ly.cfg c.1.arrays.head? (concrete o) with
      | .error e => (ly, .error e)
      | .ok s₂ =>
        let ly' := { ly with params := c.1, plan := some (c.2, concrete o, flattenTarget (Tree.map some s)) }
        if !ly.hasBias then (ly', .ok (.leaf s₂))
        else match ly.b with
          | none => ({ ly' with b := some (biasInit drawB false (.leaf s₂)) }, .ok (.leaf s₂))
          | some b => match biasCheck b (.leaf s₂) with
            | .error e => (ly, .error e)
            | .ok _ => (ly', .ok (.leaf s₂))

/-- The operations of `LinearNN` (linearnn.py:58-118). -/
def linOps (draw : Nat → List Nat → K) (drawB : List Nat → List Nat → K) : Ops (LinHyper K) (Layers K) (Tree (List Nat)) :=
  ⟨linCheck, linBuild, linSub draw drawB⟩

/-- The callable of the `Bias`, if there is one (linearnn.py:103-111, bias.py:108-147). -/
def biasStage [Add K] (has : Bool) (b : Option (BiasParam K)) (data : Tree (NArr K)) : Except PyErr (Tree (NArr K)) :=
  match has, b with
  | true, some b => biasCall b data
  | true, none => .error .typeError
  | false, _ => .ok data

/-- The forward pass of the modules (sequentialmodel.py:265-334, reshape.py:99-132, einsum.py:626-680, bias.py:108-147, activationbase.py:100-120). -/
def linCall [CommSemiring K] (ly : Layers K) (data : Tree (NArr K)) : Except PyErr (Tree (NArr K)) :=
  match ly.plan with
  | none => .error .runtimeError
  | some (sub, s₁, t) =>
    match Reshape.callable (some t) data with
    | .error e => .error e
    | .ok d => match Matmul.call (ly.params, sub) s₁ d with
      | .error e => .error e
      | .ok y =>
        match biasStage ly.hasBias ly.b (.leaf y) with
        | .error e => .error e
        | .ok z => match ly.act with
          | none => .ok z
          | some f => .ok (Elementwise.activation f z)

/-- `LinearNN.get_output_shape` (linearnn.py:120-140). -/
def linShape (h : LinHyper K) (_ : Tree (List Nat)) : Except PyErr (Tree (List Nat)) :=
  match h.out with
  | none => .error .valueError
  | some n => .ok (.leaf [n])

/-- A list of modules as `LinearNN` sees it when it is loaded: `Flatten`, `MatMul`, `Bias`, the activation (linearnn.py:180-212). -/
inductive Kind (A : Type) where
  | flatten
  | matmul
  | bias
  | act (a : A)
  deriving DecidableEq, Repr

/-- The modules built for some hyperparameters (linearnn.py:91-118). -/
def kinds {A : Type} (bias : Bool) (act : Option A) : List (Kind A) :=
  [.flatten, .matmul] ++ (if bias then [.bias] else []) ++ (act.map Kind.act).toList

/-- The activation `LinearNN.deserialize` finds in the loaded modules (linearnn.py:202-212). -/
def findAct {A : Type} (bias : Bool) (ms : List (Kind A)) : Option (Kind A) :=
  if ms.length = 2 then none
  else if ms.length = 3 && !bias then ms[2]?
  else if ms.length = 4 && bias then ms[3]?
  else none

/-! ## The compilation of AffineEigenvaluePMM -/

variable {W : Type}

/-- The constructor's arguments (affineeigenvaluepmm.py:65-141). (Simplification: a number of eigenvalues is given. `which`, the smoothing and the magnitude take no part in the
compilation.) -/
structure EigHyper (W : Type) where
  size : Option Nat
  numEig : Nat
  bias : Bool
  Ms : Option (List W)

/-- The modules: `AffineHermitianMatrix` with its matrices, and `Eigenvalues` (affineeigenvaluepmm.py:166-183). -/
structure EigLayers (W : Type) where
  size : Nat
  numEig : Nat
  bias : Bool
  Ms : Option (List W)

/-- The checks of `compile` (affineeigenvaluepmm.py:149-155). -/
def eigCheck (h : EigHyper W) (s : Tree (List Nat)) : Except PyErr Unit :=
  if (treeFlattenShape s).length ≠ 1 then .error .valueError
  else match h.size with
    | none => .error .valueError
    | some _ => .ok ()

/-- The modules built by `compile` (affineeigenvaluepmm.py:166-183). -/
def eigBuild (h : EigHyper W) : EigLayers W := ⟨h.size.getD 0, h.numEig, h.bias, h.Ms⟩

/-- `Eigenvalues.compile` and `get_output_shape` (eigen_util.py:10-26, eigenvalues.py:146-158). -/
def eigTail (ly : EigLayers W) (s : Tree (List Nat)) : EigLayers W × Except PyErr (Tree (List Nat)) :=
  if ly.numEig ≤ ly.size then (ly, .ok (Tree.map (fun _ => [ly.numEig]) s.norm)) else (ly, .error .valueError)

/-- Compiling the two modules (sequentialmodel.py:134-147, affinehermitianmatrix.py:212-268). `fresh p n` stands for `p` random matrices. -/
def eigSub (fresh : Nat → Nat → List W) (ly : EigLayers W) (s : Tree (List Nat)) : EigLayers W × Except PyErr (Tree (List Nat)) :=
  match treeFlattenShape s with
  | [some [f]] =>
    let p := if ly.bias then f + 1 else f
    match ly.Ms with
    | none => eigTail { ly with Ms := some (fresh p ly.size) } s
    | some Ms => if Ms.length ≠ p then (ly, .error .valueError) else eigTail ly s
  | _ => (ly, .error .valueError)

/-- The operations of `AffineEigenvaluePMM` (affineeigenvaluepmm.py:143-186). -/
def eigOps (fresh : Nat → Nat → List W) : Ops (EigHyper W) (EigLayers W) (Tree (List Nat)) := ⟨eigCheck, eigBuild, eigSub fresh⟩

end Prebuilt
end Verif
