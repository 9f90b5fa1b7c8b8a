import Verif.Model.ModelLib

/-!
# Model of saving and loading the prebuilt models

Mirrors `/repo/parametricmatrixmodels/modules/linearnn.py` lines 32-56 and 142-211, `affineeigenvaluepmm.py` lines 65-141 and 198-216, and `affineobservablepmm.py` lines 113-228 and 318-346: the
constructors' attributes, `get_hyperparameters`, `set_hyperparameters` and `LinearNN.deserialize`, on top of the serialisation of models (`Verif.Model.ModelFile`).
-/

namespace Verif
namespace PreFile
open Tree Ser ModelSer

/-- `LinearNN`, `AffineEigenvaluePMM`, `AffineObservablePMM` (linearnn.py:16; affineeigenvaluepmm.py:21; affineobservablepmm.py:22). -/
inductive PKind where
  | linear | eigen | observable
  deriving DecidableEq

/-- The attributes that the constructors set, except `LinearNN.activation` (linearnn.py:48-55; affineeigenvaluepmm.py:130-138; affineobservablepmm.py:214-227). -/
inductive OKey where
  | outFeatures | bias | initMagnitude | real | matrixSize | numEig | which | smoothing | biasTerm | affineBiasMatrix | numSecondaries | outputSize | centered | useExpectationValues
  | givenMs | givenDs | givenB
  deriving DecidableEq

/-- The class's own hyperparameters (linearnn.py:152-159; affineeigenvaluepmm.py:199-207; affineobservablepmm.py:319-332). `activation` is left out: a module cannot be written, and `None` is replaced when
the model is read (linearnn.py:200-211). -/
def keys : PKind → List OKey
  | .linear => [.outFeatures, .bias, .initMagnitude, .real]
  | .eigen => [.matrixSize, .numEig, .which, .smoothing, .initMagnitude, .biasTerm]
  | .observable => [.matrixSize, .numEig, .which, .smoothing, .initMagnitude, .affineBiasMatrix, .numSecondaries, .outputSize, .centered, .biasTerm, .useExpectationValues]

variable {σ D A : Type}

/-- A prebuilt model: its class, its attributes, `LinearNN.activation`, and the attributes of a sequential model (linearnn.py:32-56; affineeigenvaluepmm.py:65-141; affineobservablepmm.py:113-228). -/
structure Pre (σ A : Type) where
  cls : PKind
  attrs : Attrs OKey
  act : Option σ
  base : Mdl σ A

/-- What `serialize` returns: the data of a model, and with its own hyperparameters those of the class (model.py:1580-1637; basemodule.py:785-788). -/
structure PData (D A : Type) where
  base : MData D A
  hyper : List (OKey × PyVal)

/-- `hyperparams.get(k, self.k)` for every own hyperparameter (linearnn.py:171-178). -/
def setGiven (h : List (OKey × PyVal)) (a : Attrs OKey) : List OKey → Attrs OKey
  | [] => a
  | k :: ks => setGiven h (setAttr a k ((h.lookup k).getD (a k))) ks

/-- `self.k = hyperparams["k"]` for every own hyperparameter (affineeigenvaluepmm.py:209-216; affineobservablepmm.py:334-346). -/
def setAll (h : List (OKey × PyVal)) (a : Attrs OKey) : List OKey → Except PyErr (Attrs OKey)
  | [] => .ok a
  | k :: ks => match h.lookup k with
    | Option.none => .error .keyError
    | some v => setAll h (setAttr a k v) ks

/-- The class's own part of `set_hyperparameters` (linearnn.py:161-178; affineeigenvaluepmm.py:209-216; affineobservablepmm.py:334-346). -/
def setOwn (c : PKind) (h : List (OKey × PyVal)) (a : Attrs OKey) : Except PyErr (Attrs OKey) :=
  match c with
  | .linear => .ok (setGiven h a (keys .linear))
  | c => setAll h a (keys c)

/-- The module on position `i` (linearnn.py:207-209). -/
def nth (ts : List (Tree σ)) (i : Nat) : Option σ := match ts[i]? with
  | some (.leaf a) => some a
  | _ => Option.none

/-- The truth value of the attribute `bias`, a Boolean (linearnn.py:206-208). -/
def isTrue : PyVal → Bool
  | .leaf (.bool b) => b
  | _ => false

/-- The activation found in the modules (linearnn.py:200-211); `bias` is the attribute. The modules are a list, or a tuple that the user stored. -/
def actOf (bias : PyVal) : Tree σ → Option σ
  | .list ts | .tuple ts =>
    if ts.length = 2 then Option.none
    else if ts.length = 3 ∧ isTrue bias = false then nth ts 2
    else if ts.length = 4 ∧ isTrue bias = true then nth ts 3
    else Option.none
  | _ => Option.none

/-- `serialize` (model.py:1580-1637; basemodule.py:785-788). -/
def serialize (ops : Ops σ D) (pkg : Str) (X : Pre σ A) : Except PyErr (PData D A) :=
  match ModelSer.serialize ops pkg X.base with
  | .error e => .error e
  | .ok d => .ok ⟨d, (hypers (keys X.cls) X.attrs).filter fun kv => serializable kv.2⟩

/-- `deserialize` (model.py:1639-1741; linearnn.py:180-211). Simplification: the class's own hyperparameters are set after those of the model and after the parameters, which do not depend on them. -/
def deserialize (ops : Ops σ D) (pkg : Str) (strict : Bool) (X : Pre σ A) (d : PData D A) : Except PyErr (Pre σ A) :=
  match ModelSer.deserialize ops pkg strict X.base d.base with
  | .error e => .error e
  | .ok M => match setOwn X.cls d.hyper X.attrs with
    | .error e => .error e
    | .ok a => .ok ⟨X.cls, a, if X.cls = .linear then actOf (a .bias) M.modules else X.act, M⟩

/-- `X.save(file)` (model.py:1743-1760): what is in the file. -/
def save (ops : Ops σ D) (pkg : Str) (X : Pre σ A) : Except PyErr (PData D A) :=
  match serialize ops pkg X with
  | .error e => .error e
  | .ok d => match fileData d.base with
    | .error e => .error e
    | .ok b => .ok { d with base := b }

/-- `X₀.load(file)` (model.py:1782-1825). -/
def load (ops : Ops σ D) (pkg : Str) (strict : Bool) (X₀ : Pre σ A) (d : PData D A) : Except PyErr (Pre σ A) := deserialize ops pkg strict X₀ d

/-- The class's name and Python module (linearnn.py:16; affineeigenvaluepmm.py:21; affineobservablepmm.py:22). -/
def clsName : PKind → Str × Str
  | .linear => ("LinearNN".toList, "parametricmatrixmodels.modules.linearnn".toList)
  | .eigen => ("AffineEigenvaluePMM".toList, "parametricmatrixmodels.modules.affineeigenvaluepmm".toList)
  | .observable => ("AffineObservablePMM".toList, "parametricmatrixmodels.modules.affineobservablepmm".toList)

/-- The attributes of `Cls()` (linearnn.py:32-56; affineeigenvaluepmm.py:65-74, 130-138; affineobservablepmm.py:113-129, 207-227). Floating point numbers are opaque: number 1 is 0.01. -/
def defaults : PKind → Attrs OKey
  | .linear => fun
    | .bias => .leaf (.bool true)
    | .initMagnitude => .leaf (.float 1)
    | .real => .leaf (.bool true)
    | _ => .none
  | .eigen => fun
    | .numEig => .leaf (.int 1)
    | .which => .leaf (.str "SA".toList)
    | .initMagnitude => .leaf (.float 1)
    | .biasTerm => .leaf (.bool true)
    | _ => .none
  | .observable => fun
    | .which => .leaf (.str "LM".toList)
    | .initMagnitude => .leaf (.float 1)
    | .affineBiasMatrix => .leaf (.bool true)
    | .numSecondaries => .leaf (.int 1)
    | .centered => .leaf (.bool true)
    | .biasTerm => .leaf (.bool true)
    | .useExpectationValues => .leaf (.bool false)
    | _ => .none

/-- `Cls()` (linearnn.py:32-56; affineeigenvaluepmm.py:65-141; affineobservablepmm.py:113-228; model.py:97-134). -/
def fresh (c : PKind) : Pre σ A := ⟨c, defaults c, Option.none, ⟨.seq, .list [], .typed 0, Option.none, .none, .none, Option.none⟩⟩

/-- The constructor of the class with a name (model.py:1682-1688). -/
def create (n : Str × Str) : Except PyErr (Pre σ A) :=
  if n = clsName .linear then .ok (fresh .linear)
  else if n = clsName .eigen then .ok (fresh .eigen)
  else if n = clsName .observable then .ok (fresh .observable)
  else .error .keyError

/-- `f` on the part that every sequential model has (model.py:281-396). -/
def onBase (f : Mdl σ A → Except PyErr (Mdl σ A)) (X : Pre σ A) : Except PyErr (Pre σ A) :=
  match f X.base with
  | .error e => .error e
  | .ok M => .ok { X with base := M }

/-- A prebuilt model is a module. `w` is the package version of the writer, `r` that of the reader (model.py:157-165, 281-396, 1581-1741). -/
def preOps (ops : Ops σ D) (w r : Str) : Ops (Pre σ A) (PData D A) where
  cls := fun X => clsName X.cls
  create := create
  ser := serialize ops w
  deser := deserialize ops r
  getParams := fun X => ModelSer.getParams ops X.base
  setParams := fun X v => onBase (fun M => ModelSer.setParams ops M v) X
  getState := fun X => ModelSer.getState ops X.base
  setState := fun X v => onBase (fun M => ModelSer.setState ops M v) X
  ready := fun X => ModelSer.ready ops X.base

end PreFile
end Verif
