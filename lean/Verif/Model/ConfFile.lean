import Verif.Model.Npz
import Verif.Model.Conformal

/-!
# Saving and loading conformalized models

Mirrors `/repo/parametricmatrixmodels/conformal/conformalizedmodel.py` lines 146-215 (`__init__`, `name`), 217-814 (`calibrate`, as the order in which attributes are assigned), 1091-1123
(the checks of `_prepare_data_for_kdtree`) and 1525-1775 (`serialize`, `deserialize`, `save`, `from_file`).

The values of attributes are objects of a type `W` or `None`; what they mean plays no role here. The dictionary `qhats` is mutable and lives in a store, so that two wrappers can share it. `prep` stands
for encoding, scaling, flattening and the KD-tree (modelled in `Verif/Model/Distance.lean`); it reads the training data, the encoder, the ranges and the selection. The wrapped model, its class and
its data are given by functions (`Verif/Model/ModelFile.lean`). A file keeps dictionaries of objects (pickled) and turns bare texts and `None` into arrays without axes.
The decorator `jaxtyped` of the class (conformalizedmodel.py:37) checks nothing, since the class is not a dataclass: `name: str | None` of `__init__` also takes an array.
-/

namespace Verif
namespace ConfFile

/-- The attributes of a wrapper that `serialize` writes, without `qhats` (conformalizedmodel.py:175-204). -/
inductive Attr
  | defaultAlpha | nnDistQuantile | scores | trainingData | iqr | range | normParams | normInput | normDist | continuous | cutoff | onehot | stratified | strataValues | strataBiases
  | numParams | numInput | numDistance | inputSens | paramSens | distSens
  deriving DecidableEq, Repr

/-- The attribute `_name`: `None`, a text, or what a file makes of them (conformalizedmodel.py:206-215, 1591, 1650). -/
inductive NameVal
  | none
  | text (s : Str)
  | arr0 (s : Option Str)
  deriving DecidableEq, Repr

/-- `bool(self._name)`; an array without axes is as true as its entry. (NumPy may take a text of blanks as false; such names are not distinguished here.) (conformalizedmodel.py:207-211). -/
def NameVal.truthy : NameVal → Bool
  | .none => false
  | .text s => !s.isEmpty
  | .arr0 Option.none => false
  | .arr0 (some s) => !s.isEmpty

/-- A wrapper (conformalizedmodel.py:174-204). -/
structure Wrapper (W K M : Type) where
  name : NameVal
  model : M
  attr : Attr → Option W
  qhats : Nat
  kdtree : Option K

/-- `name` (conformalizedmodel.py:206-211); `dflt` is the name of the class with the name of the model in brackets. -/
def shownName {W K M : Type} (dflt : M → Str) (w : Wrapper W K M) : NameVal := if w.name.truthy then w.name else .text (dflt w.model)

/-- Functions of the wrapped model, the encoder and the KD-tree (conformalizedmodel.py:1091-1123, 1546-1549, 1634-1638). -/
structure Ops (W K M D : Type) where
  cls : M → Str × Str
  ser : M → Except PyErr D
  create : Str × Str → Except PyErr M
  deser : M → D → Except PyErr M
  encSer : W → Except PyErr W
  encDeser : W → Except PyErr W
  prep : W → W → W → Option W → Except PyErr K

variable {W K M D C : Type}

/-- Building the KD-tree: `_prepare_data_for_kdtree` refuses without encoder or ranges (conformalizedmodel.py:1095-1099). -/
def build (ops : Ops W K M D) (td : W) (a : Attr → Option W) : Except PyErr K :=
  match a .onehot, a .range with
  | some e, some r => ops.prep td e r (a .distSens)
  | _, _ => .error .valueError

/-- `__init__` with an empty dictionary at the address `q` (conformalizedmodel.py:146-204). -/
def init (m : M) (alpha quantile : W) (name : NameVal) (q : Nat) : Wrapper W K M where
  name := name
  model := m
  attr := fun a => if a = .defaultAlpha then some alpha else if a = .nnDistQuantile then some quantile else Option.none
  qhats := q
  kdtree := Option.none

/-! ## Calibration -/

/-- What a call of `calibrate` computes: the training data, for each attribute the value it is assigned (`none`: it is not assigned in this call) or the exception on the way to it, the encoder before
it is fitted, and the exceptions between assignments (conformalizedmodel.py:217-814). -/
structure Run (W : Type) where
  checks : Option PyErr
  training : Option W
  value : Attr → Option (Except PyErr (Option W))
  unfitted : Except PyErr W

/-- The assignment of one attribute (conformalizedmodel.py:254-814). -/
def assign (r : Run W) (a : Attr) (w : Wrapper W K M) : Wrapper W K M × Option PyErr :=
  match r.value a with
  | Option.none => (w, Option.none)
  | some (.error e) => (w, some e)
  | some (.ok v) => ({ w with attr := fun b => if b = a then v else w.attr b }, Option.none)

/-- One after the other until one raises (conformalizedmodel.py:254-814). -/
def assignAll (r : Run W) : List Attr → Wrapper W K M → Wrapper W K M × Option PyErr
  | [], w => (w, Option.none)
  | a :: as, w => match assign r a w with
    | (w', Option.none) => assignAll r as w'
    | (w', some e) => (w', some e)

/-- The assignments before the training data (conformalizedmodel.py:254-573). -/
def before : List Attr := [.continuous, .stratified, .paramSens, .inputSens, .distSens, .strataValues, .strataBiases]

/-- Counts (conformalizedmodel.py:577-622). -/
def counts : List Attr := [.numInput, .numParams, .numDistance]

/-- The encoder (conformalizedmodel.py:667-677), the KD-tree (679-685) and the cutoff (689-702). -/
def trees (ops : Ops W K M D) (td : W) (r : Run W) (w : Wrapper W K M) : Wrapper W K M × Option PyErr :=
  match assignAll r [.iqr, .range] w with
  | (w₁, some e) => (w₁, some e)
  | (w₁, Option.none) => match r.unfitted with
    | .error e => (w₁, some e)
    | .ok u =>
      let w₂ := { w₁ with attr := fun b => if b = .onehot then some u else w₁.attr b }
      match assign r .onehot w₂ with
      | (w₃, some e) => (w₃, some e)
      | (w₃, Option.none) => match build ops td w₃.attr with
        | .error e => (w₃, some e)
        | .ok k => assign r .cutoff { w₃ with kdtree := some k }

/-- The normalisations and scores (conformalizedmodel.py:704-814). -/
def after : List Attr := [.normParams, .normInput, .normDist, .scores]

/-- The steps from the assignment of the training data on (conformalizedmodel.py:575-814). -/
def rest (ops : Ops W K M D) (r : Run W) (w : Wrapper W K M) : Wrapper W K M × Option PyErr :=
  let w₁ := { w with attr := fun b => if b = .trainingData then r.training else w.attr b }
  match assignAll r counts w₁ with
  | (w₂, some e) => (w₂, some e)
  | (w₂, Option.none) => match r.training with
    | Option.none => assignAll r after w₂
    | some td => match trees ops td r w₂ with
      | (w₃, some e) => (w₃, some e)
      | (w₃, Option.none) => assignAll r after w₃

/-- `calibrate` (conformalizedmodel.py:217-814). -/
def calibrate (ops : Ops W K M D) (r : Run W) (w : Wrapper W K M) : Wrapper W K M × Option PyErr :=
  match r.checks with
  | some e => (w, some e)
  | Option.none => match assignAll r before w with
    | (w₁, some e) => (w₁, some e)
    | (w₁, Option.none) => rest ops r w₁

/-! ## The dictionary -/

/-- An entry of `conformalization_state`: a value or the dictionary `qhats` itself (conformalizedmodel.py:1554-1581). -/
inductive Entry (W : Type)
  | val (v : Option W)
  | ref (q : Nat)

/-- The data of a wrapper (conformalizedmodel.py:1583-1592), without the names that are never read. -/
structure Saved (W D : Type) where
  package : Str
  cls : Str × Str
  model : D
  state : List (Str × Entry W)
  name : NameVal

/-- The keys under which attributes are written (conformalizedmodel.py:1554-1581), without the encoder and `qhats`. -/
def written : List (String × Attr) :=
  [("default_alpha", .defaultAlpha), ("nn_dist_quantile", .nnDistQuantile), ("scores", .scores), ("_training_data", .trainingData), ("_iqr_X_train", .iqr), ("_range_X_train", .range),
    ("_norm_S_params", .normParams), ("_norm_S_input", .normInput), ("_norm_S_dist", .normDist), ("_continuous_features", .continuous), ("_distance_cutoff", .cutoff),
    ("_stratified_bias_corrections", .stratified), ("_strata_unique_values", .strataValues), ("_strata_biases", .strataBiases), ("_num_params_sensitivity", .numParams),
    ("_num_input_sensitivity", .numInput), ("_num_distance_sensitivity", .numDistance), ("_input_sensitivity", .inputSens), ("_parameter_sensitivity", .paramSens),
    ("_distance_sensitivity", .distSens)]

/-- `x.serialize() if x is not None else None`, and the same for `deserialize` (conformalizedmodel.py:1567-1571, 1665-1669). -/
def unlessNone (f : W → Except PyErr W) : Option W → Except PyErr (Option W)
  | Option.none => .ok Option.none
  | some x => (f x).map some

/-- `serialize` (conformalizedmodel.py:1525-1592); `pkg` is `pmm.__version__`. -/
def serialize (ops : Ops W K M D) (pkg : Str) (w : Wrapper W K M) : Except PyErr (Saved W D) :=
  match ops.ser w.model with
  | .error e => .error e
  | .ok d => match unlessNone ops.encSer (w.attr .onehot) with
    | .error e => .error e
    | .ok enc => .ok {
        package := pkg
        cls := ops.cls w.model
        model := d
        state := (written.map fun x => (x.1.toList, Entry.val (w.attr x.2))) ++ [("_onehot_training_enc".toList, .val enc), ("qhats".toList, .ref w.qhats)]
        name := w.name }

/-- `conf_state[key]` as a value. (The dictionary `qhats` is read by `readRef`.) (conformalizedmodel.py:1653-1686). -/
def readVal (s : List (Str × Entry W)) (k : String) : Except PyErr (Option W) :=
  match s.lookup k.toList with
  | some (.val v) => .ok v
  | _ => .error .keyError

/-- `conf_state["qhats"]` (conformalizedmodel.py:1654). -/
def readRef (s : List (Str × Entry W)) : Except PyErr Nat :=
  match s.lookup "qhats".toList with
  | some (.ref q) => .ok q
  | _ => .error .keyError

/-- The key from which each attribute is read (conformalizedmodel.py:1643-1690). -/
def readKey : Attr → String
  | .defaultAlpha => "default_alpha"
  | .nnDistQuantile => "nn_dist_quantile"
  | .scores => "scores"
  | .trainingData => "_training_data"
  | .iqr => "_iqr_X_train"
  | .range => "_range_X_train"
  | .normParams => "_norm_S_params"
  | .normInput => "_norm_S_input"
  | .normDist => "_norm_S_dist"
  | .continuous => "_continuous_features"
  | .cutoff => "_distance_cutoff"
  | .onehot => "_onehot_training_enc"
  | .stratified => "_stratified_bias_corrections"
  | .strataValues => "_strata_unique_values"
  | .strataBiases => "_strata_biases"
  | .numParams => "_num_params_sensitivity"
  | .numInput => "_num_input_sensitivity"
  | .numDistance => "_num_distance_sensitivity"
  | .inputSens => "_input_sensitivity"
  | .paramSens => "_parameter_sensitivity"
  | .distSens => "_distance_sensitivity"

/-- The attributes in the order in which they are read (conformalizedmodel.py:1653-1686). -/
def readOrder : List Attr :=
  [.defaultAlpha, .nnDistQuantile, .scores, .trainingData, .iqr, .range, .normParams, .normInput, .normDist, .continuous, .cutoff, .onehot, .stratified, .strataValues, .strataBiases,
    .numParams, .numInput, .numDistance, .inputSens, .paramSens, .distSens]

/-- Reading an attribute; the encoder is made of its data (conformalizedmodel.py:1653-1686). -/
def readAttr (ops : Ops W K M D) (s : List (Str × Entry W)) (a : Attr) : Except PyErr (Option W) :=
  match readVal s (readKey a) with
  | .error e => .error e
  | .ok v => if a = .onehot then unlessNone ops.encDeser v else .ok v

/-- Reading all attributes (conformalizedmodel.py:1653-1686). -/
def readAll (ops : Ops W K M D) (s : List (Str × Entry W)) : List Attr → (Attr → Option W) → Except PyErr (Attr → Option W)
  | [], f => .ok f
  | a :: as, f => match readAttr ops s a with
    | .error e => .error e
    | .ok v => readAll ops s as fun b => if b = a then v else f b

/-- `deserialize` (conformalizedmodel.py:1594-1696); `strict` is `strict_package_version`. -/
def deserialize (ops : Ops W K M D) (pkg : Str) (strict : Bool) (d : Saved W D) : Except PyErr (Wrapper W K M) :=
  if pkg ≠ d.package ∧ strict = true then .error .valueError
  else match ops.create d.cls with
    | .error e => .error e
    | .ok m => match ops.deser m d.model with
      | .error e => .error e
      | .ok m => match readAll ops d.state readOrder fun _ => Option.none, readRef d.state with
        | .error e, _ => .error e
        | _, .error e => .error e
        | .ok a, .ok q =>
          match a .trainingData with
          | Option.none => .ok { name := d.name, model := m, attr := a, qhats := q, kdtree := Option.none }
          | some td => match build ops td a with
            | .error e => .error e
            | .ok k => .ok { name := d.name, model := m, attr := a, qhats := q, kdtree := some k }

/-! ## The file -/

/-- What a file makes of the name (conformalizedmodel.py:1698-1729): `np.savez` turns it into an array without axes, and `from_file` does not take it out again. -/
def NameVal.stored : NameVal → NameVal
  | .none => .arr0 Option.none
  | .text s => .arr0 (some s)
  | .arr0 s => .arr0 s

/-- The contents of a file: the data, in which the dictionary `qhats` is a copy (conformalizedmodel.py:1698-1729). -/
structure File (W D C : Type) where
  data : Saved W D
  qhats : C

/-- `save` and `save_compressed` (conformalizedmodel.py:1698-1729); `store` has the contents of the dictionaries. -/
def save (ops : Ops W K M D) (pkg : Str) (store : Nat → C) (w : Wrapper W K M) : Except PyErr (File W D C) :=
  match serialize ops pkg w with
  | .error e => .error e
  | .ok d => .ok { data := { d with name := d.name.stored }, qhats := store w.qhats }

/-- A store with one more dictionary (conformalizedmodel.py:182). -/
def alloc (store : Nat → C) (q : Nat) (c : C) : Nat → C := fun r => if r = q then c else store r

/-- Putting the address of the copied dictionary into the data (conformalizedmodel.py:1654, 1752). -/
def reref (q : Nat) (s : List (Str × Entry W)) : List (Str × Entry W) := s.map fun x => match x.2 with
  | .ref _ => (x.1, .ref q)
  | .val v => (x.1, .val v)

/-- `from_file` (conformalizedmodel.py:1732-1775); the copied dictionary gets the free address `q`. -/
def fromFile (ops : Ops W K M D) (pkg : Str) (strict : Bool) (q : Nat) (store : Nat → C) (f : File W D C) : Except PyErr (Wrapper W K M × (Nat → C)) :=
  match deserialize ops pkg strict { f.data with state := reref q f.data.state } with
  | .error e => .error e
  | .ok w => .ok (w, alloc store q f.qhats)

/-- The files of the disk (conformalizedmodel.py:1698-1775). -/
abbrev Disk (W D C : Type) := Str → Option (File W D C)

/-- `save(name)` for a text (conformalizedmodel.py:1698-1729): the ending is added if it is missing. -/
def saveTo (ops : Ops W K M D) (pkg : Str) (store : Nat → C) (w : Wrapper W K M) (name : Str) (disk : Disk W D C) : Except PyErr (Disk W D C) :=
  match save ops pkg store w with
  | .error e => .error e
  | .ok f => .ok fun n => if n = Npz.withExt name then some f else disk n

/-- `from_file(name)` (conformalizedmodel.py:1732-1775): the name is taken as it is. (A missing file is `FileNotFoundError`, here `runtimeError`.) -/
def loadFrom (ops : Ops W K M D) (pkg : Str) (strict : Bool) (q : Nat) (store : Nat → C) (name : Str) (disk : Disk W D C) : Except PyErr (Wrapper W K M × (Nat → C)) :=
  match disk name with
  | Option.none => .error .runtimeError
  | some f => fromFile ops pkg strict q store f

/-! ## Requests of quantiles -/

/-- The dictionaries of quantiles (conformalizedmodel.py:182). -/
abbrev Caches := Nat → ℝ → Option Conformal.Arrs

/-- `get_qhat` (conformalizedmodel.py:1125-1197) of a wrapper; `toScores` gives the arrays of the object `scores`. -/
noncomputable def request (toScores : W → Conformal.Arrs) (w : Wrapper W K M) (alphas : List ℝ) (store : Caches) : Except PyErr (List Conformal.Arrs × Caches) :=
  match Conformal.getQhat ⟨(w.attr .scores).map toScores, store w.qhats⟩ alphas with
  | .error e => .error e
  | .ok (Q, st) => .ok (Q, alloc store w.qhats st.cache)

/-- What is done with a wrapper (conformalizedmodel.py:217-814, 1125-1197, 1525-1775). -/
inductive Action (W : Type)
  | calibrate (r : Run W)
  | request (alphas : List ℝ)

/-- One after the other, whether they raise or not (conformalizedmodel.py:217-814, 1125-1197, 1525-1775). -/
noncomputable def act (ops : Ops W K M D) (toScores : W → Conformal.Arrs) : List (Action W) → Wrapper W K M → Caches → Wrapper W K M × Caches
  | [], w, store => (w, store)
  | .calibrate r :: as, w, store => act ops toScores as (calibrate ops r w).1 store
  | .request alphas :: as, w, store => match request toScores w alphas store with
    | .error _ => act ops toScores as w store
    | .ok (_, store') => act ops toScores as w store'

end ConfFile
end Verif
