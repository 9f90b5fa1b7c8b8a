import Verif.Model.Prebuilt
import Verif.Lemmas.TreeDec

/-!
# A prebuilt model that is used and compiled again

Mirrors what `LinearNN` (`/repo/parametricmatrixmodels/modules/linearnn.py`) does when calls and compilations alternate. A model builds its function at the first call and keeps it
(`/repo/parametricmatrixmodels/model.py` lines 581-582); `compile` does not throw it away, but makes new modules if the shape is new. The function holds the functions of the modules that there
were when it was built (sequentialmodel.py:260-263), while the parameters are read from the modules that there are (model.py:614-616).
-/

namespace Verif
namespace Stale
open Prebuilt

variable {K : Type}

/-- A `LinearNN` between two calls: the layers whose functions are inside `self.callable`, if there is one. `live`: these layers are still the modules of the model (the same objects), so that whatever
is stored in them is seen (model.py:581-582; linearnn.py:58-118). -/
structure Used (K : Type) where
  mdl : Mdl (LinHyper K) (Layers K) (Tree (List Nat))
  kept : Option (Layers K)
  live : Bool

/-- The layers whose functions are called (sequentialmodel.py:260-262). -/
def Used.code (u : Used K) : Layers K := if u.live then u.mdl.modules else u.kept.getD u.mdl.modules

/-- `compile` (linearnn.py:58-118). The modules are other objects afterwards if the checks pass and the shape is another one. -/
def compile (draw : Nat → List Nat → K) (drawB : List Nat → List Nat → K) (u : Used K) (s : Tree (List Nat)) : Used K × Except PyErr Unit :=
  match Prebuilt.compile (linOps draw drawB) u.mdl s with
  | (m, r) =>
    if linCheck u.mdl.hyper s = .ok () ∧ u.mdl.inShape ≠ some s then (⟨m, if u.live then some u.mdl.modules else u.kept, false⟩, r)
    else ({ u with mdl := m }, r)

/-- The number of modules (linearnn.py:91-118). -/
def count (ly : Layers K) : Nat := 2 + ly.hasBias.toNat + ly.act.isSome.toNat

/-- The functions of the layers `code` with the parameters of the layers `now` (sequentialmodel.py:290-334): there have to be as many modules as there were (`jax.tree.map`, `jax.tree.unflatten`). The target of
`Flatten`, the subscripts of `MatMul` and the activation are those of `code`. -/
def mixed [CommSemiring K] (code now : Layers K) (data : Tree (NArr K)) : Except PyErr (Tree (NArr K)) :=
  if count code ≠ count now then .error .valueError
  else linCall { code with params := now.params, b := now.b } data

/-- `is_ready` and `_verify_input` (model.py:492-508, 571-579): the modules and the shapes are there, and the data has the shapes that the model was compiled for. Simplification:
`shapes_equal` is equality of the trees of shapes (`C90_verify`; it also takes an empty container for a scalar). -/
def accepts (m : Mdl (LinHyper K) (Layers K) (Tree (List Nat))) (data : Tree (NArr K)) : Except PyErr Unit :=
  match m.modules.plan, m.inShape, m.outShape with
  | some _, some s, some _ => if Tree.map (fun x => x.shape.tail) data.norm = s.norm then .ok () else .error .valueError
  | _, _, _ => .error .runtimeError

/-- `__call__` (model.py:510-628), as far as the stored function is concerned. `none` for the kept layers: there is no function yet. -/
def call [CommSemiring K] (u : Used K) (data : Tree (NArr K)) : Used K × Except PyErr (Tree (NArr K)) :=
  match accepts u.mdl data with
  | .error e => (u, .error e)
  | .ok _ => match u.kept with
    | some _ => (u, mixed u.code u.mdl.modules data)
    | none => (⟨u.mdl, some u.mdl.modules, true⟩, mixed u.mdl.modules u.mdl.modules data)

/-- What a user does. `setParams`: with `set_params`, or by training. `setHyper`: setting the attributes `out_features`, `bias`, `activation`, or `set_hyperparameters` with the dictionary that
`get_hyperparameters` returned, changed (linearnn.py:58-118, 161-178; model.py:304-335, 510-628). -/
inductive Op (K : Type) where
  | compile (draw : Nat → List Nat → K) (drawB : List Nat → List Nat → K) (s : Tree (List Nat))
  | call (data : Tree (NArr K))
  | setParams (W : NArr K) (b : Option (NArr K))
  | setHyper (h : LinHyper K)

/-- Layers with other parameters (model.py:329). -/
def put (ly : Layers K) (W : NArr K) (b : Option (NArr K)) : Layers K := { ly with params := .arr W, b := b.map .arr }

/-- One operation; exceptions are caught (linearnn.py:58-118, 161-178; model.py:304-335, 510-628). -/
def step [CommSemiring K] (u : Used K) : Op K → Used K
  | .compile draw drawB s => (compile draw drawB u s).1
  | .call data => (call u data).1
  | .setParams W b => { u with mdl := { u.mdl with modules := put u.mdl.modules W b } }
  | .setHyper h => { u with mdl := { u.mdl with hyper := h } }

/-- A new model (linearnn.py:32-56; model.py:124-134). -/
def new (h : LinHyper K) : Used K := ⟨⟨h, ⟨0, false, none, .none, none, none⟩, none, none⟩, none, false⟩

end Stale
end Verif
