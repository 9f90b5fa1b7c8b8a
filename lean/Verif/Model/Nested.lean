import Verif.Model.Forward

/-!
# Model of models that are modules of other models

Mirrors `/repo/parametricmatrixmodels/model.py` line 48: a model is a module, so it can be used wherever a module can. Its callable, its shape inference and its compilation are those of
`sequentialmodel.py` and `nonsequentialmodel.py`, modelled in `Verif.Model.Forward` for arbitrary modules.
-/

namespace Verif
namespace Nested

open Forward

variable {M M' P P' S S' K A : Type}

/-- The class of a model; for `NonSequentialModel` with its separator and connections (sequentialmodel.py:28-50; nonsequentialmodel.py:43-78). -/
inductive Kind where
  | seq
  | nonseq (sep : Char) (conn : List (Str × List Str))

/-- A model as a module (model.py:48, 97-143). -/
structure NModel (M : Type) where
  kind : Kind
  modules : Tree M

/-- The methods of a model whose modules have the given methods (sequentialmodel.py:99-334; nonsequentialmodel.py:372-925). Its parameters and its state are the trees of those of its
modules. Simplification: that the model is ready is not checked. -/
def modelSig (fresh : Str → Nat → Nat → Str) (sig : Sig M P S K A) : Sig (NModel M) (Tree P) (Tree S) K A where
  call m p x training s k := match m.kind with
    | .seq => seqCall sig m.modules p x training s k
    | .nonseq sep conn => nsCall sig sep fresh m.modules conn p x training s k
  outShape m s := match m.kind with
    | .seq => seqOutputShape sig m.modules s
    | .nonseq sep conn => nsOutputShape sig sep fresh m.modules conn s
  compile m k s := match m.kind with
    | .seq => match seqCompile sig m.modules k s with
      | .error e => .error e
      | .ok (ms, _) => match Tree.unflatten m.modules ms with
        | .error e => .error e
        | .ok t => .ok ⟨m.kind, t⟩
    | .nonseq sep conn => match nsCompile sig sep fresh m.modules conn k s with
      | .error e => .error e
      | .ok (t, _, _) => .ok ⟨m.kind, t⟩
  split := sig.split
  splitN := sig.splitN

/-- Modules of two sorts side by side (model.py:48). Parameters or a state of the wrong sort do not have the structure the module expects and raise. -/
def sumSig (a : Sig M P S K A) (b : Sig M' P' S' K A) : Sig (M ⊕ M') (P ⊕ P') (S ⊕ S') K A where
  call m p x training s k := match m, p, s with
    | .inl m, .inl p, .inl s => match a.call m p x training s k with
      | .error e => .error e
      | .ok (y, s') => .ok (y, .inl s')
    | .inr m, .inr p, .inr s => match b.call m p x training s k with
      | .error e => .error e
      | .ok (y, s') => .ok (y, .inr s')
    | _, _, _ => .error .valueError
  outShape m s := match m with
    | .inl m => a.outShape m s
    | .inr m => b.outShape m s
  compile m k s := match m with
    | .inl m => match a.compile m k s with
      | .error e => .error e
      | .ok m' => .ok (.inl m')
    | .inr m => match b.compile m k s with
      | .error e => .error e
      | .ok m' => .ok (.inr m')
  split := a.split
  splitN := a.splitN

/-- Modules with models nested up to depth `n` (model.py:48). -/
def ModAt (M : Type) : Nat → Type
  | 0 => M
  | n + 1 => M ⊕ NModel (ModAt M n)

/-- Their parameters or their states (model.py:281-302, 337-360). -/
def ValAt (P : Type) : Nat → Type
  | 0 => P
  | n + 1 => P ⊕ Tree (ValAt P n)

/-- Their methods (model.py:48). -/
def sigAt (fresh : Str → Nat → Nat → Str) (sig : Sig M P S K A) : ∀ n, Sig (ModAt M n) (ValAt P n) (ValAt S n) K A
  | 0 => sig
  | n + 1 => sumSig sig (modelSig fresh (sigAt fresh sig n))

end Nested
end Verif
