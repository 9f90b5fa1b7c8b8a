import Verif.Model.JaxTree
import Mathlib.Data.Complex.Basic
import Mathlib.Algebra.BigOperators.Fin
import Mathlib.LinearAlgebra.Matrix.Defs

/-!
# Model of the matrix-building modules

Mirrors `/repo/parametricmatrixmodels/modules/_smoothing.py`, `affinehermitianmatrix.py` and `lowrankaffinehermitianmatrix.py`. Numbers
are exact complex numbers (dtype promotion is not modelled); an array of shape `(p, n, n)` is a list of `p` matrices, an array of shape
`(b, f)` a list of `b` lists. Products and contractions are written out entry by entry.
-/

namespace Verif
namespace Hermitian
open scoped ComplexConjugate

/-- A complex `m × n` matrix (affinehermitianmatrix.py:145-163). -/
abbrev Mat (m n : Nat) := Matrix (Fin m) (Fin n) ℂ

variable {n r : Nat}

/-- `A @ B` (_smoothing.py:8-15). -/
noncomputable def dot (A B : Mat n n) : Mat n n := .of fun i k => ∑ j, A i j * B j k

/-- `commutator` (_smoothing.py:8-15). -/
noncomputable def commutator (A B : Mat n n) : Mat n n := dot A B - dot B A

/-- `np.cumsum(Ms, axis=0)`, started from `acc` (_smoothing.py:73). -/
noncomputable def cumsum (acc : Mat n n) : List (Mat n n) → List (Mat n n)
  | [] => []
  | M :: Ms => (acc + M) :: cumsum (acc + M) Ms

/-- `scan_Ms_comms` (_smoothing.py:20-25). -/
noncomputable def scanComms (acc : Mat n n) (x : Mat n n × Mat n n) : Mat n n := acc + commutator x.1 x.2

/-- `exact_smoothing_matrix` (_smoothing.py:28-84). -/
noncomputable def smoothingMatrix (Ms : List (Mat n n)) : Mat n n :=
  Complex.I • (Ms.tail.zip (cumsum 0 Ms.dropLast)).foldl scanComms 0

/-- `np.einsum("ni,ijk->njk", features, Ms)` for one sample (affinehermitianmatrix.py:155-157). -/
noncomputable def contract (x : List ℂ) (Ms : List (Mat n n)) : Mat n n := .of fun j k => (List.zipWith (fun c M => c * M j k) x Ms).sum

/-- `make_affine_hermitian_matrix` for one sample (affinehermitianmatrix.py:142-183, lowrankaffinehermitianmatrix.py:134-175): `bias`
and `s` are the attributes `bias_term` and `smoothing`. The annotations force one matrix per feature (plus one). -/
noncomputable def affine (bias : Bool) (s : ℝ) (Ms : List (Mat n n)) (x : List ℂ) : Except PyErr (Mat n n) :=
  if bias then match Ms with
    | [] => .error .typeError
    | M0 :: Ms' =>
      if x.length = Ms'.length then
        let M : Mat n n := M0 + contract x Ms'
        if s = 0 then .ok M else .ok (M + (s : ℂ) • smoothingMatrix Ms)
      else .error .typeError
  else if x.length = Ms.length then
    let M : Mat n n := contract x Ms
    if s = 0 then .ok M else .ok (M + (s : ℂ) • smoothingMatrix Ms)
  else .error .typeError

/-- Enforcing Hermitian matrices: `(Ms + Ms.conj().transpose((0, 2, 1))) / 2.0` (affinehermitianmatrix.py:197). -/
noncomputable def hermPart (M : Mat n n) : Mat n n := .of fun i j => (M i j + conj (M j i)) / 2

/-- The callable of `AffineHermitianMatrix` (affinehermitianmatrix.py:185-210) on data whose leaves are batches of samples. -/
noncomputable def affineCallable (bias : Bool) (s : ℝ) (Ms : List (Mat n n)) (data : Tree (List (List ℂ))) :
    Except PyErr (Tree (List (Mat n n))) :=
  Tree.mapM (fun xs => match xs.mapM (affine bias s (Ms.map hermPart)) with
    | .ok r => .ok (.leaf r)
    | .error e => .error e) data.norm

/-- `make_low_rank_matrices` (lowrankaffinehermitianmatrix.py:177-186) for one matrix: `np.einsum("pr,pnr,pmr->pnm", ls, us, us.conj())`. -/
noncomputable def lowRank (l : Fin r → ℂ) (u : Mat n r) : Mat n n := .of fun a b => ∑ k, l k * u a k * conj (u b k)

/-- The callable of `LowRankAffineHermitianMatrix` (lowrankaffinehermitianmatrix.py:188-213) for one sample. -/
noncomputable def lowRankAffine (bias : Bool) (s : ℝ) (ls : List (Fin r → ℂ)) (us : List (Mat n r)) (x : List ℂ) : Except PyErr (Mat n n) :=
  affine bias s ((List.zipWith lowRank ls us).map hermPart) x

/-- `AffineHermitianMatrix.get_num_trainable_floats` (affinehermitianmatrix.py:129-138): the size of an array of shape `(p, n, n)`. -/
def numFloats (Ms : List (Mat n n)) : Nat := Ms.length * (n * n)

/-- `AffineHermitianMatrix.compile` (affinehermitianmatrix.py:212-253): `fresh` are the random matrices, made Hermitian; existing
parameters are only checked. `f` is the number of features. -/
noncomputable def compile (bias : Bool) (Ms : Option (List (Mat n n))) (fresh : Nat → List (Mat n n)) (f : Nat) :
    Except PyErr (List (Mat n n)) :=
  let p := if bias then f + 1 else f
  match Ms with
  | some Ms => if Ms.length ≠ p then .error .valueError else .ok Ms
  | none => .ok ((fresh p).map hermPart)

end Hermitian
end Verif
