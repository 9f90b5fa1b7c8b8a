import Verif.Model.Forward
import Verif.Model.Training

/-!
# Random keys and the random initial values of modules

Models how the modules of the library draw their initial parameters when they are compiled
(`/repo/parametricmatrixmodels/modules/`: bias.py:204-246, prelu.py:135-190, constant.py:156-224, einsum.py:695-744,
affinetensor.py:180-211, affinehermitianmatrix.py:225-253, lowrankaffinehermitianmatrix.py:231-259,
expectationvaluesum.py:244-272, transitionamplitudesum.py:245-273). The keys of JAX are addresses: a seed and the way in which
the key was split off. Simplifications: numbers are not drawn, an array records its shape and the keys it is drawn with; that
different addresses have different keys is up to JAX; the magnitude and the symmetrisation of Hermitian matrices are left out.
-/

namespace Verif
namespace Keys
open Forward

/-- A key: `jax.random.key(seed)` or the `i`-th of the keys that `jax.random.split` makes of another key. That the `i`-th key
does not depend on how many are made is how JAX's default generator works (sequentialmodel.py:124-135, 303). -/
inductive Key where
  | seed (n : Int)
  | child (k : Key) (i : Nat)
  deriving DecidableEq

/-- `jax.random.split(key)` (sequentialmodel.py:135; nonsequentialmodel.py:488; training.py:333, 885, 978, 1068). -/
def split (k : Key) : Key × Key := (.child k 0, .child k 1)

/-- `jax.random.split(key, n)` (sequentialmodel.py:303; bias.py:237; prelu.py:173; constant.py:189; einsum.py:718-722). -/
def splitN (k : Key) (n : Nat) : List Key := (List.range n).map (.child k)

/-- A parameter array: given by the user, drawn as real numbers with one key, or as complex numbers with two keys
(bias.py:211-221; constant.py:175-187; prelu.py:153-168). -/
inductive Rand where
  | given (shape : Shape)
  | real (key : Key) (shape : Shape)
  | cplx (re im : Key) (shape : Shape)
  deriving DecidableEq

/-- The keys with which an array was drawn (bias.py:211-221). -/
def Rand.keys : Rand → List Key
  | .given _ => []
  | .real k _ => [k]
  | .cplx a b _ => [a, b]

/-- Drawing one array: the key is used as it is for a real array and split for a complex one (bias.py:211-221, 225-235;
prelu.py:153-168; constant.py:175-187). -/
def draw (real : Bool) (k : Key) (s : Shape) : Rand :=
  if real then .real k s else .cplx (split k).1 (split k).2 s

/-- Drawing a tree of arrays: one key for each shape, in the order of the leaves (bias.py:237-246; prelu.py:173-190;
constant.py:189-224). -/
def drawTree (k : Key) (shapes : Tree (Shape × Bool)) : Except PyErr (Tree Rand) :=
  Tree.unflatten shapes (List.zipWith (fun q x => draw x.2 q x.1) (splitN k shapes.jaxLeaves.length) shapes.jaxLeaves)

/-- The number of features of an input that is a single vector (affinetensor.py:165-180; affinehermitianmatrix.py:213-226). -/
def features (s : Tree Shape) : Except PyErr Nat :=
  match s.jaxLeaves with
  | [[p]] => .ok p
  | _ => .error .valueError

/-- The side of the matrices or the length of the vectors that the observable modules get
(expectationvaluesum.py:212-226; transitionamplitudesum.py:213-227). -/
def vectorLen (s : Tree Shape) : Except PyErr Nat :=
  match s.jaxLeaves with
  | [n :: _] => .ok n
  | _ => .error .valueError

/-- The modules with random initial parameters and the hyperparameters that decide about them (bias.py:204-246;
prelu.py:135-190; constant.py:156-224; einsum.py:695-744; affinetensor.py:188-211; affinehermitianmatrix.py:237-253;
lowrankaffinehermitianmatrix.py:240-259; expectationvaluesum.py:246-272; transitionamplitudesum.py:247-273). `leading` of an
`Einsum` gives the shapes of its arrays for an input shape (`Model/Einsum.lean`). -/
inductive Cls where
  | bias (real scalar : Bool)
  | prelu (real single : Bool)
  | constant (shapes : Tree (Shape × Bool))
  | einsum (real : Bool) (leading : Tree Shape → Except PyErr (List Shape))
  | affineTensor (real biasTerm : Bool) (shape : Shape)
  | hermitian (biasTerm : Bool) (size : Nat)
  | lowRank (biasTerm : Bool) (size rank : Nat)
  | observables (outputs number : Nat)
  | other

/-- A module: its class, whether it is trainable, its parameters if there are any yet, and what it checks if it has them
(basemodule.py:45-78; bias.py:150-202; prelu.py:125-133). -/
structure Mod where
  cls : Cls
  trainable : Bool
  params : Option (Tree Rand)
  check : Tree Rand → Tree Shape → Option PyErr

/-- The random initial parameters (bias.py:204-246; prelu.py:135-190; constant.py:163-224; einsum.py:711-744;
affinetensor.py:180-211; affinehermitianmatrix.py:226-253; lowrankaffinehermitianmatrix.py:231-259;
expectationvaluesum.py:244-272; transitionamplitudesum.py:245-273). -/
def initial (c : Cls) (k : Key) (s : Tree Shape) : Except PyErr (Tree Rand) :=
  match c with
  | .bias real scalar =>
    if scalar then .ok (.leaf (draw real k [1]))
    else match s with
      | .leaf sh => .ok (.leaf (draw real k sh))
      | _ => drawTree k (s.map fun sh => (sh, real))
  | .prelu real single =>
    if single then .ok (.tuple [.leaf (draw real k [1])]) else drawTree k (s.map fun sh => (sh, real))
  | .constant shapes => drawTree k shapes
  | .einsum real leading => match leading s with
    | .error e => .error e
    | .ok [] => .ok .none
    | .ok shs =>
      let arrays := if real then List.zipWith (fun q sh => Rand.real q sh) (splitN k shs.length) shs
        else List.zipWith (fun (q : Key × Key) sh => Rand.cplx q.1 q.2 sh)
          ((splitN (split k).1 shs.length).zip (splitN (split k).2 shs.length)) shs
      match arrays with
      | [a] => .ok (.leaf a)
      | l => .ok (.tuple (l.map .leaf))
  | .affineTensor real b sh => match features s with
    | .error e => .error e
    | .ok p =>
      let full := (if b then p + 1 else p) :: sh
      .ok (.leaf (if real then .real (split k).1 full else .cplx (split k).1 (split k).2 full))
  | .hermitian b n => match features s with
    | .error e => .error e
    | .ok p => .ok (.leaf (.cplx (split k).1 (split k).2 [if b then p + 1 else p, n, n]))
  | .lowRank b n r => match features s with
    | .error e => .error e
    | .ok p =>
      let q := if b then p + 1 else p
      .ok (.tuple [.leaf (.cplx (.child k 0) (.child k 1) [q, n, r]), .leaf (.real (.child k 2) [q, r])])
  | .observables o l => match vectorLen s with
    | .error e => .error e
    | .ok n => .ok (.leaf (.cplx (split k).1 (split k).2 [o, l, n, n]))
  | .other => .ok .none

/-- `compile` of a module of the library: parameters that are there are checked and kept, others are drawn. A `Constant` or an
`Einsum` that is not trainable does not draw. Simplification: a `PReLU` replaces slopes that were set before
its first compile (`Model/LeafModules.lean`); here they are kept (bias.py:150-246; prelu.py:125-190; constant.py:156-162; einsum.py:711-716;
affinetensor.py:183-190). -/
def compile (m : Mod) (k : Key) (s : Tree Shape) : Except PyErr Mod :=
  match m.params with
  | some ps => match m.check ps s with
    | some e => .error e
    | none => .ok m
  | none =>
    match m.cls, m.trainable with
    | .constant _, false => .error .valueError
    | .einsum _ leading, false => match leading s with
      | .error e => .error e
      | .ok [] => .ok m
      | .ok _ => .error .valueError
    | c, _ => match initial c k s with
      | .error e => .error e
      | .ok ps => .ok { m with params := some ps }

/-- The keys with which the parameters of a module were drawn (bias.py:204-246). -/
def Mod.drawn (m : Mod) : List Key :=
  match m.params with
  | none => []
  | some ps => ps.jaxLeaves.flatMap Rand.keys

end Keys
end Verif
