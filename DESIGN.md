# Formal model of pyPMM in Lean 4 — design

## 1. Layout

* `properties.jsonl` — the properties (ids `Cnn`) in English.
* `lean/Verif/Model/*.lean` — the model: definitions only, each one citing the `/repo` file and lines it models and saying
  where it simplifies.
* `lean/Verif/Spec/*.lean` — small specifications that do not use the model's helpers (paths in a graph, "is a sound
  schedule", "is the dataflow solution", exact sums over index assignments, ...).
* `lean/Verif/Lemmas/*.lean` — helper lemmas and proofs.
* `lean/Verif/Props/*.lean` — the property theorems, named `Cnn_...`, each followed by an `example` that instantiates its
  hypotheses on a concrete non-trivial case.
* `MANIFEST.json` — property → theorem names and status. `partial` means that the English statement is not proved in full:
  either the code violates part of it (then a theorem named `..._refuted` or `..._defect` proves that) or something is
  missing (suffix `_partial`, the comment says what).
* `seeded/LOG.jsonl` — mutation tests: model edits that imitate realistic bugs and the theorems that caught them.

Conventions: Python exceptions are values (`Except PyErr`), loops are folds, structural recursions or fuelled functions
whose fuel is proved to be enough, calls into libraries are parameters with stated assumptions, objects that are mutated
in place are values that are passed on (a heap is only modelled where aliasing matters: `EditHeap`, `ScalerFile`'s shared
scalers). Strings are lists of characters; the path separator is one character.

## 2. Trusted base

* Lean 4.33.0's kernel. Axioms: every theorem depends on no axioms other than `propext`, `Classical.choice` and
  `Quot.sound` (checked with `#print axioms`). No `sorry`, `admit`, `native_decide`, `bv_decide`, no axioms of our own.
  Concrete witnesses are computed by the kernel (`decide +kernel`, `rfl`).
* The reading of the Python code: the code is never run.
* Recorded behaviour of Python and libraries (definitions or parameters of the model):
  * Python `dict` keeps insertion order, `OrderedSet` deduplicates keeping first occurrences, `str.split/join/startswith/
    removesuffix/rstrip/isdigit` (ASCII digits only in the model).
  * `jax.tree.map/leaves/flatten` traverse lists and tuples left to right and dictionaries in sorted key order; `None` is
    an empty subtree; `tree.map` over several trees needs the first tree to be a prefix of the others (`JaxTree`, `TreeMap`).
  * `jax.lax.scan` is a left fold that stacks outputs; `jax.lax.while_loop` is iteration while the condition holds.
  * `jax.random.permutation(key, n)` is a permutation of `range(n)` depending only on `key` and `n`.
  * `jax.numpy.linalg.eigh` returns ascending eigenvalues with orthonormal eigenvectors (hypothesis of C58).
  * `numpy.quantile` interpolates linearly between order statistics; `method='higher'` takes the next order statistic.
  * `numpy.savez/load` with object arrays: nested lists and tuples become arrays along rectangular axes, ragged ones raise,
    dictionaries are leaves, 0-dimensional object arrays are unpacked with `.item()`/`.tolist()` (`Npz`, `ModelLib`).
  * `jax.numpy.einsum` is the sum over all assignments of the indices that do not appear in the output (`Einsum`).
  * beartype/jaxtyping decorators: only where they change behaviour (leaf shapes in `C67`, restricted containers in `Scalers`).
    beartype checks one item of a container; so heterogeneous dictionaries pass.
* Exact arithmetic: floats are modelled by elements of an ordered field, ℝ or ℂ (as said at each definition). Rounding,
  overflow and dtype promotion are not modelled. NaN or inf is modelled where the control flow depends on it (training
  loop, scalers with constant features, conformal scores).

## 3. What is modelled

| file in `/repo/parametricmatrixmodels` | model | not modelled |
|----|----|----|
| `graph_util.py` | all of it: `Graph` (`resolve_connections`), `Concretize`, `Connections` | nothing |
| `tree_util.py` | `Tree` (get/set/extend/mutable), `TreeArith`, `Loss` (norms, means), `Batch` (split, batch, permute, concatenate), `TrainArgs` (shape predicates), `Compare` (`all_equal`, `all_close`, `get_shapes`), `Precision` (`safecast`, `astype`), `Repr` (`strfmt_pytree`, also the `__repr__` of modules and models) | — |
| `model_util.py` | `Batch` (`autobatch`, state threading, on lists of samples), `BatchArr` (`autobatch` on trees of arrays, with exceptions) | jit wrappers (only that they sort dictionary keys) |
| `model.py` | `Edit`, `Item`, `EditHeap` (constructors, item access, append/insert/pop/`+`, compile/reset, counts), `ModelFile`, `ModelLib` (params, state, hyperparameters, serialise, save, load), `Loaded` (calls of loaded models), `SetParams` (compiling a `PReLU`), `LoadedTrain` (training loaded models), `OptState`, `Rng`, `Predict` (call and gradient caches), `Params` (reading and setting parameters and states), `ModelTrain` (`train`, `trainable`), `Grad`, `Precision`, `Repr` (`__repr__`, connections), `Unready` (the reason of a refusal) | the types behind the texts of modules |
| `sequentialmodel.py`, `nonsequentialmodel.py` | `Forward` (compile, callables, shapes), `SeqNone` (the leaf test of the reduction), `Nested` (models as modules of models), `Edit`, `ModelFile`, `Repr` | jit |
| `training.py` | `Adam`, `Training` (epoch loop, early stopping, best model, batches, callbacks), `TrainArgs`, `LossCall` (loss arguments), `Loss`, `OptState`, `Interrupt` (signals), `Schedule` (learning rates), `Display` (what a verbose run shows) | autodiff (the gradient is a parameter), the number format of the printed losses |
| `progressbar.py` | `ProgressBar` | terminal width |
| `eigen_util.py` | `Eigen` | the numerical eigensolver (a parameter) |
| `preprocessing/*` | `Scalers`, `MixedScaler`, `OneHot`, `Npz`, `ScalerFile` | `sklearn`-style names, warnings |
| `conformal/conformalizedmodel.py` | `Conformal`, `Quantile` (calibration, quantile, cache, interval, bias correction), `Normalization`, `Sensitivity` (given gradients), `Distance` (given the documented behaviour of SciPy's KD-tree), `Heuristic` (given the sensitivities), `CalArgs` (arguments of `calibrate`), `ConfFile` (order of assignments of `calibrate`, serialisation, files) | the warnings of the sanity check in `calibrate` |
| `modules/affinehermitianmatrix, lowrankaffinehermitianmatrix, _smoothing` | `Hermitian`, `HermTrain` (training of the matrices), `Names` (names, of all modules), `SerializeLib`, `Keys` (random keys), `Lifecycle` (histories of calls, shapes) | initial random values (only which keys they are drawn with) |
| `modules/affinetensor, expectationvaluesum, transitionamplitudesum` | `AffineTensor`, `Observables`, `HermTrain` (training of the matrices), `ObsPmm` (compilation of the observable model), `SerializeLib`, `Keys` (random keys), `Lifecycle` (histories of calls, shapes) | initial random values (only which keys they are drawn with) |
| `modules/eigen*` | `Eigen`, `SerializeLib` | |
| `modules/einsum, matmul` | `Einsum`, `Matmul`, `SerializeLib` | contraction order optimisation |
| `modules/reshape, flatten, treeflatten, concatenateleaves, treekey` | `Reshape`, `SerializeLib` | |
| `modules/bias, prelu, constant, comment, activationbase, _autogenerated_activationfuncs` | `Elementwise`, `AxisActivations` (the activations that are not elementwise), `Network` (28 elementwise ones and networks), `LeafModules` (what users do with rectifiers and constants), `SerializeLib` | the formulas of the other elementwise activations (a function parameter) |
| `modules/basemodule` | `Serialize`, `Edit`, `Subclass` (definition of classes) | |
| `modules/linearnn, affineeigenvaluepmm, affineobservablepmm` | `Pmm`, `Prebuilt`, `ObsPmm`, `Stale` (calls between compilations), `PrebuiltFile` (saving and loading), `Keys` (random keys) | initial random values (only which keys they are drawn with) |
| `modules/funcbase` | `Func` | dtypes |
| `typing.py` | `Serialize`, `Scalers` | the other aliases |

## 4. How each property is proved

| id | what is modelled | how it is proved |
|----|------------------|------------------|
| C01–C04 | `resolve_connections` (reverse graph, in-degrees, two DFS, Kahn's queue) as fuelled executable functions over an association list of edges | invariants of the DFS and of Kahn's loop; specification by paths; completeness by a minimal-element argument on the remaining nodes |
| C05 | `concretize_paths` level by level on component lists, fresh identifiers as an injective supply | invariant over levels: processed short paths are no prefix of others |
| C06 | `concretize_connections`, `place_connections_in_tree` | corollary of C05 by fold over outer targets |
| C07, C08 | string-level `partition_connections_by_tree`, `get_outer_connections_by_tree` | split lemmas |
| C09–C13, C65 | inductive `Tree` (leaf, none, list, tuple, dict) and `getitem/setitem/extend/make_mutable` on split paths; `split`/`join` on characters | induction on paths and trees |
| C14–C16 | `pytree_split`, `concatenate`, `batch_leaves`, `autobatch` over lists of samples | list induction |
| C17, C27 | shuffling by an arbitrary permutation function of the key | `List.Perm` |
| C18–C22 | sequential and nonsequential evaluation as folds with a state map; declared shapes | induction on module list / execution order; invariant: the environment solves the dataflow equations, which have one solution |
| C23–C25 | editing operations, compiled flag; `+` on a heap of lists | list lemmas, invariants over operation sequences |
| C26 | float counts | sums over trees |
| C28–C34, C37 | one step, one epoch, epoch loop with arbitrary loss history, Adam moments over ℝ | loop invariants |
| C35 | validation of `train` as a decision function | refinement to a specification of accepted arguments |
| C36 | the loss functions over ℝ/ℂ | algebra |
| C38, C40, C41 | serialise/deserialise of modules and optimiser state | round trip; for C40 per class over all reachable attribute values |
| C39 | models over an abstract module interface (`Ops`), models as modules again to any depth (`opsAt`), then all library modules (`libOps`), then the file | round trip by induction on the nesting depth; `Restorable` is the interface invariant |
| C42 | scalers' files: keys, object arrays, nested scalers | round trip up to equal behaviour of `transform` |
| C43–C47 | scalers over an ordered field; one-hot over ordered rows | algebra |
| C48–C50, C52, C53 | quantile of sorted scores, cache as association list, interval arithmetic | order statistics counting |
| C51 | exchangeable scores as a probability measure invariant under permutations | each rank is equally likely; the expected number of low ranks is counted, exactly when there are no ties |
| C54–C57, C70 | `Matrix` over ℂ (Mathlib) | algebra |
| C58 | index selection | list lemmas on sorted permutations |
| C59–C64, C69 | shape arithmetic, reshape on row-major data, einsum strings and plan, product plan | list and arithmetic lemmas; `einsum` against the explicit sum, `matmul` against the product of matrices |
| C66 | progress bar arithmetic | invariant over updates |
| C67 | leafwise arithmetic on trees | induction |
| C71 | `grad_input`, `grad_params` per sample, stacked, through `autobatch`; the derivative operator is a parameter | samples as list positions, C15/C16 for the batching |
| C72 | a model with its cached callable, gradient caches and display arguments, as a machine with operations | simulation of the uncached machine, by induction on histories |
| C73, C74 | types of arrays, nested modules with readiness; casting of trees | mutual induction on the nesting; tree maps |
| C75, C76 | the two prebuilt matrix models as compositions of the module models; the eigensolver is a parameter with its contract in `Spec/Pmm` | Courant–Fischer style bounds, Weyl's inequality, uniqueness of the characteristic roots, projections onto separated eigenspaces |
| C77 | the life cycle of prebuilt models as a machine; `LinearNN` as the composition of the models of its modules | composition of C60, C63 and C64 |
| C78 | the function as a parameter that may raise; a dummy batch of one sample of zeros, `()` and `None` as in `is_shape_leaf` | equation for the dummy input by induction on the tree |
| C79 | median, spreads and the chain of fallbacks over arrays of extended reals | order statistics of sorted lists, permutation invariance |
| C80 | the gradients as a tree of trees of arrays; sums over the last axes, reduction over leaves and `vmap` as in the code | zipping of trees of equal structure, sums over index lists |
| C81 | encoding, scaling, flattening, distinct rows and the queries as in the code; the KD-tree by its documented answers | L1 distance of concatenated rows as a sum over features; sorted distinct rows depend only on the set |
| C82 | sensitivities and normalisations are given; broadcasting of the sums as in the code | sum of three terms per entry by `bop` on equal and trailing shapes |
| C83 | wrappers as attributes with values or `None`, a reference to a shared dictionary of quantiles and a tree; `calibrate` as a script of assignments that may raise anywhere; keys written and keys read are two separate lists | invariant of successful calibration (the tree belongs to the attributes); frame lemmas; induction on later uses |
| C84 | models nested to any depth over a store of objects with arbitrary setters; `jax.tree.map` takes the values apart first and then calls the setters in order | induction on the nesting depth and the list of setters; frame lemma for distinct objects |
| C85 | the model's modules as in C84; the training loop of C27-C31; flags broadcast over the parameters; taking the parameters apart and putting them together | trees put together from the same leaves are equal; blocks of leaves below a module; invariants of the training loop |
| C86 | Python functions as functions of argument lists; the wrappers of `Model.train` and `training.train`; the checks of C35 | case analysis on what was given; C35 for the data that validation uses |
| C87 | rectifiers and constants as objects with exceptions that leave what was assigned before; random numbers as a parameter; reality as a tree of booleans | invariant (slopes fit the shape, the constant has the declared shapes) over all sequences of operations |
| C88 | constructors, `compile` and shapes of the four modules; `self.modules` assigned before the observables are made; Hermitian test and random numbers as parameters | inversion lemma for every constructor and `compile`; shapes of a single array under constant maps |
| C89 | the layers inside the kept function and the present ones, and whether they are the same objects; parameters from the present ones | invariant over histories: kept and present layers have the same plan, bias and activation; subscripts do not depend on sizes |
| C90 | structure test, loop over pairs of leaves, array comparison, shapes as tuples of numbers | pairs of leaves are the leaves at the same places; shapes as tuples are injective up to empty tuples |
| C91 | the checks of `calibrate` in order, and the flags it stores | one equivalence per check; a place is refused exactly if both flags are set there |
| C92 | the killer that handles the signals, signals that arrive while tracing and before each evaluation of the loop's condition | refinement: the loop with signals is the loop of C31 with the interrupts as they are noticed; then an invariant on the step budget |
| C93 | nothing new: the callables of the modules and of the models of C18 and C19 | a relation between data and a selection of its samples, preserved by every operation on trees and arrays; then by induction over the execution order |
| C94 | models as modules: the methods of a model whose modules have given methods, iterated to any depth | induction on the depth: a nested loop is the flat loop over the concatenated stages; inherited properties by C18, C19 and C93 at each level |
| C95 | `restoredPre`: class, own hyperparameters, activation and the restored sequential model of C39 | C39 for the sequential model; a dictionary lookup per hyperparameter; the activation is found by position in the layers |
| C96 | `lines`: the lines of a tree without indentation; a parser-free notion of texts that cannot be confused (`Plain`) | structural induction: splitting at line breaks commutes with indenting and joining; prefix cancellation for faithfulness |
| C97 | `Says`: what each reason says, in words, of the modules and shapes | case analysis per state; an invariant of all histories (an order is set with the input shape and consists of modules of the model) |
| C98 | `Below`, `Independent`: keys as addresses in the tree of splits; `OwnKeys`, `OwnCalls`: what a module does with its key | induction over nesting, modules, batches and epochs: the key that is left is independent of all keys used |
| C99 | `TakesObjectOnly`: how Python binds a call with the new object only | induction over the parameters and over the members of the class |
| C100 | `Plain`, `advanced`, `SameModel`: two trainings side by side | induction over the epochs of both runs |
| C101 | `Works`: a call on a batch returns the announced shape; histories of operations | invariant over histories; once there are parameters no operation changes a shape |
| C102 | `SameUse`, `Lost`: what two modules with the same name can differ in | the text before the first bracket gives the class; the rest is taken apart from both ends |
| C103 | `Renames`: a one-to-one correspondence of modules and connections; `Agree`, `OrderBlind`, `Clear` | the structure built from a set of places is tight, so the places determine it up to order; induction over the declarative data flow |
| C104 | `triples`: the samples of a batch with targets and uncertainties; `OrderFree`, `outcome` | a batch at least as large as the data has all samples; the two runs are followed epoch by epoch |
| C105 | `shown`: what is to be seen, written from the losses of the epochs alone; `label` | the callbacks return 0, so the run with them is the run without; then the lines by the theorems on the progress bar |
| C106 | `At`, `Missing`, `Apart`, `Covers`: addresses in a tree, from `Refers` and `InsertsAt` alone | induction on the path |
| C107 | `ByEpochs`: a training of epochs that each have a fixed rate; `Ticking`: a training that takes the next rate with every batch | the counters of the trainable parameters are equal within an epoch and one more in the next |
| C108 | `Rounds`: any number of times of saving and loading; equality of the answers of all calls | reading by path and flattening do not see the order of dictionaries; what is restored can be written again |
| C109 | `SameShapes`: the trees of array shapes are equal; `Takes`: a setter takes exactly the values with a property; `Reach` (objects from constructor, compilations, settings) | invariants of the reachable objects per class; fitting a tree of integer tuples is having the shapes it reads as; partial: observables, `Bias`, `Constant`, `Einsum`, `MatMul` refuted |
| C110 | `Course`: two models that go through the same trainings, one also through files; `Agree`: same parameters, state, key, optimiser states and calls; `GivenBy`: what a training is given | loading does not change what the methods see (`Faithful`, by induction on the nesting); that survives setting parameters and state; induction on the course |
| C111 | `Restates`: the rows in another order, each feature in other units; `SameRows` | the statistics of a column are symmetric and follow affine maps (perm and map lemmas for mean, standard deviation, minimum, maximum, quantile), then entry by entry |
| C112 | `Start`, `Epochs`, `Evaluated`, `Finished`, `StepOf`, `MiniBatches`, `Reordered`: the run told step by step, without any function of the model | every function of the loop refines its description; conversely every description is functional, by extensionality of data, steps and states |
| C113 | `Leads`, `Used`: paths to the output in the requested connections; no schedule occurs | the modules that lead to the output are related one to one (induction along the path to the output), then the comparison of dataflow equations of C103 |
| C114 | `gradC`: derivatives in the real and the imaginary direction; `AllHermitian`, `SeesHermitian`, `SameRest` by entries | the loss does not change if an entry and its mirror image are exchanged, so the gradient is Hermitian; clipping, moments and step respect the adjoint; invariant of the training loop |
| C115 | `shift`, `score`, `width`, `bound` (and `shiftS`, … for strata): the interval written out for one output with sums, quotients and one quantile; `Restates`, `Rearranges` | the tree operations are followed leaf by leaf with broadcasting; quantiles follow positive affine maps and do not see the order |
| C116 | the loop of compile with keys (`Model/Forward.lean`), drawing (`Model/Keys.lean`), `append` (`Model/Edit.lean`); `stepKey`, `ShapeAt` | the loop over a longer list goes on with the key and the shape that are left |
| C117 | nothing new: the models of C75 and C76; predictions of two models on corresponding data | equality of the matrices sample by sample; eigenvalues of `a A + e` by diagonalisation |
| C118 | nothing new: the modules of C54, C56, C57, C70 and C77, compared with each other | values of the modules; the spectral theorem with the nonzero eigenvalues for the low-rank module |
| C119 | nothing new: the nested models of C94, two at a time | induction over the nesting with relations on modules, parameters, states and data; naturality of reading, writing, extending and unflattening trees |
| C120 | nothing new: training steps (C28) with the Adam updates (C34); differentials and `jax.grad`'s convention are in Spec/Descent.lean | the update is a positive multiple of the clipped (conjugated) gradient; sum over entries and arrays; derivative along a line |
| C121 | nothing new: affine eigenvalue models (C75) | second-order bound on the change of a simple eigenvalue from Weyl's inequality and the spectral gap; differentiability of the energy in the matrix; local maximum of prediction minus tangent |
| C122 | nothing new: affine eigenvalue models (C75) | block-diagonal matrices and their characteristic polynomials; expectation values as additional eigenvalues that never win; diagonal matrices; convex functions as suprema of affine ones (Mathlib) and compactness |
| C123 | nothing new: both optimisers (C33, C34) and the training loop (C28-C32) | an inequality between the two averages that every step preserves (a weighted Cauchy-Schwarz inequality); triangle inequality along the history of a run |
| C124 | nothing new: affine eigenvalue models (C75) and trainings (C123) | Weyl's inequality with entrywise bounds of matrices, their commutators and the Cauchy-Schwarz inequality |
| C125 | nothing new: affine eigenvalue models (C75) | maps of pairs of matrices that respect linear combinations, adjoints and commutators; energies of block and Kronecker sums |
| C126 | nothing new: the training loop (C28-C33), the optimisers (C34), the losses (C37), affine eigenvalue models (C75) | Spec/TrainUnits: conversions of data, parameters, gradients and losses; gradients as partial derivatives |
| C127 | nothing new: the training loop (C28-C33), complex_adam (C34), affine eigenvalue models (C75) | Spec/Symmetry: exchanges, signs and conjugation of the entries of an array; gradients as partial derivatives (0 where there is none) |
| C128 | nothing new: the training loop (C28-C33), complex_adam (C34), affine eigenvalue models (C75) | Spec/Symmetry: other orders and signs of basis states and features; Spec/TrainUnits: conversions of whole training states |
| C129 | nothing new: the training step and complex_adam (C120), the loss (C126), affine eigenvalue models (C75) | the mean of squares, energies of matrices in vectors, derivatives of Mathlib |
| C130 | nothing new: affine observable models (C76) | limits along ultrafilters, simple eigenvalues: eigenvectors are multiples of each other |
| C131 | nothing new: the losses (C36) | Spec/Loss: the error of an entry; counts of larger and smaller targets, weighted sums |
| C132 | Model/AxisActivations: the generated activation classes whose JAX function is not elementwise, with JAX's default arguments | sums, exponentials and logarithms along the last axis; Spec/Samplewise |
| C133 | nothing new: eigenvalue models (C75) | Spec/Pmm: quadratic forms and lengths; isometries and traces of Mathlib |
| C134 | nothing new: observable models (C76) | sums of squared entries, traces, quadratic forms |
| C135 | `Network`: compiling and calling a list of linear layers | `Spec/Network`: layers on paper; induction over the layers, C77 for each |
| C136 | `Network.Act`: the formulas of 28 elementwise activations | real analysis: growth of `g` and of `x - g x`, mean value bounds of `exp` |
| C137 | nothing new: training (C28-C31), optimisers (C34), observable models (C76) | invariant of the training loop: the entry has its value and its first moment is zero; C134 for observable models |
| C138 | nothing new: training (C28-C31), optimisers (C34), networks (C135) | invariant of the training loop for all arrays together; gradients of invariant losses (C127); exchanging hidden units (C135_hidden) |
| C139 | nothing new: training (C28-C31), batches (C27), optimisers (C34), networks (C135) | invariant of the training loop for all arrays together and batches of training samples: the loss is locally constant in the entries of the unit |
| C140 | nothing new: normalisations (C79), sensitivities (C80) | the statistics and the fallbacks follow an affine change of the samples; the fixed floor refutes the rest |
| C141 | nothing new: sensitivities (C80), distances (C81) | through the closed forms of C80 and C81: interquartile ranges and ranges follow the units, Gower distances and distinct samples do not change |
| C142 | nothing new: networks (C135), the reach of a training (C123) | induction over the layers with a bound on the values and a bound on their change; Lipschitz constants of SiLU and Mish from their derivatives |
| C143 | nothing new: networks (C135) | the first (last) layer takes up the change of units; induction over the layers for networks without biases |
| C144 | nothing new: networks (C135) | block-diagonal weights; induction over the layers |
| C145 | nothing new: networks (C135) | a direction that tells the samples apart (a number that is no root of a product of polynomials), sorted projections, and one rectifier per gap; sums of exponentials of linear functions are dense (Stone–Weierstrass), and rectifiers approximate each of them; activations that differ from a rectifier by a bounded function look like it from far away; products of waves are sums of waves; steep sigmoids at the nodes of a fine grid are nearly a step function; two units with two slopes each make a rectifier; third differences of quadratic functions vanish |
| C146 | nothing new: training (C27, C138) | an invariant over all updates: parameters as at first, first moments zero; a minimum has derivative zero |
| C147 | nothing new: networks (C135), activations (C136) | Jensen's inequality layer by layer, convexity of each activation by supporting lines or monotone derivatives |
| C68 | `set_rng` | decision logic with the key constructor as a parameter |

## 5. What the proofs found in the code

Each item is proved (a `_refuted`/`_defect` theorem) or shown as an `example` beside the theorem that needs to exclude it.

* C01 a module without any inputs is only scheduled if something feeds it. C10 `"00"` and `"0"` name the same list item.
  C11 extending inside a nested tuple fails. C06 keys such as `input` and `input.` collide and edges are dropped; a module
  called `output_layer` leaks into the output. C07 a path that ends at a container is accepted silently. C08 a nested module
  below a container whose name starts with `input`/`output` loses its path.
* C15 `avoid_recompilation` raises on one-dimensional leaves if there is a remainder batch. Without it, a result that has no
  entries raises as soon as there is more than one batch.
* C18 dictionaries of modules run in key order, not in insertion order. C19 if two sources feed one slot, the order of the
  slots matters.
* C23 `pop(-1)` on tuples duplicates the other modules; insert and pop by index always raise for dictionaries; the default
  name of an appended module is the number of leaves. C24 `a + b` of list models appends to `a`'s own list and leaves `a`
  compiled. C25 after a failed compile a model can be ready; loading hyperparameters leaves a stale callable.
  C26 freezing does not change the number of trainable floats.
* C28 a callback can write frozen parameters. C29 a NaN loss before the first epoch ends training at once; with the default
  `min_delta` every epoch that is not NaN counts as an improvement; interrupts are ignored unless verbose. C32 the step counter
  advances by 1 per epoch for real parameters but by the number of batches plus 1 for complex ones. C33 complex gradients are clipped by
  component, so the magnitude can exceed the bound. C35 ragged features are accepted in unsupervised training, `Y_val` without
  `X_val` is ignored, `batch_size ≤ 0` is not refused. C36 `mre` divides by zero at `Y = -1e-4`. C131 `mrd` is no convex function of the predictions: it has a pole near `-Y`. C37 the mean over batches
  weighs a short last batch like a full one.
* C38 data of another class or version is accepted unless strict; hyperparameter trees of mixed types are dropped. C40
  `ConcatenateLeaves`, `MatMul` (separator) and `LowRankAffineHermitianMatrix` lose hyperparameters.
* C39 uncompiled graph models cannot be serialised; uncompiled modules that refuse `set_params(None)` cannot be read inside a
  model (also uncompiled `Bias` with `real=False` or `scalar=True`); trees with tuples cannot be loaded from a file (this includes
  the prebuilt PMM classes); ragged lists cannot be saved; raw random keys come back typed; an empty optimiser state becomes `None`.
* C42 scalers fitted on tuples or lists are not restored; lists or tuples of scalers can be written but not read; a range of a
  number and an array cannot be saved; pathlib paths without `.npz` are not found.
* C43/C44 constant features become NaN; a bound of `None` for a whole container raises. C45 the robust scaler only works for bare
  arrays with one feature. C46 one scaler object at two places is fitted twice, the second fit wins. C47 columns are sorted
  separately, so incomparable rows are mixed up.
* C48 for `alpha < 1/(n+1)` the largest score is returned silently; the coverage is then `n/(n+1)` instead of `1 - alpha` (C51). C49 a second calibration leaves old quantiles in the cache.
  C51 the bias correction is fitted on the calibration scores and can destroy coverage. C52 a heuristic of 0 gives a non-finite
  score. C53 stratified correction only works for outputs of shape `(1,)`.
* C54 a real matrix counts n² floats although only n(n+1)/2 are free. C58 without `num_eig` the declared shape uses the first
  input dimension. C59 `None` leaves in the target, bare targets for 1-tuples, size 0: accepted by compile, fail on data. C60
  `TreeFlatten` with `None` leaves declares extra shapes; `ConcatenateLeaves(axis=-1)` joins along the batch axis. C61 a path below an
  empty tuple passes compile and raises on data; a path that continues below an array returns the array.
* C62 fewer subscripts than arrays are accepted; tuple parameters are unusable after compile; a scalar first operand is lost. C63
  26 or more matrices give the transpose, 52 or more raise; `path_order` fails on bare arrays; dictionary keys that are numbers
  permute the factors. C64 "activations" that are not elementwise declare the wrong shape.
* C66 `reset` does not clear a longer earlier line. C67 `mean` and scalar operations need all leaves to have one shape.
  C68 NumPy integers are stored as raw keys; booleans count as seeds.
* C71 a gradient call returns (and stores) the state stacked once per sample; leaves whose first feature axes differ in size are refused.
  C72 a module changed behind the model's back, a fixed array (`Einsum` with frozen parameters) or new display arguments leave a
  stale compiled call. C73 `set_precision` on a graph model with an unused unready module stops midway; integer and Boolean
  state becomes floating point.
* C75 with `num_eig=None` the declared shape is `(None,)`, the computed one the matrix size; ordering by magnitude makes the
  prediction discontinuous. C76 with degenerate selected eigenvalues the result depends on the basis the eigensolver picks; the
  constructor's `b` is never used.
* C77 a prebuilt model compiled once for an input shape ignores new hyperparameters for the same shape (declared and compiled
  shape differ), keeps failing after a failed compilation, and changes itself before raising on a partial dictionary. An
  uncompiled `LinearNN` loses its activation when it is saved.
* C79 one constant component makes the normalisation of all components infinite, so that their sensitivities become 0;
  `weighted_quantile` sorts by the weights instead of the data and raises for arrays with more than one axis, so that calibrating with
  measurement uncertainties fails unless the output is a scalar.
* C80 models whose outputs have different shapes cannot be calibrated (`scalar_mul` needs one shape); selecting nothing divides by
  zero; input uncertainties are not mapped over the samples (`in_axes=(None, 0, None)`), so that they give an `(n, n)` array or raise.
* C81 a category that does not occur in the training data is encoded by zeros, so that it contributes 1/2 instead of 1: unknown
  categories look nearer than known different ones. A selected continuous component that is constant in the training data is divided by
  zero, and building or querying the tree raises `ValueError`. Categories of several components are divided by a range with one entry per
  component after the encoding has one entry per category, which raises unless the numbers happen to fit.
* C82 the distances are added to every output as an `(n, 1)` column, so that scalar outputs give an `(n, n)` array and outputs
  with two axes raise or mix samples; where all used normalisations are infinite the heuristic is zero and scores are not finite.
* C78 A function module that mixes samples declares a wrong shape, one that refuses zeros cannot be compiled, and an empty tuple in the data
  becomes an array in the dummy input (`C78_batch_refuted`, `C78_zeros_refuted`, `C78_empty_refuted`).
* C18 A module whose parameters are `None` (an `Einsum` without arrays of its own) makes every call of a sequential model raise
  (`C18_none_params_refuted`): its tuple fails the leaf test of the reduction and is flattened.
* C83 After a calibration that failed while or before building the tree, a saved conformalized model cannot be loaded or is loaded with another
  tree (`C83_failed_refuted`, `C83_stale_refuted`); `save("m")` writes `m.npz` but `from_file("m")` looks for `m` (`C83_filename_refuted`);
  the name comes back as an array without axes (`C83_name_refuted`); a copy made from `serialize()` in memory shares the quantiles of
  the original (`C83_shared_refuted`). `jaxtyped` on a class that is not a dataclass is taken to check nothing.
* C84 `set_params` refused by a module has already changed the modules before it; a module object in two places keeps the values of the
  last place; values given to modules without parameters vanish without a message; an uncompiled module refuses the `None` it returned.
* C85 Only the `trainable` of the outermost modules counts: a frozen module of a model inside a model is trained if another module
  of the inner model is not frozen. `train(resume=True)` starts from the values in the stored optimiser states; parameters set with
  `set_params` after the last training are thrown away, frozen ones too, even with `epochs=0`.
* C86 `train(X, Y, val_loss_fn=f)` without validation data raises a `TypeError` for every function `f`: the wrapper is chosen by the
  validation targets that were passed (none) and called with the training targets. The same happens with `Y_val_unc` but no `Y_unc`.
* C87 Slopes set on a `PReLU` before its first `compile` are silently replaced by random ones. A `Constant` whose value is set with
  `set_hyperparameters`, as its documentation asks for, declares no output shape (`None`); `Constant.set_params` accepts any shape and
  leaves the declared shape stale.
* C88 An `AffineObservablePMM` with `Ds` but without `output_size` compiles, but its `get_output_shape` raises, so that it cannot be part
  of another model. A `compile` for another shape that is refused while making the observables leaves `self.modules` with matrices and
  eigenvectors only; after correcting the arguments, compiling for the old shape succeeds and the model returns eigenvectors.
* C89 `Model.compile` does not throw away the function that the first call built, while prebuilt models replace their modules when compiled
  for a new shape. A `LinearNN` that was called, given another activation and compiled for another shape goes on applying the old activation;
  with the bias switched on or off, or data of another structure, every call raises although `compile` succeeded.
* C90 `all_equal` and `all_close` recognise only JAX arrays: NumPy arrays with several entries raise. Shapes are compared as trees of numbers, so
  that the shape of a number and an empty tuple are the same. `all_close` broadcasts arrays of different shapes, raises for shapes that do not
  fit, and gives different answers for swapped arguments.
* C91 `calibrate` without targets takes features with different numbers of samples and ignores `Y_cal_unc`; the numbers of samples of `X_train` are
  never compared; with `None` among the inputs a single flag for the input sensitivity becomes a tree that does not fit, and calibration raises.
* C92 `_train` makes its signal handlers and switches their "second signal" off while it is being traced, before the first epoch runs; during the
  epochs any number of signals is only noted. The handlers are never removed: after one verbose training, SIGINT and SIGTERM are swallowed for the
  rest of the process, and after one that two signals ended while it was compiled every later signal raises `KeyboardInterrupt`, also SIGTERM.
* C93 `Bias` called on data of another shape than it was compiled for may broadcast its parameter along the samples; `ConcatenateLeaves(axis=-1)` on
  scalar samples puts the samples of the leaves one behind the other; activations over the whole array (`AMax`) reduce over the samples.
* C94 A model whose result for each sample is a single number announces the shape `()`, which `get_output_shape` rejects: such a model cannot be a
  module of another model, although its modules could stand in its place.
* C95 `AffineEigenvaluePMM` and `AffineObservablePMM` keep their modules in a tuple (affineeigenvaluepmm.py:183, affineobservablepmm.py:299). By C39
  (`C39_tuple_refuted`) a compiled one can be saved to a file which nothing can load (`C95_file_refuted`). A `LinearNN` saved before `compile`
  loses its activation, because the activation is read off the modules (`C95_uncompiled_activation_refuted`); a PMM saved before `compile` loses the
  matrices given to it (`C95_matrices_refuted`). A hyperparameter of another type than the written ones, such as a NumPy integer as matrix size,
  is left out without a warning, and the data of such a PMM raises a `KeyError` when read (`C95_type_refuted`).
* C96 `strfmt_pytree` indents the text of an inner container again although the recursive call has already indented it: items at depth 2 get three
  levels and twice the base indentation, and the closing bracket is not below the opening one (`C96_indentation_refuted`). `max_leaf_chars` below 3
  cuts with a negative index, so lines get longer instead of shorter (`C96_width_refuted`). The text of a frozen module has an unbalanced
  parenthesis (example after `C96_module`).
* C97 (graph models only): the reason is computed as for sequential models, from all modules, although `is_ready` of a graph model looks only at the
  executed ones. The message names modules that are not used, or the lack of modules, where calling `compile` is all that is missing
  (`C97_graph_cause_refuted`).
* C98: `NonSequentialModel` passes its own key to every module (nonsequentialmodel.py:894), so modules that draw random numbers in a call draw the
  same ones (`C98_graph_calls_refuted`). Validation passes the model key that the following training steps split
  (`C98_validation_refuted`), and the same key for every validation batch. No module of the library draws in a call; modules of users may.
* C99: the check of constructors skips parameters called `self` instead of the first one (basemodule.py:144), so `__init__(this)` is refused and a
  required keyword `self` is overlooked. Only concrete classes wrap their own methods (basemodule.py:118-125), so methods that a model class inherits from the
  abstract `Model` are not type-checked, other than those decorated by hand (`C99_inherited_refuted`).
* C100: `epoch_body_fn` picks the best optimiser state (training.py:1005-1023) before it advances the counters (1046-1049), so the states that
  `train` returns, and that a resumed training starts with, have counters that are one too small whenever the last epoch was the best
  (`C100_lag_refuted`). The bias correction and the learning rate schedule of the resumed training are then off by one.
* C101: `LowRankAffineHermitianMatrix.set_params` does not compare the first axes of its two arrays (lowrankaffinehermitianmatrix.py:306-327), and `compile` looks at
  one of them only. `ExpectationValueSum.set_params` and `TransitionAmplitudeSum.set_params` accept matrices of another size than the module was compiled for
  (expectationvaluesum.py:319-334).
* C102: `LowRankAffineHermitianMatrix` calls itself `AffineHermitianMatrix` (lowrankaffinehermitianmatrix.py:118). The names of `Eigensystem` and `Eigenvalues` for all
  eigenvalues are literal texts where f-strings were meant (eigensystem.py:105, eigenvalues.py:102).
* C103: connections to the same place are gathered in the order in which they are written, so the order of a dictionary changes the result
  (`C103_shared_place_refuted`), and which of the orders of named and numbered places are accepted depends on the order as well (C19).
- **C105**: the progress bar counts the epochs from 1 (`training.py:683`), the summary at the end prints `best_epoch` counted from 0 (`training.py:1105-1118`): the best epoch is named with the number that was shown for the one before. `best_epoch` starts as 0 and stays 0 if no epoch is better than the start, so "best epoch: 0" is also what a training says whose first epoch was the best.
- **C107**: `complex_adam` reads the schedule at a counter that it increases with every batch (`training.py:266-268`) and `_train` increases once more per epoch (1046-1049), so with `nb` batches per epoch the rates of epoch `e` are those of `e(nb+1), …, e(nb+1)+nb-1`. A schedule that decays over the epochs of a training is used up in the first ones.
- **C109**: `ExpectationValueSum.set_params` and `TransitionAmplitudeSum.set_params` (expectationvaluesum.py:310-337, transitionamplitudesum.py:311-338) compare the matrix size of new observables with nothing but themselves (`params.shape[2]` against `params.shape[3]`), so a compiled module takes observables of another size and fails at the next call (`C109_observables_refuted`). `Bias.set_params` (bias.py:266-299) compares the structure but not the shapes (`C109_bias_refuted`); `Constant`, `Einsum` and `MatMul` check nothing (`C109_unchecked_refuted`).
- **C19**: `get_execution_order` documents `ValueError` for connections that are not an acyclic graph from the input to the output (nonsequentialmodel.py:297-301), but `resolve_connections` raises `RuntimeError` (graph_util.py:759-764, `C19_rejected`); only a model without any connection from the input raises `ValueError`.
- **C111**: `RobustScaler` compares the spread of a feature with `eps = 1e-12` (robust_scaler.py:195, 229), a number without units: whatever the data, there are units in which its spread is below `eps`, and then it is only centred and comes out as other numbers (`C111_robust_refuted`). A bound relative to the data would not depend on the units.
- **C114**: `set_params` and the constructors take matrices that are Hermitian within `np.allclose` (affinehermitianmatrix.py:109, 308; expectationvaluesum.py:124, 334; transitionamplitudesum.py:124, 335), whose tolerance is relative to the entries, but keep them as they are. A training leaves the deviation as it is while the entries may become small; then `set_params`, and with it loading the saved model, refuses the trained matrices (`C114_nearly_hermitian_refuted`). Storing the Hermitian part would avoid it.
- **C116**: the key of a module is its place in the order in which modules are compiled (sequentialmodel.py:134-137; nonsequentialmodel.py:485-488). A module added to a dictionary model moves all modules whose names come later in the alphabet, and a module added to a graph model moves those that are executed after it even if they do not depend on it; with the same seed they start with other values (`C116_dict_refuted`, `C116_graph_refuted`).
- **C126**: the relative losses add `1e-4` to the targets before dividing (training.py:1842, 1860, 1884, 1908), a number without units: the relative error of the same predictions and targets in other units is
  another (`C126_relative_refuted`). Also `eps` and `clip` of the optimisers have the units of the gradient: a loss multiplied by a number is trained differently with the default values (`C126_eps_needed`).
* C117 With `smoothing` the order of the features matters: the smoothing matrix is `i` times the sum of the commutators of later with earlier matrices (_smoothing.py:28-84), so that exchanging two features
  together with their matrices changes a sign and with it the predictions.
- **C132**: all generated activation classes are documented as elementwise and declare the shape of their input (activationbase.py:136-149), also those that are not. `Softmax()`, `LogSoftmax()` and `Standardize()` on samples that are numbers
  work along the batch: predictions depend on the other samples of the batch (`C132_scalar_refuted`). `LogSumExp()` gives one number for the batch, `OneHot(c)` a new axis and `GLU()` half of the last axis, or an
  `AssertionError` if it is odd (`C132_shape_refuted`): modules behind them are compiled for another shape than they get. `AMax()` and `AMin()` give one number for the batch, so a prediction depends on the other samples (`C132_extreme_refuted`).
- **C140**: `robust_normalization` (conformalizedmodel.py:1817-1870) compares the spreads with the fixed number `1e-12`. Sensitivities are squares, so outputs whose numbers are of the order of `1e-6` or smaller
  (a length in metres instead of nanometres) fall below it, and all sensitivities are divided by infinity (`C140_any_units_refuted`).
- **C134**: `AffineObservablePMM` has `num_eig=None` as default (affineobservablepmm.py:117), which reads out all states. Then the predictions are the same for all samples (C134_all_states): the features and the trained Hermitian matrices have no effect, and only the observables and the bias can be fitted. Users have to set `num_eig` below `matrix_size`.
