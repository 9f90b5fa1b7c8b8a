{"id": "C01", "title": "Execution order is a sound schedule", "statement": "Whenever the connections of a nonsequential model are accepted, the returned execution order starts with the model input, ends with the model output, contains no module twice, and runs every module only after every module that feeds it. (The model input never receives a connection.)", "quantifier": "every connection graph over any set of module names, any dictionary order, any size", "why_tests_cant": "A test tries a handful of graphs. Soundness has to hold for every graph and every insertion order of the dictionary, and a scheduler that is wrong for one shape of graph passes any fixed list.", "anchors": ["parametricmatrixmodels/graph_util.py:resolve_connections", "parametricmatrixmodels/graph_util.py:validate_resolution", "parametricmatrixmodels/nonsequentialmodel.py:get_execution_order"]}
{"id": "C02", "title": "Cyclic or disconnected models are rejected", "statement": "If the output cannot be reached from the input, or if a module on an input-to-output route lies on a directed cycle of such modules, resolving the connections raises an error; it never returns an order and never runs forever. (The model input never receives a connection: C07.)", "quantifier": "every connection graph", "why_tests_cant": "There are infinitely many cyclic and disconnected graphs, and a test that does not return cannot tell a slow run from an endless one: termination needs a proof.", "anchors": ["parametricmatrixmodels/graph_util.py:resolve_connections"]}
{"id": "C03", "title": "Exactly the well-formed graphs are accepted, and exactly the useful modules run", "statement": "Connections are accepted if and only if the output is reachable from the input, the useful modules (on some input-to-output route) contain no cycle, and every producer of a useful module is itself fed from the input; when accepted, the modules scheduled are exactly the useful ones. In particular one dangling producer (a source never fed by the input) makes an otherwise valid model be rejected.", "quantifier": "every connection graph", "why_tests_cant": "Completeness is a statement about all graphs at once: that no well-formed graph is refused and no unused module runs cannot be seen from accepted examples.", "anchors": ["parametricmatrixmodels/graph_util.py:resolve_connections", "parametricmatrixmodels/nonsequentialmodel.py:__init__"]}
{"id": "C04", "title": "Acceptance does not depend on dictionary order", "statement": "Whether connections are accepted, and which modules are scheduled, depends only on the set of edges, not on the order in which the user wrote the dictionary or the target lists.", "quantifier": "every pair of connection dictionaries with the same edges", "why_tests_cant": "It compares all permutations of all dictionaries; Python's dictionary order makes the failing permutation a rare one.", "anchors": ["parametricmatrixmodels/graph_util.py:resolve_connections"]}
{"id": "C05", "title": "Concretised input paths never clash", "statement": "Turning the list of requested input paths of a module into concrete paths keeps the number and order of the paths, only appends components to a requested path, and yields paths that are pairwise distinct with none a prefix of another, so that all of them can be stored in one tree at once.", "quantifier": "every non-clashing-by-design list of paths (repeated, nested, numeric, empty)", "why_tests_cant": "Clashes come from repeated, nested and numeric paths in combination; there are infinitely many lists of such paths, and the interesting ones nest at several levels.", "anchors": ["parametricmatrixmodels/graph_util.py:concretize_paths"]}
{"id": "C06", "title": "Concretised connections keep every edge and give each input slot one source", "statement": "After concretising, every module input slot has exactly one source, each requested edge from a source to a module gives exactly one concrete slot of that same module, and sources are unchanged.", "quantifier": "every connection dictionary", "why_tests_cant": "Repeated, nested and numeric slots interact, and losing one edge in an unusual combination only shows as a wrong number later.", "anchors": ["parametricmatrixmodels/graph_util.py:concretize_connections", "parametricmatrixmodels/graph_util.py:place_connections_in_tree"]}
{"id": "C07", "title": "Splitting connections into module path and inner path is lossless and rejects misuse", "statement": "Partitioning a connection splits its source and its target into a module path naming an actual module and an inner remainder that together spell the original string; using the output as a source or the input as a target is an error.", "quantifier": "every module tree, every connection string", "why_tests_cant": "The code cuts prefixes and suffixes off strings, so the claim has to hold for every string, including names that contain the reserved words or the separator.", "anchors": ["parametricmatrixmodels/graph_util.py:partition_connections_by_tree"]}
{"id": "C08", "title": "Module-level graph is the projection of the user's connections", "statement": "The module-level edges derived from the user's connections are exactly the pairs (module containing the source, module containing the target), without duplicates.", "quantifier": "every module tree and connection dictionary", "why_tests_cant": "It has to hold for every naming of the modules, including names that start with the reserved words, which no test author thinks of.", "anchors": ["parametricmatrixmodels/graph_util.py:get_outer_connections_by_tree", "parametricmatrixmodels/nonsequentialmodel.py:get_execution_order"]}
{"id": "C09", "title": "A stored tree item is read back", "statement": "Setting an item by string path, when it succeeds, makes a read at the same path return the stored value.", "quantifier": "every tree, path and value", "why_tests_cant": "Reading back has to work for all trees and paths of any depth; tests fix a few.", "anchors": ["parametricmatrixmodels/tree_util.py:setitem_by_strpath", "parametricmatrixmodels/tree_util.py:getitem_by_strpath"]}
{"id": "C10", "title": "Storing an item changes nothing else", "statement": "Setting an item by string path leaves every read at a diverging path unchanged.", "quantifier": "every tree, pair of diverging paths, value", "why_tests_cant": "Non-interference is a statement about all pairs of paths and everything that was not touched; a test only looks at the places it names.", "anchors": ["parametricmatrixmodels/tree_util.py:setitem_by_strpath", "parametricmatrixmodels/tree_util.py:getitem_by_strpath"]}
{"id": "C11", "title": "Extending a structure creates the requested slots", "statement": "Extending a tree with paths and fill values, when it succeeds, makes every read at a requested path return its fill value, keeps all existing leaves, and raises rather than overwriting a different existing value.", "quantifier": "every base tree, every list of mutually diverging paths and fill values (a fill of None leaves an existing value in place)", "why_tests_cant": "List padding, tuples and dictionaries interact, and the order in which paths are given matters; the combinations are unbounded.", "anchors": ["parametricmatrixmodels/tree_util.py:extend_structure_from_strpaths"]}
{"id": "C12", "title": "make_mutable removes every tuple and nothing else", "statement": "Making a tree mutable terminates, leaves no tuple at any depth, keeps the leaves in order, is idempotent, and does not change what any path reads.", "quantifier": "every tree", "why_tests_cant": "The depth is unbounded, and the loop repeats until nothing changes: that it ends cannot be tested.", "anchors": ["parametricmatrixmodels/tree_util.py:make_mutable"]}
{"id": "C13", "title": "Early return splits a path exactly", "statement": "Reading with early return and remainder gives a node and a remainder such that reading the consumed part of the path without early return gives that node, and the consumed part and the remainder together are the path.", "quantifier": "every tree and path", "why_tests_cant": "It is a statement about every tree and every path, including those that leave the tree at a leaf.", "anchors": ["parametricmatrixmodels/tree_util.py:getitem_by_strpath"]}
{"id": "C14", "title": "Batching partitions the samples", "statement": "Splitting a data set into batches of a given size and concatenating the batches and the remainder gives back the data set: no sample lost, repeated or reordered; every batch has exactly the requested size and the remainder is smaller.", "quantifier": "every data set and batch size", "why_tests_cant": "Every relation between the number of samples and the batch size matters, remainders included, and the claim is that no sample is lost or repeated for any of them.", "anchors": ["parametricmatrixmodels/tree_util.py:pytree_split", "parametricmatrixmodels/tree_util.py:concatenate", "parametricmatrixmodels/tree_util.py:batch_leaves"]}
{"id": "C15", "title": "Automatic batching does not change a per-sample model's output", "statement": "For a model that treats samples independently and does not change its state, evaluation with any max_batch_size and either recompilation mode gives the same outputs in the same order as one evaluation of the whole batch, and the same state.", "quantifier": "every function, data set, batch size, mode", "why_tests_cant": "Equality of two evaluations has to hold for every function and all sizes; tests with one model and one size do not see a wrong remainder batch.", "anchors": ["parametricmatrixmodels/model_util.py:autobatch", "parametricmatrixmodels/model.py:__call__"]}
{"id": "C16", "title": "State is threaded through batches in order", "statement": "With automatic batching, the state given to each batch is the state returned by the previous one, the final state is the one returned by the last processed batch, and every sample is processed exactly once in order.", "quantifier": "every stateful function, data set, batch size, mode (in the mode that avoids recompilation, samples that are arrays: see C15)", "why_tests_cant": "The claim is about the sequence of states over arbitrarily many batches and an arbitrary stateful function.", "anchors": ["parametricmatrixmodels/model_util.py:autobatch"]}
{"id": "C17", "title": "Shuffling keeps features, targets and uncertainties aligned", "statement": "Permuting the leaves of X, Y and Y uncertainties with the same key applies one and the same permutation of samples, so each (x, y, unc) triple survives exactly once.", "quantifier": "every data set and key", "why_tests_cant": "Alignment has to survive every permutation, and misaligned rows of random data look as random as aligned ones.", "anchors": ["parametricmatrixmodels/tree_util.py:random_permute_leaves", "parametricmatrixmodels/training.py:_train"]}
{"id": "C18", "title": "A sequential model is the composition of its modules", "statement": "Evaluating a sequential model applies its modules one after another in leaf order, each on the previous output with its own parameters and state, and returns all new states in the same positions.", "quantifier": "every list of modules, parameters, states, input", "why_tests_cant": "The number of modules is unbounded, and so are nesting and the functions they compute; the claim is an equation of functions.", "anchors": ["parametricmatrixmodels/sequentialmodel.py:_get_callable"]}
{"id": "C19", "title": "A nonsequential model computes its dataflow equations", "statement": "Evaluating a nonsequential model gives each scheduled module exactly the outputs named by its incoming connections and the model output is what is connected to it: the result satisfies the dataflow equations of the connections and they have only one solution.", "quantifier": "every acyclic connection graph and every interpretation of modules", "why_tests_cant": "It quantifies over all acyclic graphs and all interpretations of the modules; a test evaluates one network with fixed functions.", "anchors": ["parametricmatrixmodels/nonsequentialmodel.py:_get_callable", "parametricmatrixmodels/nonsequentialmodel.py:get_execution_order"]}
{"id": "C20", "title": "A chain-shaped nonsequential model equals the sequential model", "statement": "For connections input->m1->...->mn->output, the nonsequential model computes the same output as the sequential model with modules m1..mn.", "quantifier": "every n and every list of modules", "why_tests_cant": "It is an equality of two evaluators for every length of the chain and all modules.", "anchors": ["parametricmatrixmodels/nonsequentialmodel.py:_get_callable", "parametricmatrixmodels/sequentialmodel.py:_get_callable"]}
{"id": "C21", "title": "Declared shapes agree with computed shapes", "statement": "If every module's declared output shape is the shape of what it computes, then the output shape declared by a (non)sequential model is the shape of what the model computes, and module compile receives the shape of the data it will later see.", "quantifier": "every model and input shape", "why_tests_cant": "Shapes have to agree for all compositions of modules and all input shapes, not for the ones in a fixture.", "anchors": ["parametricmatrixmodels/sequentialmodel.py:compile", "parametricmatrixmodels/sequentialmodel.py:get_output_shape", "parametricmatrixmodels/nonsequentialmodel.py:compile", "parametricmatrixmodels/nonsequentialmodel.py:_get_shape_progression"]}
{"id": "C22", "title": "Only executed modules change state", "statement": "After evaluating a nonsequential model, the state of a module not in the execution order is unchanged, and each executed module's new state is the one its own callable returned.", "quantifier": "every model and state", "why_tests_cant": "That nothing else changes is a statement about all modules that did not run, in every graph.", "anchors": ["parametricmatrixmodels/nonsequentialmodel.py:_get_callable", "parametricmatrixmodels/nonsequentialmodel.py:get_state"]}
{"id": "C23", "title": "Editing a model keeps the other modules", "statement": "insert, append, prepend, pop and item assignment change only the addressed position and keep the relative order of all other modules; append then pop restores the list; every edit invalidates the compiled state.", "quantifier": "every module list/dict, every index or key, every edit sequence", "why_tests_cant": "Edits act on lists, tuples and dictionaries with positive, negative and missing positions, one after another; the histories are unbounded.", "anchors": ["parametricmatrixmodels/model.py:insert_module", "parametricmatrixmodels/model.py:append_module", "parametricmatrixmodels/model.py:prepend_module", "parametricmatrixmodels/model.py:pop_module_by_index", "parametricmatrixmodels/model.py:pop_module_by_key", "parametricmatrixmodels/model.py:__setitem__"]}
{"id": "C24", "title": "Adding two models leaves the operands unchanged", "statement": "a + b yields a model whose modules are those of a followed by b itself as one further module (b may be a model), and neither operand changes.", "quantifier": "every sequential model a held in a list or tuple, every module or model b", "why_tests_cant": "It is about aliasing: which objects two models share after the operation. Observing no change in one attribute does not exclude sharing.", "anchors": ["parametricmatrixmodels/model.py:__add__"]}
{"id": "C25", "title": "A model is ready only with a current compilation", "statement": "A model reports ready only if it was compiled since the last edit or reset and all of its modules are ready; calling a model that is not ready raises.", "quantifier": "every sequence of edits, resets and compiles", "why_tests_cant": "Readiness depends on the whole history of edits, resets and compilations.", "anchors": ["parametricmatrixmodels/model.py:is_ready", "parametricmatrixmodels/model.py:reset", "parametricmatrixmodels/nonsequentialmodel.py:is_ready", "parametricmatrixmodels/model.py:_verify_input"]}
{"id": "C26", "title": "Number of trainable floats is additive and respects freezing", "statement": "The trainable-float count of a model is the sum over its trainable modules of their counts; freezing a module removes exactly its own count and unfreezing restores it.", "quantifier": "every model and freeze/unfreeze history", "why_tests_cant": "The count has to follow every history of freezing and unfreezing at all levels of nesting.", "anchors": ["parametricmatrixmodels/model.py:get_num_trainable_floats", "parametricmatrixmodels/modules/basemodule.py:get_num_trainable_floats"]}
{"id": "C27", "title": "Every training sample is used exactly once per epoch", "statement": "In each epoch the batches fed to the optimiser, remainder batch included, contain every training sample exactly once.", "quantifier": "every data size, batch size and shuffle", "why_tests_cant": "It has to hold for all data sizes, batch sizes and permutations; a sample that is dropped in a remainder does not make a training test fail.", "anchors": ["parametricmatrixmodels/training.py:_train"]}
{"id": "C28", "title": "Frozen parameters never change", "statement": "Training never changes a parameter marked non-trainable, for any number of steps, and the optimiser state lines up with the trainable parameters only.", "quantifier": "every parameter list, flags, gradient history", "why_tests_cant": "Never is about arbitrarily many steps and arbitrary gradients.", "anchors": ["parametricmatrixmodels/training.py:_train_step"]}
{"id": "C29", "title": "The returned model is the best one seen", "statement": "Training returns the parameters, state and epoch of the first epoch attaining the smallest validation loss, that loss is reported, and it is never larger than any validation loss seen (NaN losses are never best).", "quantifier": "every sequence of validation losses", "why_tests_cant": "The loss history is arbitrary, with ties, NaN and infinities; a test sees one history.", "anchors": ["parametricmatrixmodels/training.py:_train"]}
{"id": "C30", "title": "Early stopping stops exactly on exhausted patience", "statement": "Training stops by patience exactly when the required number of consecutive epochs brought no improvement of at least min_delta; an improvement resets the counter.", "quantifier": "every loss history, patience, min_delta", "why_tests_cant": "Off-by-one errors of the patience show only for particular histories and patience values; the claim is about all of them.", "anchors": ["parametricmatrixmodels/training.py:_train"]}
{"id": "C31", "title": "Training ends within the epoch budget and on reaching the target", "statement": "Training runs at most the requested number of epochs, stops as soon as the best validation loss is at or below the target, and stops after a user interrupt request in verbose mode; one epoch is never started after a stop condition holds.", "quantifier": "every history", "why_tests_cant": "It is a bound on every run, whatever the losses are.", "anchors": ["parametricmatrixmodels/training.py:_train", "parametricmatrixmodels/training.py:GracefulKiller"]}
{"id": "C32", "title": "Adam step counter", "statement": "The Adam optimiser's step count advances the bias correction consistently between the real and the complex variant.", "quantifier": "every number of steps", "why_tests_cant": "The number of steps is unbounded, and the counter differs between variants only after particular numbers of batches.", "anchors": ["parametricmatrixmodels/training.py:adam", "parametricmatrixmodels/training.py:complex_adam"]}
{"id": "C33", "title": "Gradient clipping bounds and preserves small gradients", "statement": "Clipped updates never exceed the bound in magnitude and gradients within the bound are unchanged.", "quantifier": "every gradient and bound", "why_tests_cant": "The bound has to hold for all real and complex gradients and all limits, not for sampled values.", "anchors": ["parametricmatrixmodels/training.py:_train_step", "parametricmatrixmodels/training.py:adam", "parametricmatrixmodels/training.py:complex_adam"]}
{"id": "C34", "title": "Adam update is well-defined and bounded", "statement": "For nonnegative second-moment start, betas in [0,1) and positive epsilon the second moment stays nonnegative at every step so that the square root is defined, and moments are the exponential averages of the gradient history.", "quantifier": "every gradient history", "why_tests_cant": "The update after n steps depends on the whole gradient history; boundedness is a statement about all histories.", "anchors": ["parametricmatrixmodels/training.py:adam", "parametricmatrixmodels/training.py:complex_adam"]}
{"id": "C35", "title": "Training argument validation", "statement": "train raises for inconsistent arguments and only for those.", "quantifier": "every combination of arguments", "why_tests_cant": "There are exponentially many combinations of given and missing arguments, each with infinitely many trees and shapes.", "anchors": ["parametricmatrixmodels/training.py:train"]}
{"id": "C36", "title": "Loss functions are nonnegative and vanish on exact prediction", "statement": "Every built-in loss is nonnegative, is zero when predictions equal targets, and the uncertainty-weighted losses agree with the unweighted ones for unit uncertainty.", "quantifier": "every target and prediction", "why_tests_cant": "Non-negativity and vanishing are statements about all real and complex targets and predictions, including zeros in denominators.", "anchors": ["parametricmatrixmodels/training.py:make_loss_fn"]}
{"id": "C37", "title": "Validation loss is the mean over validation samples", "statement": "The validation loss used for model selection is the mean of the per-sample losses over the whole validation set.", "quantifier": "every validation set and batch size", "why_tests_cant": "It has to hold for every batch size, also when the last batch is smaller; with few sizes tested the weights of the remainder go unnoticed.", "anchors": ["parametricmatrixmodels/training.py:_train"]}
{"id": "C38", "title": "Module serialisation round trip", "statement": "Deserialising what a module serialised restores hyperparameters, parameters, state and trainable flag, and serialising again gives the same data; data of another module class or version is rejected.", "quantifier": "every module contents", "why_tests_cant": "The contents of modules are arbitrary trees of arrays, texts, numbers and None; a round trip test uses one of them.", "anchors": ["parametricmatrixmodels/modules/basemodule.py:serialize", "parametricmatrixmodels/modules/basemodule.py:deserialize"]}
{"id": "C39", "title": "Model serialisation round trip", "statement": "Deserialising what a model serialised restores the module tree with each module's data, the shapes, the random key and the readiness.", "quantifier": "every model", "why_tests_cant": "Models nest to any depth, and every level is written and read by recursion.", "anchors": ["parametricmatrixmodels/model.py:serialize", "parametricmatrixmodels/model.py:deserialize"]}
{"id": "C40", "title": "Every module's hyperparameters survive a save and load", "statement": "For each module class the hyperparameters written on save are those needed to rebuild an equivalent module on load.", "quantifier": "every hyperparameter setting of every module class", "why_tests_cant": "All settings of all classes are infinitely many; a setting that is not written is only missed if a test happens to change it from its default.", "anchors": ["parametricmatrixmodels/modules/concatenateleaves.py", "parametricmatrixmodels/modules/matmul.py", "parametricmatrixmodels/modules/lowrankaffinehermitianmatrix.py", "parametricmatrixmodels/modules/einsum.py", "parametricmatrixmodels/modules/bias.py", "parametricmatrixmodels/modules/reshape.py"]}
{"id": "C41", "title": "Optimiser state round trip", "statement": "Unpacking a packed optimiser state restores it.", "quantifier": "every state", "why_tests_cant": "The state is a tree of arbitrary shape and numbers.", "anchors": ["parametricmatrixmodels/training.py:OptimizerState"]}
{"id": "C42", "title": "Preprocessor round trips", "statement": "Saving and loading a fitted scaler restores it: it transforms every input as before.", "quantifier": "every scaler", "why_tests_cant": "Scalers hold arbitrary trees of arrays, which a file turns into arrays of its own; some trees do not survive.", "anchors": ["parametricmatrixmodels/preprocessing/standard_scaler.py", "parametricmatrixmodels/preprocessing/minmax_scaler.py", "parametricmatrixmodels/preprocessing/robust_scaler.py", "parametricmatrixmodels/preprocessing/mixed_scaler.py", "parametricmatrixmodels/preprocessing/onehot.py"]}
{"id": "C43", "title": "Standard scaler inverts and standardises", "statement": "inverse_transform(transform(x)) = x whenever no feature is constant; the fitted data has mean zero and variance one after transformation.", "quantifier": "every data set and input", "why_tests_cant": "Inversion is an identity over all real data, including constant features, where it divides by a spread.", "anchors": ["parametricmatrixmodels/preprocessing/standard_scaler.py"]}
{"id": "C44", "title": "Min-max scaler maps the fitted range onto the target range", "statement": "Transforming fitted data lands in [min,max], attains both ends, is monotone, and the inverse transform undoes it.", "quantifier": "every data set and range", "why_tests_cant": "The range is hit for all data and all target ranges, including features without spread.", "anchors": ["parametricmatrixmodels/preprocessing/minmax_scaler.py"]}
{"id": "C45", "title": "Robust scaler inverts", "statement": "inverse_transform(transform(x)) = x for every input, including features whose spread is below eps.", "quantifier": "every data set and settings", "why_tests_cant": "The result depends on quantiles of arbitrary data and on four switches.", "anchors": ["parametricmatrixmodels/preprocessing/robust_scaler.py"]}
{"id": "C46", "title": "Mixed scaler applies each scaler to its own leaf", "statement": "A mixed scaler transforms each leaf with its own scaler and leaves unscaled leaves unchanged; its inverse undoes it whenever each scaler's does.", "quantifier": "every tree of scalers and data", "why_tests_cant": "The trees of scalers and data are arbitrary, and the claim is that no scaler sees another one's leaf.", "anchors": ["parametricmatrixmodels/preprocessing/mixed_scaler.py"]}
{"id": "C47", "title": "One-hot encoding is faithful", "statement": "Every fitted row is encoded with exactly one 1, in a column that identifies its value, and decoding gives the row back; unseen rows encode to zeros.", "quantifier": "every data set", "why_tests_cant": "Faithfulness is injectivity on all data, with rows of several columns; the failing data is particular.", "anchors": ["parametricmatrixmodels/preprocessing/onehot.py"]}
{"id": "C48", "title": "Conformal quantile covers", "statement": "The computed quantile is at least as large as ceil((n+1)(1-alpha)) of the n calibration scores whenever that count is at most n, is monotone in the confidence level, and fails (rather than silently under-covering) otherwise.", "quantifier": "every score list and alpha", "why_tests_cant": "Coverage at a level is a statement about all lists of scores, with ties, and all levels, where rounding of the rank decides.", "anchors": ["parametricmatrixmodels/conformal/conformalizedmodel.py:get_qhat"]}
{"id": "C49", "title": "Cached quantiles equal recomputed ones", "statement": "For every history of calibrations and quantile requests, a returned quantile is the one of the current calibration scores, at the requested level, in the requested order.", "quantifier": "every history", "why_tests_cant": "It compares the cache with recomputation after every history of calls, recalibrations and reloads.", "anchors": ["parametricmatrixmodels/conformal/conformalizedmodel.py:get_qhat", "parametricmatrixmodels/conformal/conformalizedmodel.py:calibrate"]}
{"id": "C50", "title": "Prediction intervals are centred, ordered and nested", "statement": "The interval contains the prediction whenever the quantile and heuristic are nonnegative, its halves are equal, and a smaller alpha gives a wider interval.", "quantifier": "every prediction, heuristic, score list, alpha pair", "why_tests_cant": "Order and nesting of intervals are inequalities over all predictions, heuristics, scores and pairs of levels.", "anchors": ["parametricmatrixmodels/conformal/conformalizedmodel.py:__call__"]}
{"id": "C51", "title": "Conformal marginal coverage", "statement": "If the n calibration scores and the test score are exchangeable then the test target lies in the interval with probability at least 1-alpha.", "quantifier": "every exchangeable score distribution", "why_tests_cant": "It is a statement about probabilities over all exchangeable distributions; sampling gives evidence with error bars for one of them.", "anchors": ["parametricmatrixmodels/conformal/conformalizedmodel.py:get_qhat", "parametricmatrixmodels/conformal/conformalizedmodel.py:__call__"]}
{"id": "C52", "title": "Calibration uses each score once and residuals are consistent", "statement": "Calibration scores are |residual|/heuristic, nonnegative, one per calibration sample, so that inverting a score gives back the residual magnitude.", "quantifier": "every calibration set", "why_tests_cant": "It has to hold for all calibration sets and predictions.", "anchors": ["parametricmatrixmodels/conformal/conformalizedmodel.py:calibrate"]}
{"id": "C53", "title": "Stratified bias correction only affects known strata", "statement": "A sample whose stratum was seen in calibration is shifted by that stratum's median residual; an unseen one is unchanged.", "quantifier": "every sample and calibration set", "why_tests_cant": "It has to hold for every sample, whether its stratum was seen or not, and all calibration sets.", "anchors": ["parametricmatrixmodels/conformal/conformalizedmodel.py:calibrate", "parametricmatrixmodels/conformal/conformalizedmodel.py:__call__"]}
{"id": "C54", "title": "Affine Hermitian matrix is Hermitian and affine", "statement": "The produced matrix is Hermitian for any parameter matrices and real features, with or without smoothing, and is affine in the features; its trainable-float count is the size of the parameters.", "quantifier": "every size, parameters, features", "why_tests_cant": "Hermiticity and affinity are identities over all matrices, sizes and features.", "anchors": ["parametricmatrixmodels/modules/affinehermitianmatrix.py"]}
{"id": "C55", "title": "Exact smoothing matrix is the sum of commutators", "statement": "The smoothing matrix computed with a running sum equals i times the sum over i>j of the commutators [M_i,M_j], is Hermitian for Hermitian inputs and vanishes when they commute.", "quantifier": "every list of matrices", "why_tests_cant": "The number of matrices is unbounded and the identity is algebraic.", "anchors": ["parametricmatrixmodels/modules/_smoothing.py:exact_smoothing_matrix"]}
{"id": "C56", "title": "Low-rank affine matrices are Hermitian of bounded rank", "statement": "The low-rank construction yields Hermitian matrices whose rank is at most the requested rank per feature.", "quantifier": "every rank, size, vectors", "why_tests_cant": "The rank bound is about all vectors and sizes; a numerical rank is a matter of tolerance.", "anchors": ["parametricmatrixmodels/modules/lowrankaffinehermitianmatrix.py"]}
{"id": "C57", "title": "Expectation values are real and transition amplitudes bounded below", "statement": "Expectation values are real; transition amplitude sums without the norm shift are nonnegative; both are invariant under a global phase of the state vectors.", "quantifier": "every observable and state", "why_tests_cant": "Reality and bounds are statements about all complex matrices and states, where floating-point tests only see small imaginary parts.", "anchors": ["parametricmatrixmodels/modules/expectationvaluesum.py", "parametricmatrixmodels/modules/transitionamplitudesum.py"]}
{"id": "C58", "title": "Eigenvalue selection returns the right eigenpairs", "statement": "Selecting k of n eigenpairs by any of the modes returns exactly k distinct eigenpairs, each eigenvalue with its own vector, and they are the k smallest, largest, extreme or interior ones.", "quantifier": "every n, k<=n, mode, spectrum", "why_tests_cant": "All sizes, numbers of values, modes and spectra, with ties, matter; an index that is off by one shows only for some.", "anchors": ["parametricmatrixmodels/modules/eigen_util.py"]}
{"id": "C59", "title": "Reshape preserves every element and infers sizes", "statement": "A reshape keeps the number and order of elements of each sample; an inferred dimension is the unique one that fits, and incompatible shapes are rejected.", "quantifier": "every shape pair", "why_tests_cant": "There are infinitely many pairs of shapes, and the inferred size depends on divisibility.", "anchors": ["parametricmatrixmodels/modules/reshape.py"]}
{"id": "C60", "title": "Flatten and concatenate leaves keep all values in order", "statement": "Flattening gives one axis with the same elements; concatenating leaves keeps every value in the declared leaf order and the declared output size is the sum of the leaf sizes.", "quantifier": "every tree of shapes", "why_tests_cant": "The order of leaves has to be the same for all trees, whatever the insertion order of dictionaries.", "anchors": ["parametricmatrixmodels/modules/flatten.py", "parametricmatrixmodels/modules/concatenateleaves.py", "parametricmatrixmodels/modules/treeflatten.py"]}
{"id": "C61", "title": "Tree-key selection agrees between shapes and data", "statement": "Selecting by key path gives for shapes exactly the shape of what it gives for data.", "quantifier": "every tree and key path", "why_tests_cant": "Two separate implementations, for shapes and for data, have to agree on every tree and path.", "anchors": ["parametricmatrixmodels/modules/treekey.py"]}
{"id": "C62", "title": "Einsum subscripts are concretised consistently", "statement": "The concrete einsum string has one subscript per operand, the batch index is fresh, every index has a single size, and declared output shape matches.", "quantifier": "every subscript string and shapes", "why_tests_cant": "The code rewrites strings with ellipses and repeated letters; the claim is about all strings and shapes.", "anchors": ["parametricmatrixmodels/modules/einsum.py"]}
{"id": "C63", "title": "Matmul plan contracts adjacent factors", "statement": "The matmul plan contracts the last axis of each factor with the first axis of the next, keeps the batch index, and its result is the product of the factors.", "quantifier": "every operand list", "why_tests_cant": "The number of factors and their order are arbitrary.", "anchors": ["parametricmatrixmodels/modules/matmul.py"]}
{"id": "C64", "title": "Bias adds componentwise and activations keep shape", "statement": "Bias adds the same vector to every sample and only changes values; activations keep shape and structure.", "quantifier": "every data", "why_tests_cant": "It has to hold for all data trees, shapes and values.", "anchors": ["parametricmatrixmodels/modules/bias.py", "parametricmatrixmodels/modules/activationbase.py"]}
{"id": "C65", "title": "Path strings round trip", "statement": "Joining path components with the separator and splitting again gives the components back whenever no component contains the separator and the list is nonempty.", "quantifier": "every component list", "why_tests_cant": "It is about all strings, including components that contain the separator or are empty.", "anchors": ["parametricmatrixmodels/tree_util.py:getitem_by_strpath", "parametricmatrixmodels/graph_util.py:concretize_paths"]}
{"id": "C66", "title": "Progress bar never runs backwards or overflows", "statement": "The progress bar's filled length never decreases within a run and never exceeds the bar. The time that it shows is the time since the first update times what is left over what is done, and at the end the time since the first update, in a full bar that covers all lines before. A bar that is asked for starts anew, whatever was shown before.", "quantifier": "every update sequence", "why_tests_cant": "Monotonicity is a statement about all sequences of updates.", "anchors": ["parametricmatrixmodels/progressbar.py"]}
{"id": "C67", "title": "Tree arithmetic is leafwise", "statement": "Tree addition, subtraction, multiplication and division act leaf by leaf, keep the structure, and the tree mean is the sum of all elements over the number of elements.", "quantifier": "every tree pair", "why_tests_cant": "Leafwise behaviour has to hold for all pairs of trees and all broadcastings of shapes.", "anchors": ["parametricmatrixmodels/tree_util.py:add", "parametricmatrixmodels/tree_util.py:mean"]}
{"id": "C68", "title": "Setting the random key is deterministic", "statement": "Setting the same integer seed twice yields the same key; passing a key stores it.", "quantifier": "every seed", "why_tests_cant": "All seeds and keys, and the histories between two settings, are meant.", "anchors": ["parametricmatrixmodels/model.py:set_rng"]}
{"id": "C69", "title": "A constant module ignores the data", "statement": "Constant returns, for every sample, the same constant, whatever the data contains; the number of samples is that of the first array of the data, the structure and the declared shape are those of the constant, and data without arrays is refused.", "quantifier": "every tree of constants and every tree of data", "why_tests_cant": "That the data has no influence is a statement about pairs of arbitrary data.", "anchors": ["parametricmatrixmodels/modules/constant.py:const_callable"]}
{"id": "C70", "title": "An affine tensor is M0 + sum x_i M_i", "statement": "AffineTensor returns for every sample x the tensor M0 + sum_i x_i M_i (without M0 if there is no bias term), keeps the structure of the data, has the declared shape, and refuses data that is not a single vector per sample or has a number of features that does not fit the given tensors.", "quantifier": "every number of features, tensor shape, batch and structure with one leaf", "why_tests_cant": "The formula is an identity over all numbers of features, tensor shapes and values.", "anchors": ["parametricmatrixmodels/modules/affinetensor.py:_get_callable"]}
{"id": "C71", "title": "Gradients are per-sample derivatives for every way of batching", "statement": "grad_input returns at sample i the derivative, at that sample, of the map that puts a value in the place of sample i and reads row i of the output, whatever the batch size options; samples do not influence each other's gradients. grad_params with any batching gives the derivative of each sample's output with respect to the parameters.", "quantifier": "every stateless model that treats samples independently, every derivative operator, data and batch options", "why_tests_cant": "Derivatives are compared for all models, derivative operators and ways to batch; finite differences in a test see one.", "anchors": ["parametricmatrixmodels/model.py:grad_input", "parametricmatrixmodels/model.py:grad_params"]}
{"id": "C72", "title": "Cached compiled calls and gradients give the values of uncached ones", "statement": "For every history of calls, gradient calls, edits, parameter, state and key changes, a call or gradient through the caches returns what a fresh evaluation of the current modules, parameters, state and key returns.", "quantifier": "every history of operations, every evaluation function", "why_tests_cant": "A stale cache shows only after particular histories of calls, edits and changes; the claim is about all of them.", "anchors": ["parametricmatrixmodels/model.py:__call__", "parametricmatrixmodels/model.py:grad_input"]}
{"id": "C73", "title": "set_precision casts every array or refuses", "statement": "set_precision succeeds exactly for a documented option that the backend supports and modules that are ready at every depth; then every parameter and state array at every depth has the precision, complex arrays stay complex and nothing else changes. It is idempotent, a round trip through 64 bits is lossless, and a refused option changes nothing.", "quantifier": "every model of any nesting depth, option, backend setting", "why_tests_cant": "The claim is about every array at every depth of nested models, and that a refusal changes nothing.", "anchors": ["parametricmatrixmodels/model.py:set_precision", "parametricmatrixmodels/modules/basemodule.py:set_precision"]}
{"id": "C74", "title": "safecast never drops imaginary parts and warns exactly when it cannot cast", "statement": "Casting data succeeds exactly if the requested type is complex or no leaf is complex; the structure stays, every leaf has the type the backend uses for the request, and there is a warning exactly if that is another type. astype casts whatever it is given, keeps structure and order, and warns exactly for the data that safecast refuses.", "quantifier": "every tree of arrays, type, backend setting", "why_tests_cant": "Exactly when is an equivalence over all trees, types and settings of the backend.", "anchors": ["parametricmatrixmodels/tree_util.py:safecast", "parametricmatrixmodels/tree_util.py:astype"]}
{"id": "C75", "title": "Affine eigenvalue PMM predicts selected eigenvalues of one Hermitian affine matrix, sample by sample", "statement": "The output for a sample is the selected eigenvalues of the Hermitian matrix built from the stored matrices and that sample only; it does not change under a unitary change of basis of all stored matrices; the lowest eigenvalue is concave and the highest convex in the inputs, and each is Lipschitz; the declared output shape is the computed one.", "quantifier": "every matrix size, number of features, batch, eigensolver returning sorted eigenvalues, and selection", "why_tests_cant": "Invariance under unitaries, concavity and Lipschitz bounds are statements about all matrices and inputs.", "anchors": ["parametricmatrixmodels/modules/affineeigenvaluepmm.py:AffineEigenvaluePMM", "parametricmatrixmodels/modules/affinehermitianmatrix.py:AffineHermitianMatrix", "parametricmatrixmodels/modules/eigenvalues.py:Eigenvalues"]}
{"id": "C76", "title": "Affine observable PMM reads observables out of the selected eigenvectors and depends on neither basis nor eigensolver", "statement": "The output for a sample is the sum of squared matrix elements of the stored observables between the selected eigenvectors of the Hermitian matrix of that sample; for eigenvalues separated from the rest it does not change under a unitary change of basis nor with the eigensolver; an output bias is added as given.", "quantifier": "every matrix size, number of observables, batch, eigensolver returning an orthonormal eigensystem, and selection", "why_tests_cant": "Independence of basis and eigensolver quantifies over all unitaries and all solvers, of which a test has one.", "anchors": ["parametricmatrixmodels/modules/affineobservablepmm.py:AffineObservablePMM", "parametricmatrixmodels/modules/transitionamplitudesum.py:TransitionAmplitudeSum", "parametricmatrixmodels/modules/expectationvaluesum.py:ExpectationValueSum", "parametricmatrixmodels/modules/eigenvectors.py:Eigenvectors"]}
{"id": "C77", "title": "A prebuilt model compiles to what its hyperparameters say, and compiling again keeps trained parameters", "statement": "A LinearNN compiled for an input with a single array computes act(W x + b) on every flattened sample, for whatever values its parameters have, with the declared output shape; compiling a prebuilt model again for the same input shape keeps its parameters; hyperparameters set before compiling take effect; an eigenvalue model accepts given matrices exactly if their number fits; a loaded LinearNN knows its activation.", "quantifier": "every input shape, batch, number of features, parameter values, commutative semiring of numbers", "why_tests_cant": "All shapes, parameter values and histories of compilations are meant.", "anchors": ["parametricmatrixmodels/modules/linearnn.py:LinearNN", "parametricmatrixmodels/modules/affineeigenvaluepmm.py:AffineEigenvaluePMM", "parametricmatrixmodels/modules/affineobservablepmm.py:AffineObservablePMM", "parametricmatrixmodels/sequentialmodel.py:SequentialModel.compile"]}
{"id": "C78", "title": "A function module declares the shape its function returns", "statement": "A module defined by a function of the batch can be compiled for the shapes of a batch exactly if the function returns for such batches, its declared output shape is the shape of the samples it then returns for batches of any size, and the state is passed on unchanged.", "quantifier": "every function, data tree, shape, batch size", "why_tests_cant": "The function is arbitrary, and so are trees, shapes and batch sizes; that the declared shape holds for all batch sizes cannot be seen from one.", "anchors": ["parametricmatrixmodels/modules/funcbase.py:FuncBase.get_output_shape", "parametricmatrixmodels/modules/funcbase.py:FuncBase.compile", "parametricmatrixmodels/modules/funcbase.py:FuncBase._get_callable", "parametricmatrixmodels/tree_util.py:get_shapes"]}
{"id": "C79", "title": "Sensitivities are divided by a positive robust spread of the calibration samples", "statement": "The factor by which each sensitivity is divided is, component by component, the first of the spreads (median absolute deviation, interquartile range, standard spread, range) that is large enough for every component; a factor is never zero or below the floor, it does not depend on the order of the calibration samples, and for components that are all constant the sensitivity is switched off. Measurement uncertainties weigh the samples.", "quantifier": "every number of samples, component shape and values", "why_tests_cant": "Which spread is chosen depends on thresholds for all components at once, on arbitrary samples.", "anchors": ["parametricmatrixmodels/conformal/conformalizedmodel.py:pytree_robust_normalization", "parametricmatrixmodels/conformal/conformalizedmodel.py:robust_normalization", "parametricmatrixmodels/conformal/conformalizedmodel.py:weighted_quantile"]}
{"id": "C80", "title": "Parameter and input sensitivities are mean squares of scaled derivatives", "statement": "The parameter sensitivity of an output entry of a sample is the mean over all entries of the selected parameters of the square of derivative times parameter, counting derivatives that are not finite as zero; the input sensitivity is the same with the interquartile range of each selected continuous feature of the training data. Both are trees like the outputs with one axis for the samples, are not negative, and do not depend on parameters that are not selected. Uncertainties of the inputs of a sample add their own term for that sample.", "quantifier": "every tree of outputs, parameters and features, array shapes, number of samples, gradients over the real or complex numbers", "why_tests_cant": "The formula is an identity over all trees, shapes and derivatives; independence of unselected parameters compares arbitrary pairs.", "anchors": ["parametricmatrixmodels/conformal/conformalizedmodel.py:ConformalizedModel.parameter_sensitivity", "parametricmatrixmodels/conformal/conformalizedmodel.py:ConformalizedModel.input_sensitivity", "parametricmatrixmodels/conformal/conformalizedmodel.py:accumulate_sum_sq_over_output_leaves"]}
{"id": "C81", "title": "The distance sensitivity is a Gower distance to the training data", "statement": "The distance sensitivity of a sample is a number: the mean of the Gower distances to the distinct training samples within the cutoff, or the Gower distance to the nearest training sample if none lies within it. The Gower distance is the mean over the selected components of the difference relative to the range of the training data, and 0 or 1 for categories. It lies between 0 and 1 for samples within the ranges of the training data, does not depend on the order or repetition of training samples, and the cutoff is the chosen quantile of the distances of the distinct training samples to their nearest neighbours.", "quantifier": "every tree of features, array shapes, numbers of samples and training samples, cutoff and quantile", "why_tests_cant": "Bounds and independence of order and repetition are statements about all data sets.", "anchors": ["parametricmatrixmodels/conformal/conformalizedmodel.py:ConformalizedModel.distance_sensitivity", "parametricmatrixmodels/conformal/conformalizedmodel.py:ConformalizedModel._prepare_data_for_kdtree", "parametricmatrixmodels/conformal/conformalizedmodel.py:ConformalizedModel.calibrate"]}
{"id": "C82", "title": "The uncertainty heuristic is the sum of the used normalised sensitivities", "statement": "The heuristic has the structure and shape of the outputs with one axis for the samples. Each entry is the sum of the normalised parameter and input sensitivities of that entry and the normalised distance of its sample, as far as each is used; it is not negative, and it is positive so that scores are finite.", "quantifier": "every tree of outputs of any shapes, number of samples, sensitivities and normalisations, every choice of used sensitivities", "why_tests_cant": "The sum is over whichever sensitivities are used, for all trees and shapes; positivity is about all values.", "anchors": ["parametricmatrixmodels/conformal/conformalizedmodel.py:ConformalizedModel.uncertainty_heuristic"]}
{"id": "C83", "title": "A saved conformalized model is loaded with its calibration", "statement": "A conformalized model that is new or whose last calibration succeeded, whatever happened before, can be saved and loaded, and the loaded one has the same wrapped model, calibration data, scores, normalisations, strata, selections, name and quantiles, and the same nearest-neighbour tree wherever it is used. Saving it again gives the same file. Original and loaded model are independent: calibrating or querying one never changes the answers of the other. Data of another package version are refused only on demand. The file is found under the name given to save. Saving after a failed calibration gives a file that can be loaded to the same state.", "quantifier": "every wrapper, history of calibrations that succeed or fail at any step, sequence of later uses, name, version", "why_tests_cant": "A history may fail at any step of any calibration, and independence of original and copy is about all later uses.", "anchors": ["parametricmatrixmodels/conformal/conformalizedmodel.py:serialize", "parametricmatrixmodels/conformal/conformalizedmodel.py:deserialize", "parametricmatrixmodels/conformal/conformalizedmodel.py:save", "parametricmatrixmodels/conformal/conformalizedmodel.py:from_file", "parametricmatrixmodels/conformal/conformalizedmodel.py:calibrate", "parametricmatrixmodels/conformal/conformalizedmodel.py:name"]}
{"id": "C84", "title": "Parameters and states that were set are those that are read, module by module", "statement": "set_params and set_state of a model, with models nested to any depth, give every module exactly the part of the values that sits where the module sits, and change nothing else. The call succeeds exactly if there is a part for every module and every module accepts its part; values without a part for some module are refused before anything changes. Parameters that were set are then read, setting what was read changes nothing, and a refused call leaves the model as it was.", "quantifier": "every tree of modules of any nesting depth, values, module setters, stores of objects", "why_tests_cant": "Modules nest to any depth and may share objects; that a refused call changes nothing is about all places where it may be refused.", "anchors": ["parametricmatrixmodels/model.py:get_params", "parametricmatrixmodels/model.py:set_params", "parametricmatrixmodels/model.py:get_state", "parametricmatrixmodels/model.py:set_state", "parametricmatrixmodels/modules/basemodule.py:BaseModule.set_state"]}
{"id": "C85", "title": "Training a model changes what it should", "statement": "Training a model of any nesting leaves the parameters at their places, and a module that is frozen keeps its parameters, for any data, number of epochs and optimiser. After training the model holds the best parameters that were found, with the state and the optimiser states that belong to them, so that the mean validation loss is not larger than before; objects outside the model are untouched and nothing is frozen or unfrozen. Freezing a model freezes all its modules and nothing else. Resuming continues with the parameters that the model has, and is refused if there is nothing to resume.", "quantifier": "every tree of modules and models, stores of objects, data, optimiser, number of epochs, resume or not", "why_tests_cant": "The run is arbitrary: data, losses, numbers of epochs, gradients; the claim includes everything that must not change.", "anchors": ["parametricmatrixmodels/model.py:train", "parametricmatrixmodels/model.py:get_trainable_modules", "parametricmatrixmodels/model.py:trainable", "parametricmatrixmodels/training.py:train"]}
{"id": "C86", "title": "Loss functions are called with the data that was given", "statement": "A loss function given to training is called on every batch with the epoch, the features, the targets and uncertainties if they were given, and the predictions of the model, and the state of the model is passed on. A loss given by name is evaluated if it needs exactly the data that was given, and refused otherwise. Without a validation loss the training loss is used for validation, on the validation data if there is any and on the training data otherwise; a validation loss is called in the same way. Uncertainties without targets are refused.", "quantifier": "every loss function or name, validation loss or none, combination of given data, batch, parameters, state, key", "why_tests_cant": "The function is arbitrary, and the combinations of given data, validation data and losses have to be called consistently on every batch.", "anchors": ["parametricmatrixmodels/model.py:train", "parametricmatrixmodels/training.py:train", "parametricmatrixmodels/training.py:make_loss_fn"]}
{"id": "C87", "title": "Rectifiers with learned slopes and constants keep what they are given and declare what they return", "statement": "A PReLU that is ready, whatever compile and set_params calls led to it, can be called on every batch of the shape it was compiled for, multiplies negative entries by the slope that belongs to them and keeps shape and structure; compile of one that is not ready makes it ready; set_params on a compiled one accepts exactly slopes that fit and keeps what is refused out. A Constant that is ready returns arrays of its declared shape however it was made, compiled, frozen and trained; a random one gets the requested shapes and reality at every place; a given one is kept by compile.", "quantifier": "every history of operations, tree of shapes, slopes, constants and data", "why_tests_cant": "The claim is about all histories of compile and set_params, all trees of shapes and all values.", "anchors": ["parametricmatrixmodels/modules/prelu.py", "parametricmatrixmodels/modules/constant.py"]}
{"id": "C88", "title": "An observable model compiles exactly when its arguments fit together, to what they say", "statement": "For an input shape it was not compiled for last, AffineObservablePMM compiles exactly if the input is a single vector per sample and the arguments are consistent: given matrices are Hermitian and fit the number of features, the matrix size and each other, the number of eigenvectors is positive and not larger than the size, and what is not given can be read off what is. It then has the given matrices, missing ones with the right shapes, a bias exactly if asked for, and declares one vector of the outputs; compiling again for the same shape keeps whatever values the parameters have.", "quantifier": "every combination of arguments, input tree and earlier history", "why_tests_cant": "Eight optional arguments have to fit together; the equivalence is about all combinations and all earlier histories.", "anchors": ["parametricmatrixmodels/modules/affineobservablepmm.py:compile", "parametricmatrixmodels/modules/affineobservablepmm.py:get_output_shape", "parametricmatrixmodels/modules/affinehermitianmatrix.py", "parametricmatrixmodels/modules/eigenvectors.py", "parametricmatrixmodels/modules/expectationvaluesum.py", "parametricmatrixmodels/modules/transitionamplitudesum.py", "parametricmatrixmodels/modules/bias.py"]}
{"id": "C89", "title": "A layer that is compiled again computes with what it then has", "statement": "Whatever compilations, calls and changes of parameters came before, a call of a LinearNN returns what its present modules compute with its present parameters, although the function the model keeps was built at the first call. It takes exactly the data whose containers and sample shapes are those it was compiled for last; other data raises a ValueError and changes nothing.", "quantifier": "every history of compile, call, set_params and hyperparameter changes", "why_tests_cant": "The kept function goes stale only after particular sequences of compile, call and changes; the claim is about all histories.", "anchors": ["parametricmatrixmodels/model.py:__call__", "parametricmatrixmodels/modules/linearnn.py:compile", "parametricmatrixmodels/sequentialmodel.py:_get_callable"]}
{"id": "C90", "title": "Trees are compared by structure and content", "statement": "all_equal tells whether two trees have the same containers and the same leaf at every place, whatever the order of dictionary entries; it is symmetric and, without NaN, reflexive. A compiled model takes a batch exactly if its containers and the shapes of its samples are those that it was compiled for, whatever the number of samples, and raises a ValueError otherwise. all_close is the same with entries that are close.", "quantifier": "every pair of trees of any depth, arrays of any shape, other leaves, every comparison of numbers", "why_tests_cant": "The statement is about all trees and shapes; a test compares a few pairs and cannot show that no other pair is confused.", "anchors": ["parametricmatrixmodels/tree_util.py:all_equal", "parametricmatrixmodels/tree_util.py:all_close", "parametricmatrixmodels/tree_util.py:get_shapes", "parametricmatrixmodels/model.py:_verify_input"]}
{"id": "C91", "title": "Calibration takes exactly the data that fits the model", "statement": "calibrate goes on exactly if features, targets, training features and uncertainties have the containers and sample shapes of the model and of each other, the numbers of samples agree, the flags for continuous features, stratification and sensitivities have the right containers, and no continuous feature is used for stratification. It then uses the given flags at their places, where a single flag stands for all.", "quantifier": "every model shape, combination of given and missing arguments, trees of data and flags", "why_tests_cant": "There are exponentially many combinations of optional arguments, and for each of them infinitely many trees and shapes.", "anchors": ["parametricmatrixmodels/conformal/conformalizedmodel.py:calibrate", "parametricmatrixmodels/tree_util.py:uniform_leaf_shapes_equal", "parametricmatrixmodels/tree_util.py:shapes_equal", "parametricmatrixmodels/tree_util.py:is_shape_leaf"]}
{"id": "C92", "title": "Interrupting a training ends it after the epoch and keeps the best model", "statement": "A verbose training that receives SIGINT or SIGTERM completes the epoch it is in, begins no further one and returns the best model of the epochs made, exactly as if only those had been asked for. A second signal ends it at once. Before and after, signals work as usual, and an interrupted training does not affect the next one. A training that is not verbose is interrupted as any other program.", "quantifier": "every training, every number and time of signals, every earlier history of the process", "why_tests_cant": "Signals can arrive at any time and in any number, and the handlers outlive the training; a test sends one signal at one time.", "anchors": ["parametricmatrixmodels/training.py:GracefulKiller", "parametricmatrixmodels/training.py:_train"]}
{"id": "C93", "title": "Every sample is predicted on its own", "statement": "What a model predicts for a sample depends on that sample only: selecting samples from the data - any of them, in any order, with repetitions - and predicting gives the same selection of the predictions for all data, and fails if predicting all data fails. This holds for every module of the library and for every model with modules in sequence or with connections, nested to any depth, whose modules have the property.", "quantifier": "every model, parameters, states, data tree, number of samples and selection of samples", "why_tests_cant": "a test compares predictions for some selections of some data; that no selection of any data changes a prediction is a statement about all of them, and about all ways to put modules together", "anchors": ["parametricmatrixmodels/model.py:__call__", "parametricmatrixmodels/sequentialmodel.py:_get_callable", "parametricmatrixmodels/nonsequentialmodel.py:_get_callable", "parametricmatrixmodels/modules/bias.py", "parametricmatrixmodels/modules/reshape.py", "parametricmatrixmodels/modules/einsum.py", "parametricmatrixmodels/modules/affinetensor.py", "parametricmatrixmodels/modules/concatenateleaves.py", "parametricmatrixmodels/modules/affinehermitianmatrix.py", "parametricmatrixmodels/modules/eigenvalues.py"]}
{"id": "C94", "title": "A model can be used as a module of another model", "statement": "Models can be nested to any depth. Grouping the modules of a sequential model into sequential models that are modules of an outer one changes neither the result nor the new states nor the exceptions, as long as no module draws random numbers, and the announced output shape is the same. A property of modules that models inherit - each sample is predicted on its own, the batch size does not matter, the state is left alone - is inherited through any depth of nesting.", "quantifier": "every depth, every tree of modules at every level, parameters, states and data that fit", "why_tests_cant": "tests nest one model in another once; depth and shape of the nesting are unbounded", "anchors": ["parametricmatrixmodels/model.py:48", "parametricmatrixmodels/sequentialmodel.py:255-334", "parametricmatrixmodels/nonsequentialmodel.py:737-925", "parametricmatrixmodels/sequentialmodel.py:157-189"]}
{"id": "C95", "title": "A prebuilt model is saved and loaded with its hyperparameters", "statement": "serialize followed by deserialize, and save followed by load, of LinearNN, AffineEigenvaluePMM and AffineObservablePMM give an object of the same class with the same hyperparameters, activation, modules, parameters, state, shapes, name and random key; incomplete data is refused with a KeyError instead of being read in part.", "quantifier": "every prebuilt model, every combination of hyperparameters, compiled or not, every package version", "why_tests_cant": "tests save one network with default arguments", "anchors": ["parametricmatrixmodels/modules/linearnn.py:142-212", "parametricmatrixmodels/modules/affineeigenvaluepmm.py:198-216", "parametricmatrixmodels/modules/affineobservablepmm.py:318-346", "parametricmatrixmodels/model.py:1580-1825"]}
{"id": "C96", "title": "The printed form of a model shows its modules", "statement": "repr of a model shows, apart from indentation, every module of the tree in order with its key and its brackets, nothing left out and nothing added; different trees are printed differently; a NonSequentialModel also shows every connection once; the line of a module tells whether it is ready and how many trainable floats it has. Each level of nesting is indented by the given number of spaces, and no line of a leaf is longer than the given limit.", "quantifier": "every tree of modules, nested models, every text of a module, every indentation and limit", "why_tests_cant": "tests look at the text of one or two models", "anchors": ["parametricmatrixmodels/tree_util.py:1345-1508", "parametricmatrixmodels/model.py:73-83", "parametricmatrixmodels/nonsequentialmodel.py:273-290", "parametricmatrixmodels/modules/basemodule.py:175-201"]}
{"id": "C97", "title": "A model that is not ready says why", "statement": "Whatever was done to a model, if a call, a gradient or a change of precision is refused because the model is not ready, the message gives a reason that is true, never an unknown one: there are no modules, or it lists exactly the modules that are not ready, or a shape is missing. Conversely a call is refused in this way only if there is such a reason, and the modules in the message are modules that have to become ready.", "quantifier": "every tree of modules, every history of edits, resets, compilations and calls", "why_tests_cant": "the message is produced from the state, separately from the check that refuses; that the two agree in every state is not visible in some states", "anchors": ["parametricmatrixmodels/model.py:_get_unready_reason", "parametricmatrixmodels/model.py:_get_all_unready_modules", "parametricmatrixmodels/model.py:is_ready", "parametricmatrixmodels/nonsequentialmodel.py:is_ready"]}
{"id": "C98", "title": "Random numbers are not used twice", "statement": "Every array of initial parameters anywhere in a model, and the real and the imaginary part of an array, is drawn with a key of its own: no two share a key, and no key is made from another one that is used. The same holds for the keys handed to the modules of a sequential model in a call, for the keys of the steps of a training run, and for the keys with which training and validation data are shuffled in the epochs.", "quantifier": "every nesting of models, every tree of modules and input shape, every number of epochs and batches", "why_tests_cant": "two arrays drawn with related keys look random one by one; no test of the values of one module shows that they are correlated", "anchors": ["parametricmatrixmodels/sequentialmodel.py:compile", "parametricmatrixmodels/nonsequentialmodel.py:compile", "parametricmatrixmodels/sequentialmodel.py:_get_callable", "parametricmatrixmodels/nonsequentialmodel.py:_get_callable", "parametricmatrixmodels/modules/bias.py:compile", "parametricmatrixmodels/modules/einsum.py:compile", "parametricmatrixmodels/modules/lowrankaffinehermitianmatrix.py:compile", "parametricmatrixmodels/training.py:_train"]}
{"id": "C99", "title": "A class of modules that can be defined can be constructed, and checks its arguments", "statement": "Defining a concrete class of modules succeeds exactly if the class has a version that is one and can be constructed without arguments, which loading needs; a refusal names one of these reasons. Defining it makes every method that the class defines check the types of its arguments and changes nothing else about the class.", "quantifier": "every class, every chain of ancestors, every signature of the constructor", "why_tests_cant": "signatures and class hierarchies of users are not in the test suite", "anchors": ["parametricmatrixmodels/modules/basemodule.py:__init_subclass__"]}
{"id": "C100", "title": "Training longer never gives a worse model, and a training can be continued", "statement": "From the same start, a training with more epochs does the same epochs first and returns a model that is not worse; if the shorter one was ended by something else than the number of epochs, both are the same. A training whose last epoch was its best can be resumed: the second part goes through the models that one uninterrupted training goes through.", "quantifier": "every data set, optimiser, model, number of epochs and way of ending, losses that use neither epoch nor random numbers for resuming", "why_tests_cant": "the claim compares runs of any length; an optimiser counter that lags behind by one shows only in the numbers after a resume", "anchors": ["parametricmatrixmodels/training.py:_train", "parametricmatrixmodels/training.py:train", "parametricmatrixmodels/training.py:adam", "parametricmatrixmodels/training.py:complex_adam"]}
{"id": "C101", "title": "A compiled module with matrices can be called, whatever else is done with it", "statement": "If AffineHermitianMatrix, LowRankAffineHermitianMatrix, AffineTensor, ExpectationValueSum or TransitionAmplitudeSum compiled for the shape of some data, then a call on a batch of such data succeeds and returns arrays of the announced shape. This stays so after any further calls of compile, set_params and set_hyperparameters, successful or not. Constructors and compile accept exactly the consistent arguments: a size is positive, given matrices have its shape, and the number of matrices is the number of features (one more with a bias term).", "quantifier": "every constructor call, every history of calls before and after compiling, every shape", "why_tests_cant": "histories are unbounded, and the setters accept values before compiling that no call accepts", "anchors": ["parametricmatrixmodels/modules/affinehermitianmatrix.py:compile", "parametricmatrixmodels/modules/lowrankaffinehermitianmatrix.py:set_params", "parametricmatrixmodels/modules/affinetensor.py:compile", "parametricmatrixmodels/modules/expectationvaluesum.py:set_params", "parametricmatrixmodels/modules/transitionamplitudesum.py:set_params"]}
{"id": "C102", "title": "The name of a module tells what it is", "statement": "The name under which a module is printed tells its class and hyperparameters: two modules of the library with the same name are of the same class with the same sizes, shapes, selection of eigenvalues, axes, orders, and flags for bias, real numbers and training.", "quantifier": "every module class of the library, all values of the hyperparameters", "why_tests_cant": "names are compared by eye; no test compares the names of all pairs of modules", "anchors": ["parametricmatrixmodels/modules/affinehermitianmatrix.py:name", "parametricmatrixmodels/modules/lowrankaffinehermitianmatrix.py:name", "parametricmatrixmodels/modules/affinetensor.py:name", "parametricmatrixmodels/modules/eigensystem.py:name", "parametricmatrixmodels/modules/eigenvalues.py:name", "parametricmatrixmodels/modules/concatenateleaves.py:name", "parametricmatrixmodels/modules/constant.py:name", "parametricmatrixmodels/modules/expectationvaluesum.py:name", "parametricmatrixmodels/modules/matmul.py:name"]}
{"id": "C103", "title": "Graph models do not depend on names and order", "statement": "Two graph models whose connected modules correspond to each other one to one, with the same connections between corresponding modules and the same modules, parameters and states, return the same output up to the order of dictionaries and the same new states, whatever the modules are called, wherever they are in the tree of modules, and in whichever order modules and connections are written.", "quantifier": "every pair of trees of modules and of connections, every correspondence between them, all inputs that are equal up to the order of dictionaries, all modules that do not depend on the order of dictionaries", "why_tests_cant": "tests run a model under one set of names and in one order; a defect in sorting or in matching names shows only in a comparison", "anchors": ["parametricmatrixmodels/nonsequentialmodel.py:_get_callable", "parametricmatrixmodels/nonsequentialmodel.py:get_execution_order", "parametricmatrixmodels/graph_util.py:resolve_connections", "parametricmatrixmodels/graph_util.py:get_outer_connections_by_tree", "parametricmatrixmodels/tree_util.py:extend_structure_from_strpaths"]}
{"id": "C104", "title": "Training in one batch does not depend on the order of the samples", "statement": "If the batches are as large as the data, a training does not depend on the order in which training and validation samples are given, on the seed for the batches, or on how much larger the batches are: it takes the same number of epochs and ends with the same models and losses. This holds for the built-in losses and models that predict sample by sample.", "quantifier": "all data, orders, seeds, batch sizes not smaller than the data, numbers of epochs, optimisers, callbacks that do not draw random numbers; exact arithmetic", "why_tests_cant": "a test compares two seeds on one data set; that features, targets and uncertainties stay together and nothing is dropped in the remainder needs all sizes", "anchors": ["parametricmatrixmodels/training.py:_train", "parametricmatrixmodels/training.py:_train_step", "parametricmatrixmodels/training.py:make_loss_fn", "parametricmatrixmodels/tree_util.py:random_permute_leaves", "parametricmatrixmodels/tree_util.py:batch_leaves"]}
{"id": "C105", "title": "Showing the progress does not change a training, and what is shown is right", "statement": "A training with verbose output, if it is not interrupted, ends as the same training without it. What it shows: for each epoch its number, for each full batch the losses known so far and a bar that is filled by the part of the batches done, at the end of the epoch its loss and the best loss so far; then the number of epochs, the best epoch under the number it was shown with, and the best loss.", "quantifier": "all configurations, data, numbers of epochs and batches, readings of the clock", "why_tests_cant": "whether the callbacks disturb the epoch counter, the losses or the batches depends on the whole run; a test of the text looks at a few lines", "anchors": ["parametricmatrixmodels/training.py:_train", "parametricmatrixmodels/progressbar.py:ProgressBar.start", "parametricmatrixmodels/progressbar.py:ProgressBar.update", "parametricmatrixmodels/progressbar.py:ProgressBar.end"]}
{"id": "C106", "title": "Reading and writing the modules of a model by key", "statement": "model[path] is what the path leads to, with negative indices counted from the end; it raises exactly if some key on the way refers to nothing, KeyError for names, IndexError for numbers out of range, TypeError for a key of the wrong kind (KeyError if it is the only key). model[path] = v succeeds exactly if the last step is a name in a dictionary or an index in range of a list, and leaves everything another path leads to as it was. A slice reads, or replaces by any number of modules, exactly the entries from its first to before its last bound.", "quantifier": "all trees of modules, paths, indices, slices without step", "why_tests_cant": "tests try a few keys; that nothing else changes and which exception comes from which key needs all trees and paths", "anchors": ["parametricmatrixmodels/model.py:Model.__getitem__", "parametricmatrixmodels/model.py:Model.__setitem__"]}
{"id": "C107", "title": "A learning rate schedule is followed epoch by epoch", "statement": "If the learning rate is a function of the epoch, every epoch of a training is an epoch with the fixed learning rate of its number, and a training that is resumed goes on with the rate where it stopped; rates for epochs that are not asked for do not matter. A number means the same as a constant function.", "quantifier": "all configurations, data, schedules, numbers of epochs and batches, parameters trained before; the real and the complex optimiser", "why_tests_cant": "the rate a batch gets depends on the counters of all parameters after all earlier batches; a test with a constant rate or one batch per epoch cannot see it", "anchors": ["parametricmatrixmodels/training.py:make_schedule", "parametricmatrixmodels/training.py:adam", "parametricmatrixmodels/training.py:complex_adam", "parametricmatrixmodels/training.py:_train"]}
{"id": "C108", "title": "A saved and loaded model predicts what the original did", "statement": "A model that is saved and loaded answers every call as the original does: the same output and the same new state, or the same error; and it can be saved and loaded again any number of times.", "quantifier": "all models of library modules that can be written (sequential and graph models, nested to any depth), all data, types and random keys, any number of rounds", "why_tests_cant": "the attributes of a loaded model are equal only up to the order of dictionaries and the kind of the random key; that no call can tell the difference has to hold for every nesting of models, every graph and every input", "anchors": ["parametricmatrixmodels/model.py:Model.save", "parametricmatrixmodels/model.py:Model.load", "parametricmatrixmodels/model.py:Model.serialize", "parametricmatrixmodels/model.py:Model.deserialize", "parametricmatrixmodels/model.py:Model.__call__"]}
{"id": "C109", "title": "Parameters are taken exactly if they have the shapes of the present ones", "statement": "Setting the parameters of a compiled module with arrays of the same shapes at the same places as its present parameters stores them and changes nothing else; everything else is refused with an error and changes nothing.", "quantifier": "all modules with parameters, all objects that the constructor, any number of compilations and any number of settings can produce, all values", "why_tests_cant": "training, loading and the user all set parameters; which of the infinitely many trees of arrays are taken, after any history of compilations and earlier settings, is not visible in a few examples", "anchors": ["parametricmatrixmodels/modules/affinehermitianmatrix.py:AffineHermitianMatrix.set_params", "parametricmatrixmodels/modules/affinetensor.py:AffineTensor.set_params", "parametricmatrixmodels/modules/expectationvaluesum.py:ExpectationValueSum.set_params", "parametricmatrixmodels/modules/lowrankaffinehermitianmatrix.py:LowRankAffineHermitianMatrix.set_params", "parametricmatrixmodels/modules/prelu.py:PReLU.set_params", "parametricmatrixmodels/modules/bias.py:Bias.set_params", "parametricmatrixmodels/modules/constant.py:Constant.set_params", "parametricmatrixmodels/modules/einsum.py:Einsum.set_params"]}
{"id": "C110", "title": "Saving and loading between trainings changes nothing", "statement": "A model that is saved to a file and loaded into a new model before, between or after its trainings has the same parameters, state, random key, optimiser states and predictions at every point as the model that is not, and every further training, resumed or not, succeeds or fails for both alike. A training gets what the model holds, with the flags of its modules, and the trained model holds what training returned.", "quantifier": "all library models nested to any depth, all sequences of trainings and files, all training functions, data and keys", "why_tests_cant": "checkpoints are taken anywhere in arbitrarily long sequences of trainings; what a training reads of a model (flags, optimiser states, key, callable) is only partly visible in a test that loads and predicts", "anchors": ["parametricmatrixmodels/model.py:Model.train", "parametricmatrixmodels/model.py:Model.serialize", "parametricmatrixmodels/model.py:Model.deserialize", "parametricmatrixmodels/model.py:Model.get_trainable_modules", "parametricmatrixmodels/training.py:train"]}
{"id": "C111", "title": "Scaled data depends neither on the units nor on the order of the samples", "statement": "A scaler fitted to the same samples in another order and with features given in other units (a*v+b, a>0, for each feature) transforms the same data, given in those units, to the same numbers; what inverse_transform makes of scaled values is the same in those units.", "quantifier": "all trees of data, all features, all orders and units, constant and incomplete features included", "why_tests_cant": "there are infinitely many units and factorially many orders; a test tries a few", "anchors": ["parametricmatrixmodels/preprocessing/standard_scaler.py", "parametricmatrixmodels/preprocessing/minmax_scaler.py", "parametricmatrixmodels/preprocessing/robust_scaler.py"]}
{"id": "C112", "title": "A training run is the documented sequence of shuffles, batches, updates and evaluations", "statement": "A run starts from the given parameters evaluated once. Every epoch reorders the samples with a fresh key, cuts them into consecutive batches, makes one optimiser step per batch with the key, state and parameters the step before left, evaluates the result on the batches of the reordered validation data, keeps the better model, resets or lowers the patience, lets the callback replace the parameters and raises the counters of the trainable arrays. It goes on while no interrupt is pending, epochs and patience are left and the best loss is above the target. Nothing else happens, and the result is determined.", "quantifier": "all data sets, batch sizes, gradients, losses (NaN included), update rules, callbacks, freezing patterns and numbers of epochs", "why_tests_cant": "a test sees the result of a few runs, not which key, state or batch every step was given", "anchors": ["parametricmatrixmodels/training.py:_train", "parametricmatrixmodels/training.py:_train_step"]}
{"id": "C113", "title": "What does not lead to the output of a graph model does not matter", "statement": "If two graph models agree in the modules that lead to the output, in the parameters and states of these modules and in the connections that end at them or at the output, they return the same output and the same new states, whatever other modules and connections they have; and what is not used cannot make a call fail.", "quantifier": "all graph models without places that are connected twice, all additional modules and connections (cycles among them included), all data", "why_tests_cant": "there are infinitely many ways to add modules to a model", "anchors": ["parametricmatrixmodels/nonsequentialmodel.py:_get_callable", "parametricmatrixmodels/graph_util.py:resolve_connections"]}
{"id": "C114", "title": "Training keeps Hermitian matrices Hermitian", "statement": "The parameters of modules with Hermitian matrices are Hermitian when they are drawn, and a training changes them only by Hermitian matrices: what is not Hermitian in them is after any training, in the last and in the best model, exactly what it was before. So matrices that were Hermitian are Hermitian after training, set_params takes them, and the trained model can be loaded again.", "quantifier": "all numbers of matrices, sizes, drawn numbers, losses, learning rates, clipping bounds, batches, epochs and continued trainings", "why_tests_cant": "Hermitian matrices are kept only because the gradient, the clipping and the moments all respect the adjoint; a test sees one training with one loss", "anchors": ["parametricmatrixmodels/modules/affinehermitianmatrix.py:set_params", "parametricmatrixmodels/modules/expectationvaluesum.py:set_params", "parametricmatrixmodels/modules/transitionamplitudesum.py:set_params", "parametricmatrixmodels/training.py:complex_adam"]}
{"id": "C115", "title": "Prediction intervals: the whole way from calibration to answer, in any units and order", "statement": "Calibrating a new wrapper and asking for an interval gives, for every output of every sample, the prediction (corrected by the median residual, of all calibration samples or of those with the same flagged features) minus and plus the heuristic times the ceil((n+1)(1-alpha))/n quantile of the calibration scores of the same output. The intervals do not depend on the units in which the targets of an output are given, on the scale of the heuristic, or on the order of the calibration samples, and of the flagged features matters only which samples share them: restating the data restates the intervals.", "quantifier": "all trees of arrays, shapes, numbers of calibration and new samples, levels between 0 and 1, units and scales per output, rearrangements; entries that are not finite included", "why_tests_cant": "A test compares intervals for a few data sets; that a quantile of the wrong axis, a correction applied twice or a score of the wrong scale never shows needs all data, units and orders", "anchors": ["parametricmatrixmodels/conformal/conformalizedmodel.py:calibrate", "parametricmatrixmodels/conformal/conformalizedmodel.py:get_qhat", "parametricmatrixmodels/conformal/conformalizedmodel.py:__call__"]}
{"id": "C116", "title": "A seed starts every module of a model on its own", "statement": "With the same seed and input shape, modules added at the end of a model do not change what the others start with; the new ones start with the shape that the shorter model declares. What prevents the shorter model from being compiled prevents the longer one. Adding modules to a trained model and compiling it again leaves the trained modules as they are.", "quantifier": "every sequence of modules of any nesting, every seed, shape and number of added modules", "why_tests_cant": "The starting values are random: a test can compare two seeds, but that the key of a module depends on nothing but its place needs all models", "anchors": ["parametricmatrixmodels/sequentialmodel.py:compile", "parametricmatrixmodels/nonsequentialmodel.py:compile", "parametricmatrixmodels/model.py:append_module"]}
{"id": "C117", "title": "Features of a parametric matrix model can be reordered, rescaled and shifted", "statement": "A bias term is a feature that is always 1. Reordering the features together with the matrices changes no prediction. Rescaled and shifted features are the features of another model of the same size, whose matrices are given. Multiplying all matrices by a positive number and adding a multiple of the identity to the bias does the same to the predicted eigenvalues.", "quantifier": "every size, number of features, matrices, data tree, factors, shifts and permutation", "why_tests_cant": "these are identities between the predictions of different models for all data; a test compares a few of them up to rounding", "anchors": ["parametricmatrixmodels/modules/affinehermitianmatrix.py", "parametricmatrixmodels/modules/_smoothing.py", "parametricmatrixmodels/modules/eigenvalues.py", "parametricmatrixmodels/modules/expectationvaluesum.py"]}
{"id": "C118", "title": "Modules that stand for the same computation agree", "statement": "AffineTensor with matrices and AffineHermitianMatrix without smoothing compute the same from the same Hermitian matrices, and refuse the same data. A low-rank module of rank r can stand for given matrices exactly if the Hermitian part of each has rank at most r, and then with real coefficients and for every bias, smoothing and sample; at full rank it always can. For a single state the transition amplitudes are the squares of the expectation values. A LinearNN without activation is an AffineTensor of vectors.", "quantifier": "all tensors, matrices, ranks, states, operators, weights and data; any number of features and samples", "why_tests_cant": "Relates two modules for all parameters and data; which matrices a low-rank module can represent is an existence statement over all its parameters, which no test can exhaust.", "anchors": ["parametricmatrixmodels/modules/affinetensor.py", "parametricmatrixmodels/modules/affinehermitianmatrix.py", "parametricmatrixmodels/modules/lowrankaffinehermitianmatrix.py", "parametricmatrixmodels/modules/transitionamplitudesum.py", "parametricmatrixmodels/modules/linearnn.py"]}
{"id": "C119", "title": "A module may be replaced by one that does the same", "statement": "If corresponding modules turn corresponding data and states into corresponding data and states, or raise the same exception, so do models built alike from them (same classes, containers and connections), and models of such models: modules anywhere in a model may be exchanged for others, with other parameters, that compute the same, and the model then computes the same with the same exceptions. Correspondence is any relation, so that a change of units or of representation that every module respects is respected by every model. The same holds for the announced shapes and for compilation.", "quantifier": "all modules, relations between modules, parameters, states and data, all sequential models and models with connections of any graph, nested to any depth; all data", "why_tests_cant": "Quantifies over all relations and over models of unbounded nesting built from arbitrary modules; a test compares two models.", "anchors": ["parametricmatrixmodels/sequentialmodel.py", "parametricmatrixmodels/nonsequentialmodel.py", "parametricmatrixmodels/model.py"]}
{"id": "C120", "title": "A training step goes downhill", "statement": "If the gradients handed to a training step are the derivatives of the loss (in the convention of jax.grad, also for complex parameters), then a step of either optimiser from states without accumulated momentum moves the parameters in a direction in which the loss of the batch does not increase, and in which it decreases if a trainable array has a non-zero gradient and the learning rates are positive; for every small enough constant learning rate the loss of the batch after the step is smaller than before. Clipping, the second moments, bias correction and frozen parameters do not change this. The first step of every training is of this kind, and without momentum (b1 = 0) every step.", "quantifier": "all differentiable losses of any number of real or complex arrays of any size, all frozen/trainable flags, states without momentum, 0 <= b1 < 1, 0 <= b2 < 1, eps, clip > 0, all learning rate schedules", "why_tests_cant": "Descent for all differentiable losses and the wrong sign or missing conjugation only in complex directions are statements about all directions; a test sees that one loss went down.", "anchors": ["parametricmatrixmodels/training.py"]}
{"id": "C121", "title": "Gradients of predicted eigenvalues are expectation values", "statement": "Where a predicted eigenvalue of an affine eigenvalue model is simple, the prediction is differentiable in the input features, in the stored matrices and in anything they depend on, and its derivative is the expectation value of the derivative of the matrix in the normalised eigenvector. In particular the derivative by a feature is the expectation value of that feature's Hermitian matrix, whatever the smoothing and the constant matrix are, and the derivative by the stored matrices is that of their weighted changes. A prediction of the smallest eigenvalue lies below all tangents so computed. Where ground states with different expectation values cross, the prediction has no derivative.", "quantifier": "all matrix sizes, numbers of features, stored matrices, inputs, eigensolvers returning the sorted eigenvalues, selections ordered by value, simple eigenvalues at any position, and differentiable dependences of the matrix on parameters", "why_tests_cant": "Differentiability and the derivative at all simple eigenvalues are statements about limits in all directions; finite differences at a few points cannot give them, nor show where gradients do not exist.", "anchors": ["parametricmatrixmodels/modules/affineeigenvaluepmm.py:AffineEigenvaluePMM", "parametricmatrixmodels/modules/affinehermitianmatrix.py:AffineHermitianMatrix", "parametricmatrixmodels/modules/eigenvalues.py:Eigenvalues"]}
{"id": "C122", "title": "What a matrix model of a size can predict", "statement": "A model with larger matrices can predict whatever a model with smaller ones does: a given number of smallest or of largest eigenvalues for all features within any given bounds, and a single smallest or largest eigenvalue for all features without bounds, with the same smoothing. A model with n rows can predict every minimum (maximum) of n affine functions of the features. With large enough matrices, a model asked for one smallest (largest) eigenvalue comes as close as one likes, everywhere on a compact convex set of features, to exactly the continuous concave (convex) functions.", "quantifier": "all sizes, numbers of features and eigenvalues, stored matrices, smoothings, data trees, compact convex sets, functions and errors", "why_tests_cant": "That one choice of parameters works for all inputs, and that no choice does for functions that are not concave, are statements about all inputs and all parameters; a test trains one model.", "anchors": ["parametricmatrixmodels/modules/affineeigenvaluepmm.py:AffineEigenvaluePMM", "parametricmatrixmodels/modules/affinehermitianmatrix.py:AffineHermitianMatrix", "parametricmatrixmodels/modules/eigenvalues.py:Eigenvalues"]}
{"id": "C123", "title": "How far a training can move the parameters", "statement": "With momentum coefficients b1^2 < b2 < 1 (such as the default ones) a training step moves no entry of a parameter farther than the learning rate times a number that depends only on b1, b2 and the optimiser's counter: not on the gradients, on clip or on eps. A training with learning rates up to L moves no entry farther than L times the number of its steps times a number that depends only on b1 and b2 (below 73 for the default ones). A step can go farther than the learning rate, and without b1^2 < b2 there is no bound that holds for all eps.", "quantifier": "all gradients, losses, data, batch sizes, numbers of epochs, learning rates, optimiser states reached from new ones, b1, b2, eps and clip", "why_tests_cant": "A test sees the steps of some gradients; the bound holds for all sequences of gradients, of any length.", "anchors": ["parametricmatrixmodels/training.py:adam", "parametricmatrixmodels/training.py:complex_adam", "parametricmatrixmodels/training.py:_train"]}
{"id": "C124", "title": "Predictions change little when parameters do", "statement": "Changing every entry of the stored matrices of an affine eigenvalue model by at most delta changes every predicted eigenvalue (selected by value) by at most n*delta*(1 + sum of the absolute features + a term for smoothing), n the size of the matrices; without smoothing no smaller factor holds for all models. So a training moves the predictions for a sample by at most the learning rate times the number of its steps times a constant that does not depend on data, loss or gradients.", "quantifier": "all sizes, numbers of features, stored matrices, changes, selections by value, smoothings, samples, trainings with the complex optimiser, b1^2 < b2 < 1, eps and clip", "why_tests_cant": "A bound for all perturbations of all models and all trainings; a test compares a few predictions.", "anchors": ["parametricmatrixmodels/modules/affineeigenvaluepmm.py:AffineEigenvaluePMM", "parametricmatrixmodels/modules/affinehermitianmatrix.py:AffineHermitianMatrix", "parametricmatrixmodels/modules/eigenvalues.py:Eigenvalues", "parametricmatrixmodels/training.py:complex_adam", "parametricmatrixmodels/training.py:_train"]}
{"id": "C125", "title": "Parametric matrix models can be combined", "statement": "For every two models that predict one smallest (or one largest) eigenvalue there are models of which one predicts the smaller (larger) of their predictions, for all inputs, and another the sum of their predictions, with the same smoothing; their sizes are the sum and the product of the two. Changing the sign of all matrices and of the smoothing exchanges smallest and largest and changes the sign of the prediction.", "quantifier": "all sizes, numbers of features, stored matrices, smoothings, eigensolvers and inputs", "why_tests_cant": "One choice of parameters has to agree with two given models for all inputs; a test sees some.", "anchors": ["parametricmatrixmodels/modules/affineeigenvaluepmm.py:AffineEigenvaluePMM", "parametricmatrixmodels/modules/affinehermitianmatrix.py:AffineHermitianMatrix", "parametricmatrixmodels/modules/eigenvalues.py:Eigenvalues"]}
{"id": "C126", "title": "Training does not depend on the units", "statement": "A training with the loss multiplied by a positive number and the parameters by another, with the learning rate, eps, clip, the target loss and the smallest improvement converted accordingly, takes the same number of epochs and uses the same random numbers; its parameters and losses, last and best, are those of the original training, converted. mse, mae, pseudo_huber and the losses with uncertainties are homogeneous in the units of the targets. So a fit of eigenvalues to targets in other units of energy gives the same model in those units.", "quantifier": "every data set, model, loss, number of epochs, batch size, initial parameters, optimiser constants, random keys and positive factors", "why_tests_cant": "It relates whole trainings with each other, for all factors; a test compares two of them, up to rounding.", "anchors": ["parametricmatrixmodels/training.py:adam", "parametricmatrixmodels/training.py:complex_adam", "parametricmatrixmodels/training.py:_train", "parametricmatrixmodels/training.py:make_loss_fn"]}
{"id": "C127", "title": "Training keeps the symmetries of a model", "statement": "If the loss does not change when entries of a complex parameter array are exchanged, change their sign or are all conjugated, then an array that has this symmetry before a training has it after every epoch, in the last and in the best model. The predictions of an affine eigenvalue model do not change when basis states are exchanged or change their sign in all matrices, nor, without smoothing, when all matrices are conjugated. So in fits of eigenvalues block-diagonal matrices stay block-diagonal, exchangeable basis states stay exchangeable and, without smoothing, real matrices stay real.", "quantifier": "every data set, loss with the symmetry, number of epochs, batch size, learning rates and optimiser constants with b2 in [0, 1) and clip not negative, every size and number of matrices, every symmetry", "why_tests_cant": "It is an invariant of whole trainings for all models and data; in floating point a test sees it only up to rounding and for one model.", "anchors": ["parametricmatrixmodels/training.py:complex_adam", "parametricmatrixmodels/training.py:_train", "parametricmatrixmodels/modules/affineeigenvaluepmm.py:AffineEigenvaluePMM"]}
{"id": "C128", "title": "Training does not depend on how basis states and features are numbered", "statement": "A fit of eigenvalues by an affine eigenvalue model that starts from matrices with the basis states in another order and with other signs takes the same number of epochs, has the same losses and gives the same matrices written in that way. Without smoothing the same holds if the features, with their matrices, are given in another order and with other signs. A general change of basis, which changes no prediction, gives another training, because steps are taken entry by entry.", "quantifier": "every data set, number of epochs, batch size, learning rates and optimiser constants with clip not negative, every size and number of matrices, all permutations and signs, all initial matrices", "why_tests_cant": "It relates whole trainings with each other, for all numberings; a test compares two of them, up to rounding.", "anchors": ["parametricmatrixmodels/training.py:complex_adam", "parametricmatrixmodels/training.py:_train", "parametricmatrixmodels/modules/affineeigenvaluepmm.py:AffineEigenvaluePMM"]}
{"id": "C129", "title": "What a fit of eigenvalues does in its first step, and where it rests", "statement": "For a batch whose predicted eigenvalues are simple, the loss of an affine eigenvalue model is differentiable in its matrices; its gradient is twice the mean over samples and eigenvalues of the error times the derivative of the eigenvalue, the energy of the changed matrix in the eigenvector. Where the gradient is zero, the errors add up to zero, also if each is multiplied with a feature of its sample or with its prediction. If the errors do not add up to zero, the first step of a training reduces the loss of the batch for every small enough learning rate.", "quantifier": "every batch, every size and number of matrices, every number of eigenvalues, all parameters at which the predicted eigenvalues are simple, all optimiser constants in their ranges", "why_tests_cant": "A statement about derivatives and limits, for all batches; finite differences approximate single ones.", "anchors": ["parametricmatrixmodels/training.py:complex_adam", "parametricmatrixmodels/training.py:_train_step", "parametricmatrixmodels/modules/affineeigenvaluepmm.py:AffineEigenvaluePMM"]}
{"id": "C130", "title": "Predicted observables change continuously as long as eigenvalues do not cross", "statement": "The outputs of an affine observable model (expectation values or transition amplitudes, centred or not, with or without bias) are continuous in the features, the matrices, the observables and the bias at every point at which the selected eigenvalues are simple, whatever phases the eigenvectors are given by the solver. Where eigenvalues cross the outputs jump.", "quantifier": "every size and number of matrices, observables and selected eigenvalues (algebraic order), every solver that gives orthonormal eigenvectors, every parametrisation in which the entries are continuous", "why_tests_cant": "Continuity is a statement about limits, and the phases of eigenvectors may change arbitrarily from one call to the next.", "anchors": ["parametricmatrixmodels/modules/affineobservablepmm.py:AffineObservablePMM", "parametricmatrixmodels/modules/eigenvectors.py:Eigenvectors", "parametricmatrixmodels/modules/expectationvaluesum.py:ExpectationValueSum", "parametricmatrixmodels/modules/transitionamplitudesum.py:TransitionAmplitudeSum"]}
{"id": "C131", "title": "What the losses ask for, and what averaging models does to them", "statement": "Among constant predictions the mean squared error with uncertainties is least exactly at the mean of the targets weighted with the inverse squared uncertainties, and the mean absolute error exactly at the medians of the targets. For every loss but the relative differences the loss of a weighted average of the predictions of several models is at most the weighted average of their losses. For the relative difference it can be larger than all of them.", "quantifier": "every list of targets and nonzero uncertainties, real or complex (medians: real), every number of models and weights", "why_tests_cant": "Optimality is a statement about all other predictions.", "anchors": ["parametricmatrixmodels/training.py:make_loss_fn"]}
{"id": "C132", "title": "Activations that combine entries", "statement": "Softmax, LogSoftmax and Standardize keep the shape of every array of the data and work along its last axis: Softmax gives exp(x)/sum(exp(x)), positive numbers with the sum one in the order of the entries; LogSoftmax gives their logarithms; Standardize gives the mean zero and the variance v/(v+1e-5). Every sample is computed on its own, and the shape an activation declares is the shape it gives.", "quantifier": "every tree of real arrays, every place in it and every number of axes and entries", "why_tests_cant": "That samples do not influence each other is a statement about all batches with all numbers of axes.", "anchors": ["parametricmatrixmodels/modules/_autogenerated_activationfuncs.py:Softmax", "parametricmatrixmodels/modules/_autogenerated_activationfuncs.py:GLU", "parametricmatrixmodels/modules/activationbase.py:ActivationBase"]}
{"id": "C133", "title": "Bounds between predicted eigenvalues", "statement": "If the matrices of an eigenvalue model without smoothing are restricted to some of the basis states, or to any other orthonormal vectors, every predicted eigenvalue lies between two eigenvalues of the full model; the smallest one is never below that of the full model, and equal exactly where a lowest eigenvector of the full model lies in the subspace. Predicted eigenvalues grow with every feature whose matrix is positive semidefinite, and with positive semidefinite additions to the matrices. The sum of all predicted eigenvalues is the affine function given by the traces, with or without smoothing.", "quantifier": "every eigensolver, model size, number of features, subspace, sample and number of eigenvalues", "why_tests_cant": "The bounds hold for all matrices and all subspaces; a test sees some.", "anchors": ["parametricmatrixmodels/modules/affineeigenvaluepmm.py:AffineEigenvaluePMM", "parametricmatrixmodels/modules/affinehermitianmatrix.py:AffineHermitianMatrix", "parametricmatrixmodels/modules/eigenvalues.py:Eigenvalues"]}
{"id": "C134", "title": "What observable models can predict", "statement": "An observable model that reads out all its states predicts the same for all samples: the traces of its observables, or the sums of their squared entries, plus the offset by centering and bias, whatever the matrices of the model. This is the case with the default num_eig=None. With r states an expectation value lies between r times the lowest and r times the highest eigenvalues of the observables, and a sum of transition amplitudes between zero and the sum of the squared entries. Predicted expectation values are linear in the observables and non-negative if these are positive semidefinite.", "quantifier": "every eigensolver, model size, number of features, states, observables and outputs, all matrices, biases, smoothing and samples", "why_tests_cant": "The statements are about all matrices a training run could reach; a test sees some.", "anchors": ["parametricmatrixmodels/modules/affineobservablepmm.py:AffineObservablePMM", "parametricmatrixmodels/modules/expectationvaluesum.py:ExpectationValueSum", "parametricmatrixmodels/modules/transitionamplitudesum.py:TransitionAmplitudeSum"]}
{"id": "C135", "title": "Networks of linear layers", "statement": "A sequential model of linear layers compiles for vectors of features and computes, sample by sample, the composition of act(W x + b). Its predictions change by at most the product of the Lipschitz constants of the activations and the row sums of the weights times the change of the features; they grow with the features if the weights are not negative and the activations monotone; they lie in the range of the last activation. Layers without activations can be replaced by one layer. Hidden units can be put in another order, and rescaled if the activation commutes with positive factors, without changing a prediction.", "quantifier": "every number of layers, units, features and samples, all weights, biases and samples", "why_tests_cant": "Holds for all networks and all inputs; a test sees some.", "anchors": ["parametricmatrixmodels/modules/linearnn.py:LinearNN", "parametricmatrixmodels/sequentialmodel.py:_get_callable", "parametricmatrixmodels/modules/activationbase.py:ActivationBase"]}
{"id": "C136", "title": "What elementwise activations do to numbers", "statement": "Rectifiers give no negative numbers, sigmoids numbers between zero and one, clipping numbers between its bounds, and so on for every activation with a bounded range; the activations listed as monotone never give less for more; those listed as gentle never enlarge a difference; those listed as homogeneous commute with positive factors; SiLU, HardSiLU, Mish and GELU are neither monotone nor gentle. Sigmoid is the derivative of Softplus, SparseSigmoid of SparsePlus, and one minus the square of Tanh of Tanh.", "quantifier": "all real numbers, all slopes, bounds and other arguments in the stated ranges", "why_tests_cant": "Statements about all real numbers.", "anchors": ["parametricmatrixmodels/modules/_autogenerated_activationfuncs.py:ReLU", "parametricmatrixmodels/modules/_autogenerated_activationfuncs.py:Sigmoid", "parametricmatrixmodels/modules/_autogenerated_activationfuncs.py:Clip", "parametricmatrixmodels/modules/activationbase.py:ActivationBase"]}
{"id": "C137", "title": "Parameters that do not matter are not changed by training", "statement": "An entry of a parameter array that the loss does not depend on has its initial value in the last and in the best model of every training with a new optimiser, real or complex. So a training of an observable model that reads out all states, which is the default, returns the matrices it started with, whatever is fitted with whatever loss. An optimiser that has gone other steps before would move them.", "quantifier": "every training: all losses, data, batch sizes, epochs, learning rates, callbacks that leave the parameters, and all initial values", "why_tests_cant": "Every loss and every training run; a test sees some.", "anchors": ["parametricmatrixmodels/training.py:train", "parametricmatrixmodels/training.py:complex_adam", "parametricmatrixmodels/training.py:adam", "parametricmatrixmodels/modules/affineobservablepmm.py:AffineObservablePMM"]}
{"id": "C138", "title": "Equal hidden units stay equal; training keeps symmetries of several arrays", "statement": "If the loss does not change when entries of several parameter arrays are exchanged or change their sign at the same time, then parameters that have this symmetry before a training have it in the last and in the best model, real or complex. So two units of a hidden layer of a network of linear layers that start with equal weights, biases and outgoing weights stay equal, whatever the data and the loss: a network whose weights all start equal, as with init_magnitude=0, never has more than one different unit per hidden layer.", "quantifier": "every training: all losses, data, batch sizes, epochs, learning rates, callbacks that leave the parameters, networks of any depth and width with any activations, every hidden layer and pair of units", "why_tests_cant": "Every loss, every network and every training run; a test sees some.", "anchors": ["parametricmatrixmodels/training.py:train", "parametricmatrixmodels/training.py:adam", "parametricmatrixmodels/training.py:complex_adam", "parametricmatrixmodels/modules/linearnn.py:LinearNN"]}
{"id": "C139", "title": "A hidden unit that no training sample activates is never trained", "statement": "If the activation of the first layer of a network of linear layers is zero for negative numbers, as that of ReLU and ReLU6, and a unit of this layer is given negative numbers for all training samples at the beginning, then every training with a new optimiser returns this unit as it was: its weights, its bias and the weights of the next layer for it have their initial values in the last and in the best model, whatever the loss and however the rest of the network changes.", "quantifier": "every training: all data sets, losses, batch sizes, shuffles, epochs, learning rates, callbacks that leave the parameters, networks of any depth and width with any other layers, every such unit", "why_tests_cant": "Every data set, loss, network and training run; a test sees some.", "anchors": ["parametricmatrixmodels/training.py:train", "parametricmatrixmodels/training.py:adam", "parametricmatrixmodels/modules/linearnn.py:LinearNN", "parametricmatrixmodels/modules/_autogenerated_activationfuncs.py:ReLU"]}
{"id": "C140", "title": "Normalised sensitivities do not depend on the units of the outputs", "statement": "Measuring the outputs in another unit multiplies every parameter sensitivity by the square of the factor, and the spread it is divided by as well, so that the normalised sensitivities, and with them the uncertainty heuristic, are the same in all units; adding a constant to the sensitivities does not change the spreads.", "quantifier": "every tree of outputs and parameters, array shapes, number of samples, values, factors, also different ones for the components", "why_tests_cant": "Every data set and unit; a test sees some.", "anchors": ["parametricmatrixmodels/conformal/conformalizedmodel.py:ConformalizedModel", "parametricmatrixmodels/conformal/conformalizedmodel.py:robust_normalization"]}
{"id": "C141", "title": "Sensitivities do not depend on the units of features and parameters", "statement": "If every component of every continuous feature is measured in another unit and with another zero, and categories are called something else, the input sensitivities (without input uncertainties), the cutoff for distances and the distance sensitivity of every sample, whose categories the training data has and whose selected components are not constant there, are what they were. If every parameter is multiplied by a number of its own, so that the derivatives with respect to it are divided by this number, the parameter sensitivities are what they were.", "quantifier": "every tree of outputs, features and parameters, array shapes, numbers of samples, data, factors, shifts and renamings of categories", "why_tests_cant": "Every data set and unit; a test sees some.", "anchors": ["parametricmatrixmodels/conformal/conformalizedmodel.py:ConformalizedModel"]}
{"id": "C142", "title": "Predictions of networks change little when parameters do", "statement": "For every network of linear layers with Lipschitz continuous activations and every bound on the features there is a constant such that changing all weights and biases by at most delta <= 1 changes no output for any sample within the bound by more than the constant times delta; for unbounded samples there is none. Every elementwise activation of the model but Exp and Square (and CELU and SquarePlus with arguments out of range) is Lipschitz continuous; Exp and Square are not, but the predictions of networks with any of these activations are continuous in weights, biases and features together. If all layers have biases, a training whose steps can add up to at most delta (learning rate times number of steps times the farthest a step goes) moves the outputs by at most the constant times delta, whatever its data, loss and gradients are.", "quantifier": "all numbers and widths of layers, with and without biases, weights, Lipschitz continuous activations, bounds, samples, changes; all trainings of real parameters with either optimiser, b1^2 < b2 < 1, eps and clip", "why_tests_cant": "Every network, sample and training; a test sees some.", "anchors": ["parametricmatrixmodels/modules/linearnn.py:LinearNN", "parametricmatrixmodels/modules/_autogenerated_activationfuncs.py", "parametricmatrixmodels/training.py"]}
{"id": "C143", "title": "Networks and the units of features and outputs", "statement": "What a network of linear layers gives for features in some units and with some zeros, a network of the same architecture gives for the features in other units, and with other zeros if its first layer has a bias; the same holds for the units and zeros of the outputs if the last layer has no activation (and, for the zeros, has a bias). Networks without biases whose activations commute with positive factors do so themselves and give zero for zero, so for other zeros of the features no such network need exist.", "quantifier": "all numbers and widths of layers, weights, biases, activations, nonzero factors, shifts and samples", "why_tests_cant": "Every network, unit and sample; a test sees some.", "anchors": ["parametricmatrixmodels/modules/linearnn.py:LinearNN", "parametricmatrixmodels/sequentialmodel.py:_get_callable"]}
{"id": "C144", "title": "Networks can be combined", "statement": "For two networks of linear layers with the same features, depth and activations there is one, with as many units in every hidden layer as the two have together, that gives the outputs of both, and, if the last layers have no activations, one that gives any linear combination of their outputs, so sums and averages of networks are networks. Hidden layers can be made wider, whatever the new units compute, if the next layer has zero weights for them: wider networks can do what narrower ones can; and deeper networks what shallower ones can, by layers that pass on their inputs, without activations or with rectifiers or clipping.", "quantifier": "all numbers and widths of layers, weights, biases, activations, factors and samples", "why_tests_cant": "Every pair of networks and every sample; a test sees some.", "anchors": ["parametricmatrixmodels/modules/linearnn.py:LinearNN", "parametricmatrixmodels/sequentialmodel.py:_get_callable"]}
{"id": "C145", "title": "What networks can fit", "statement": "For every data set of n + 1 different samples, with any number of features and outputs and whatever the targets, there is a network with one hidden layer of n rectified units and a last layer without activation that predicts every target exactly. For every continuous function of any number of features, with any number of outputs, on a compact set and every eps > 0 there is such a network, with some number of rectified units, whose predictions are within eps of it everywhere on the set. The same holds with Softplus, SiLU, HardSiLU, GELU, SparsePlus, SquarePlus, ELU, CELU, SELU, Exp, Sin, Cos, Sigmoid, Tanh, ArcTan, SoftSign, ReLU6, HardSigmoid, HardTanh, SparseSigmoid, Clip between different bounds, Abs, LogSigmoid, Mish or LeakyReLU with any slope but one in place of the rectifier, but not with Square. Samples with equal features get equal predictions from every network, and networks without activations fit only affine data.", "quantifier": "all numbers of samples, features and outputs, all different samples and all targets; all compact sets, continuous functions and errors", "why_tests_cant": "Every data set and every function; a test sees some.", "anchors": ["parametricmatrixmodels/modules/linearnn.py:LinearNN", "parametricmatrixmodels/sequentialmodel.py:_get_callable"]}
{"id": "C146", "title": "A training that starts at an exact fit stays there", "statement": "If no parameters give a smaller loss on any batch of training samples than the ones a training starts with, for example because the model fits the training data exactly and the loss is never negative, then every training with a new optimiser returns these parameters, in the last and in the best model, real or complex.", "quantifier": "every training: all data sets, losses, batch sizes, shuffles, epochs, learning rates, callbacks that leave the parameters, real and complex arrays of any number and shape, trained or not", "why_tests_cant": "Every model, data set and training run; a test sees some.", "anchors": ["parametricmatrixmodels/training.py:train", "parametricmatrixmodels/training.py:adam", "parametricmatrixmodels/training.py:complex_adam"]}
{"id": "C147", "title": "Networks that are convex in the features", "statement": "A network of linear layers whose activations are convex, and monotone behind the first layer, and whose weights behind the first layer are not negative, never predicts more for a weighted mean of samples than the weighted mean of its predictions for them. ReLU, Softplus, SquarePlus, SparsePlus, Abs, Exp, Square, Identity, CELU, LeakyReLU with slopes of at most one and ELU with alpha between zero and one are convex; ReLU6, HardTanh, HardSigmoid, SoftSign and HardSiLU are not. A negative weight behind the first layer can break it.", "quantifier": "all numbers and widths of layers, weights, biases, samples and weights of the mean, all activations in the list with all arguments in the stated ranges", "why_tests_cant": "Every network and every mean of samples; a test sees some.", "anchors": ["parametricmatrixmodels/modules/linearnn.py:LinearNN", "parametricmatrixmodels/sequentialmodel.py:_get_callable"]}
