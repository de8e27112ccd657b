# Design of the formal model of equinox

## What this is

`/verif/lean` holds a Lean 4 model of the Python package in `/repo/equinox` and
theorems about that model. `properties.jsonl` lists the properties in English,
`MANIFEST.json` maps each of them to theorem names, `seeded/LOG.jsonl` records the
wrong programs the theorems were tried against, and this file says what is
modelled, how, and what is trusted.

The model is shallow: one Lean function per Python function, mirroring it branch
by branch. Exceptions are values (`Except Err`). Every definition has a comment
with the file and lines it models and, where it deviates, what was simplified.

Each area `X` has up to four kinds of files:

* `Model.lean` (or `XModel.lean`): the code,
* `Spec.lean`, or a section "Specification": the independent vocabulary the theorems
  talk about (paths into trees, histories, closed formulas, ...),
* `Lemmas*.lean`: helper lemmas,
* `Props.lean`: the property theorems, with concrete cases meeting their
  hypotheses.

A theorem whose name ends in `_partial` proves part of a claim; the rest is false of
the code (then a theorem with the counterexample stands next to it, see "Findings")
or outside of the model.

## Trusted base

* Lean's kernel, and the three standard axioms `propext`, `Classical.choice`,
  `Quot.sound`. No other axiom is used, and no `sorry`, `native_decide` or `bv_decide`.
  The axioms of each theorem are listed at the end of this file.
* That the model mirrors the Python code. Nothing checks this mechanically: the
  Python code cannot be run here.
* The behaviour of JAX, Python and NumPy listed under each area below ("assumed"),
  which is modelled after documentation and source knowledge, not verified.
* Floating point: where the code uses floats for integer arithmetic (`log`, `sqrt` in
  the loop bounds) the model uses the exact meaning, and `Loop/Checkpoint/Rounding`,
  `Loop/Common/Log` show that rounding to doubles makes no difference for any number of
  steps that fits into 32 bits (C22, C23). Otherwise no theorem but those of C76 is about
  rounding; layers are modelled over the real numbers, over any semiring, or
  with the element operations as parameters.

## Areas

### PyTrees and filters: `Verif/PyTree`, `Verif/Filters` (C01-C04)

Code: `_filters.py` (`filter`, `partition`, `combine`), `_update.py`
(`apply_updates`). `PT K α` is a rose tree with leaves in `α`, a distinguished `none`
node, and containers tagged by `K` (container type plus auxiliary data; for
dictionaries the keys). `flatten`, `unflatten`, `flatten_up_to` and the n-ary
`tree_map` with prefix semantics and `is_leaf` are defined the way JAX defines them.
Specifications are by path lookup. Assumed: that JAX's registry behaves like this.

### Editing and comparing trees: `Verif/TreeAt`, `Verif/TreeEqual`, `Verif/TreeCheck` (C05-C08)

Code: `_tree.py` (`tree_at` with `_LeafWrapper`, `_DistinctTuple`, the two-pass
identity trick, `replace`, `replace_fn`, `is_leaf`; `tree_equal` with tolerances;
`tree_check` with its memo). `tree_at`: an object model in which every node carries an
identity; `where` is an arbitrary function on object trees. `tree_equal`: the
comparisons of elements are parameters. `tree_check`: graphs as finite maps from
identities to children.

### Serialisation: `Verif/Serialise` (C09-C11, C54)

Code: `_serialisation.py`. A stream of bytes read and written in order by
`tree_serialise_leaves`/`tree_deserialise_leaves` with their checks. Assumed: the
`.npy` format is self-delimiting and round-trips (`Env.Lawful`, with an instance).

### State: `Verif/State` (C12-C15)

Code: `nn/_stateful.py`. `State` objects on a heap; `set` and `update` invalidate their
object; programs are lists of operations.

### Enumerations: `Verif/Enum` (C16, C17)

Code: `_enum.py`. Class statements, C3 linearisation, `promote`, `where`, messages.

### Loops: `Verif/Loop` (C18-C26, C53, C55)

Code: `internal/_loop/checkpointed.py` (forward schedule, backward pass, checkpoint
stack, choice of the number of checkpoints), `common.py` (`common_rewrite`, buffers,
`_select_if_vmap`), `bounded.py`, `loop.py` (`while_loop`, `scan`). Lanes of vmap are
functions from the lane number. Not modelled:
`mark_working`, the compiled form. Assumed: `lax.while_loop`, `lax.scan`,
`lax.cond` are iteration, fold and branch.

### Transforms: `Verif/Jit`, `Verif/Vmap`, `Verif/AD`, `Verif/Custom` (C27-C31, C48, C49, C59)

Code: `_jit.py` with `_compile_utils.py` (partition into dynamic and static, caches,
donation, ahead-of-time compilation), `_vmap_pmap.py` (`filter_vmap`, `filter_pmap`,
named `in_axes`, `out_axes`), `_ad.py` (`filter_grad`, `filter_value_and_grad`,
`filter_vjp`, `filter_jvp`, `filter_custom_vjp`, `filter_custom_jvp`,
`nondifferentiable`, `filter_closure_convert`) and `_make_jaxpr.py`. JAX's `jit`, `vmap`, `pmap`,
differentiation and tracing are parameters with laws; `jit` is a cache keyed by
static parts (compared by `==`), structures, shapes and dtypes.

### Errors: `Verif/Errors` (C32)

Code: `_errors.py` (`error_if`, `branched_error_if`, all `on_error` modes, concrete and
traced predicates) and the parts of `_unvmap.py` it uses. Arrays of random keys in `x` are
outside of the model.

### Modules: `Verif/Module` (C33-C37, C58)

Code: `_better_abstract.py`, `_module.py` (metaclass: fields, `strict` checks, conversion
to dataclass, initialisation and freezing, flattening, `__eq__`, `__hash__`,
`BoundMethod`, `Partial`, `module_update_wrapper`). Methods during initialisation
are arbitrary programs over attributes of `self`.

### Neural networks: `Verif/NN` (C38-C44, C50, C51, C56, C57, C60)

Code: `nn/_sequential.py`, `_inference.py`, `_shared.py`, `_embedding.py`
(`RotaryPositionalEmbedding`), `_pool.py`, `_conv.py`, `_batch_norm.py`,
`_attention.py`, `_dropout.py`, `_linear.py` (integer sizes). Arrays are functions or
lists of lists; `lax.conv_general_dilated`, `lax.reduce_window`, `jnp.pad`,
`jax.nn.softmax`, `lax.pmean` are modelled after their documentation.

### Internals: `Verif/Noinline`, `Verif/MaxTraces`, `Verif/Omega`, `Verif/Finalise` (C45-C47, C52)

Code: `internal/_noinline.py`, `debug/_max_traces.py`, `internal/_omega.py`,
`internal/_finalise_jaxpr.py`. `finalise` works on a deep embedding of jaxprs with
nested open and closed jaxprs in their parameters, and names are made fresh as JAX's
tracing does. `Finalise/Registry` has the table of the library (`_finalise_jaxpr.py:183-220`) with the
`impl` rules of the registered primitives; a JAX function they call is one equation.

### Primitives: `Verif/Primitive` (C61, C62)

Code: `internal/_primitive.py` except `materialise_zeros`: the `filter_primitive_*`
decorators over pytrees, and `create_vprim`. A primitive is a function on flat lists of
arrays with its rules; `vmap` traces once and evaluates lane by lane; tangents and
cotangents are arrays, symbolic zeros with a shape, or undefined.

### Normalisation: `Verif/NN/Norm` (C63)

Code: `nn/_normalisation.py`, `_misc.py:left_broadcast_to`. Arrays are shapes with their
elements in row-major order over the real numbers; a result that is not finite is `none`.

### Dead code: `Verif/Dce` (C64)

Code: `debug/_dce.py`. Histories of traced calls and of runs of callbacks, which the
compiler chooses; how trees are laid out on the screen is not modelled.


### Weight and spectral normalisation: `Verif/NN/WeightNorm`, `Verif/NN/SpectralNorm` (C65, C66)

Code: `nn/_weight_norm.py`, `nn/_spectral_norm.py` (forward pass). Over the real numbers;
a weight of norm zero gives `none`. The state of the power iteration is a pair of vectors.

### Recurrent cells: `Verif/NN/Rnn` (C67)

Code: `nn/_rnn.py`, and of JAX `jnp.split` and the broadcasting that the cells meet. Over the
real numbers.

### Assertions about transforms: `Verif/Nontraceable` (C68)

Code: `internal/_nontraceable.py`. A value under transformations is a function from lanes to
arrays with the list of transformations and whether each affects it; reverse mode is a
backward pass over a linear program.

### Evaluating shapes: `Verif/EvalShape` (C69)

Code: `_eval_shape.py`, `_caches.py`, and `eval_empty`, `eval_zero`, `eval_full` of `internal/_misc.py`.
The function is a parameter acting on trees of tracers; `functools.lru_cache` is a list of
entries whose keys are compared by classes under `==`.

### Closures as pytrees: `Verif/ClosureTree` (C70)

Code: `internal/_closure_to_pytree.py`. Functions refer to cells in a heap; what a value means
is a relation; the code of a function enters through a parameter which may depend on the
meanings of what it closes over, but not on whether a callable is a function.

### Jacobians and Hessians: `Verif/AD/Jac`, `Verif/AD/JacProps` (C71)

Code: `_Jac`, `filter_jacfwd`, `filter_jacrev`, `filter_hessian` of `_ad.py`. A floating-point
array is one real number. JAX's modes of differentiation are parameters, assumed to find the
partial derivatives (Mathlib's `deriv`) of differentiable functions. `jax.jacfwd` and
`jax.jacrev` around them are modelled from their documentation: which inputs and outputs they
accept, and how blocks are put together.

### Linear layers and perceptrons: `Verif/NN/MlpModel`, `Verif/NN/Mlp` (C72)

Code: `nn/_linear.py` (`Linear`), `nn/_mlp.py`. Real numbers; inputs are scalars and vectors
(a matrix given to `Linear`, against its documentation, is left out); an activation function is
a pytree with a call from numbers to numbers; `filter_vmap` is taken at its two uses (copying a
pytree along a new axis, and applying one copy per number).

### Callbacks: `Verif/Callback` (C73)

Code: `_callback.py`. `jax.pure_callback` is modelled from its documentation and source: the
leaves of what the function returns are taken in order, their number, shapes and dtypes are
compared with the declaration, and any exception in the function is a `RuntimeError` for the
caller (`tests/test_callback.py` relies on it). The function gets JAX arrays or NumPy arrays (versions of
JAX differ; a flag in the model), and 64-bit NumPy arguments in JAX's precision. Left out: batching, `sharding`, and the time at
which the function is called.

### Perturbations of a checkpointed loop: `Verif/Loop/Perturb` (C74)

Code: `internal/_loop/checkpointed.py` 670-679, 765-767, 822-836, 984-1125, 1179-1285, and the rules in
`common.py` 39-77, 154-209. Pytrees with the structure of the loop's value are families over their
leaves. What tracing finds out about the user's body is a parameter (`Body`): which leaves get a
tangent or a cotangent that is not a symbolic zero. The derivative is a family of additive maps
between the leaves' (co)tangents. Both fixed points are the code's loops, with a bound on the rounds
that is proved to suffice; their result drives the backward loop of `Verif/Loop/Checkpoint`.

### Derivatives of buffers: `Verif/Loop/BufferGrad` (C75)

Code: the rules in `internal/_loop/common.py` 39-77 and 154-209, and `strip`/`refill` of `checkpointed.py`. A traced body is a list
of instructions on one lane: any function on values that are not buffers, with its Jacobian, and reads, writes and selects. The
specification is the loop on plain arrays and Mathlib's `HasFDerivAt`. It discharges the hypothesis `BufferContract` of C18 from the
documented restrictions. An index that stands for several locations is a sequence of instructions; left out are indices out of
bounds, and symbolic zeros (C74 has them).

### Neighbouring floating point numbers: `Verif/NextAfter` (C76)

Code: `internal/_nextafter.py`. Bit patterns with fields for sign, exponent and fraction in any format; `jnp.nextafter` increments or decrements patterns. The specification is what patterns stand for by IEEE 754, in `EReal`, with or without denormals flushed to zero. Left out: dtypes that are not floating point.

### Predicates on leaves: `Verif/Filters/Predicates` (C77)

Code: `_filters.py` 19-58. Elsewhere in the model these predicates are parameters, or depend on a flag of the leaf.

### Checkpointing and sharding: `Verif/Remat` (C78)

Code: `_ad.py` 1150-1226 and `_sharding.py`. `jax.checkpoint` is modelled as calling the function with JAX arrays for NumPy arrays, and
`with_sharding_constraint` as its broadcast of the tree of shardings (`flatten_axes` of JAX) around a parameter that acts on single arrays.

### Batching of `noinline`: `Verif/Noinline/Batch` (C79)

Code: `internal/_noinline.py` 89-100, 184-188, 258-283, on top of the model of `filter_vmap`. `jnp.swapaxes` is a parameter in the general theorems
and defined on arrays of integers for the rest.

### Derivatives of `noinline`: `Verif/Noinline/Deriv` (C80)

Code: `internal/_noinline.py` 149-181, 214-231, 235-254, on top of the model of `filter_jvp`. `f`, the function with all transforms so far,
is any function of one pytree that may raise. Parameters: `jax.jvp` (as in C59) and `jax.linear_transpose`, which from a function of a list of
arrays, their abstract values and a cotangent makes a list of arrays or raises. A leaf of the arguments of a transposition is either known
or an `UndefinedPrimal`. Left out: the check that the index and the transforms have no tangents (218-220) and are all known (237-242), and
line 222, whose result is not used.

### Outputs of `noinline`: `Verif/Noinline/Output`, `OutputProps` (C100)

Code: `internal/_noinline.py` 34-42, 57-74, 103-126, 141-146, 200-210. Parameters: `abstract_fn` and the transforms on abstract values, dropping of weak
types, and what `jax.jit` makes of Python numbers that a function returns. `mlir.emit_python_callback` is modelled by its comparison of outputs with
declarations; its errors are `RuntimeError`s. The least recently used entry leaves the cache, as in `functools.lru_cache`. Left out: `float0`.

### Costs of the checkpointed loop: `Verif/Loop/Checkpoint/Cost`, `Keep` (C81, C82)

No further code is modelled. `CostSpec` and `KeepSpec` are specifications without reference to the model: the cost of recursive halving and of any
other choice of checkpoints, and the rule by which checkpoints are evicted. C82 gives the gaps that occur in C81.

### Which `__init__`, and what `strict` refuses: `Verif/Module/WhichInit`, `Verif/Module/Decision` (C83, C33)

`initIn` and `initOf` say what the `__dict__` of a class and the lookup of `__init__` give, once `dataclass` has been applied; they use the
flag computed in `Module/Class`. `strict_decision` is about all configurations: strict classes are exactly those that obey
the rules listed in `Obeys`.

### `announce_transform` (C84)

`Debug/AnnounceModel.lean` is `debug/_announce_transform.py`. An array under a list of transforms is a nested pair (`Tr`): primal and perhaps a
tangent, or a value and perhaps a batch axis. `bind` calls the rule of the innermost transform for which some argument is batched or
differentiated, as JAX does. `jit` is outermost or absent, and its results stand for those of `_mlir`. `Full` and `announced` are the
specification of what is announced. Symbolic zero cotangents and dead code elimination are not modelled.

### `unvmap_all`, `scan_trick`, `Embedding`, `PReLU` (C85, C86, C87)

`Unvmap/Model.lean`: an array under a nest of `vmap`s is a physical array and one optional axis for each of them; the three primitives bind their
way out of the nest. The specification (`lane`) slices the physical array. `Misc/ScanTrick.lean`: `lax.scan` and `lax.switch` after their
documentation; `nonbatchable` is that of C68. `NN/Embedding.lean`: indexing after JAX's documentation.

### Paths and files: `Verif/Serialise/Files` (C88)

The disk is a map from paths to contents, the directories which exist, and the list of files which are open; a path is a directory and a name.
`Path.suffix` and `Path.with_suffix` are those of Python up to 3.13, where a name ending in a dot has no suffix. `open` raises only if the directory or,
for reading, the file does not exist: permissions, directories with the name of the file, and full disks are left out. The bytes read and written are
those of `Verif/Serialise`.

### The cache of `filter_pmap`: `Verif/Vmap/PmapCache` (C89)

On top of `Verif/Vmap/Pmap.lean`. The function is a pytree with arrays and static leaves here. Containers are compared exactly, static leaves up to `==`. The programs
`jax.pmap` keeps for one function are left out (it is run anew); `lower` is in C123. `max_out_size` in an entry comes from the first lane of the call which made it;
that it fits later calls needs that the ranks of outputs depend on shapes and dtypes of inputs only (`Shapely`).

### `backward_nan`, `breakpoint_if`, `assert_dce`: `Verif/Debug/BackwardNan` (C90)

`_backward_nan` is built from the models of `filter_custom_vjp` (`Custom/Model`) and `error_if` (`Errors/Model`), so that C90 is a
consequence of C49 and C32 and not a new model of either. The call of `backward_nan` inside of its own forward rule is a call without tangents
(a second derivative is not modelled). Printing is a record of name, primals and cotangents; a name with braces would be read by `str.format`
and is left out. The backward rule is not run under `vmap`.

### Methods of modules: `Verif/Module/Bound` (C91)

On top of the objects of `Module/Instance` there are classes with bodies and a method resolution order, Python's lookup of attributes
(properties, then the instance, then the class), `_wrap_method.__get__`, `__get__` of the wrappers (`Partial(self, instance)`), and calls of
`BoundMethod` and `Partial`. Calls of leaves and of all other modules are parameters. `classmethod`, `__getattr__` and `super()` are left out;
`__isabstractmethod__` of `_wrap_method` is C34.

### Enumeration items in batches: `Verif/Enum/Traced` (C92)

The value of an item is a traced array of C32's model, so that under `jax.vmap` the elements of a batch may be different items. `__getitem__`,
`==`, `!=`, `promote`, `where`, `error_if`, `is_traced`, `isinstance` are modelled on these, on the tables of C16. In comparisons and in
`where` one operand is traced (the item, or the predicate). Indexing with an array clamps, as JAX does. `__repr__` and `__doc__` are left out.

### Derivatives of `error_if`: `Verif/Errors/Diff` (C93)

`_error` with its rule `_error_jvp` is an instance of the model of `filter_custom_jvp` (C49), inside `branched_error_if_impl` (C32). A leaf comes
with its tangent. `pred` and `index` are passed as arrays of no dimension; messages are left to C32.

### Fields of modules: `Verif/Module/Fields` (C94)

Theorems about `collectFields` of `Verif/Module/Class`, which stands for `_better_abstract.py:dataclass` together with the part of
`dataclasses.dataclass` that collects fields. `firsts` (first occurrences), `declared` and `ownKind` are the specification.
Defaults of fields, `init=False` and `kw_only` are not modelled, so the order is that of `__dataclass_fields__`; the parameters
of `__init__` are those of them that are fields, in the same order.

### Reporting errors: `Verif/Jit/Report` (C95)

`_call` of `_jit.py` around the compiled function: the globals `last_msg` and `last_stack`, the translation of a `JaxRuntimeError`,
the logging filter. The run of a compiled program is any sequence of callbacks (the `raises` of an `error_if`, or a callback of the
user that calls another wrapped function) ending in any result. The `JaxRuntimeError` says which `_EquinoxRuntimeError` its text
comes from. Not modelled: tracebacks, the TPU branch, functions compiled ahead of time (`Compiled.__call__` does not translate errors).

### Random keys: `Verif/NN/Keys` (C96)

Keys are terms (`given n`, or part `i` of a key split in `n`), and a computation returns the list of all uses of keys (drawing
numbers or splitting) next to its result. Modelled line by line: `default_init`, the constructors of `Linear`, `MLP`, `GRUCell`,
`LSTMCell`, `Conv`, `ConvTranspose`, `MultiheadAttention`, `Embedding`, `SpectralNorm` as far as they draw parameters, and the
handling of keys in the calls of `Dropout`, `MultiheadAttention` and `Sequential`. Shapes are lists of naturals, bounds are real
numbers. Not modelled: the numbers drawn (that different keys give independent numbers is the contract of `jax.random`), the
15 power iterations of `SpectralNorm.__init__` (C66), `math.sqrt` in floating point, negative sizes, and layers of the user
inside a `Sequential` (they count as ignoring their key). The vmap over heads is a loop over the heads.

### Warnings when a module is made: `Verif/Module/Warnings` (C97)

`_ActualModuleMeta.__call__`, the `__setattr__` in force during `__init__`, and `_warn_jax_transformed_function`, as far as they warn.
A callable is a leaf with the chain of its `__wrapped__` values, which is taken to be finite. Assignments that raise, class attributes
that are not defaults, properties, and `__check_init__` are left to C35.

### The generated `__init__`: `Verif/Module/Generated`, `GeneratedProps`, `Annotations` (C101, C102)

Modelled: `eqx.field` (`_module.py`, 53-128); what `dataclass(init=True)` (292) refuses, the signature of the `__init__` it generates and its
body; passing of positional and keyword arguments; `_ActualModuleMeta.__call__` (501-567) from the first line on, with `construct` of
`Verif/Module/Init` for what follows `__init__`; the replacement of annotations (302-324) on a heap of functions. `dataclasses` and the
flattening of arguments by JAX are modelled after their documentation; `InitVar`, and factories with side effects, are left out. The theorems
assume that field names are bound on the class to the plain defaults of the fields (not to properties, and not to the default of an ancestor that
was declared again without one).

### Pretty printing: `Verif/Misc/PFormat` (C103)

Modelled: `tree_pformat` (`_pretty_print.py`, 26-65), as the document that is laid out; `wadler_lindig.pdoc` after its documentation, with what it
shows by itself for arrays, structs and functions as parameters. The layout, and so `width` and `indent`, are not modelled.

### Layers named after their dimensions: `Verif/NN/Named`, `NamedProps`, `NamedBody`, `AdaptiveValue` (C104, C43)

`nn/_conv.py` 253-352, 623-727 and `nn/_pool.py` 158-441, 535-598. A call is a list of positional and a list of keyword arguments; `bind` is Python's
matching of arguments with a signature (too many, unknown, given twice, missing: TypeError). The bodies call the constructors of `ConvModel` and
`PoolModel` with keyword arguments, as the source does. `AdaptivePool.__init__` (480-503) is modelled here as well. `AdaptiveValue` shows that pooling
the axes one after the other by means or maxima gives the mean or the maximum of the box. Not modelled: `bool` arguments in places of integers,
arguments that are not natural numbers in places of numbers of channels (taken to be a TypeError), integer arrays given to `MaxPool` (whose initial
value is a floating point number).

### The class a module has while it is made: `Verif/Module/Initable`, `InitableProps` (C105)

`_ActualModuleMeta.__call__` as far as the class of the instance is concerned, `_make_initable` with its `lru_cache`, `_make_initable_wrapper`, the
`__setattr__` of temporary classes, unflattening, `module_update_wrapper` in place, `clear_caches`: a transition system over assignments to
`__init__`/`__post_init__` of classes, the beginning and end of calls (a stack), assignments to instances, copies. Not modelled: functions that are not
compared by identity; `abc.update_abstractmethods` (the temporary class keeps the abstract methods the class had when it was made); renaming a class.

### Signatures of modules: `Verif/Module/Signature`, `SignatureProps` (C106)

`_module.py` 493-498, and the arguments of `__call__` (501, 514) on their way to `__init__`. `bind` is CPython's passing of arguments for all five kinds of
parameters; `bind_iff` shows that it does what the specification `Enters` says. Assumed: `inspect.signature(__init__)` lists the parameters of
`__init__`; `Signature.bind` does what a call with these parameters does. `__init__` is a function.

### Environment variables: `Verif/Misc/Settings` (C107)

`_config.py`, `fixed_jit` (`_errors.py:171-191`), `GetKey`. `int` of a string, `PRNGKey`, `fold_in` and `random.randint` are parameters. Programs for
`fixed_jit` are trees of computations, sequences, traces (`lax.scan`, `eval_shape`) and jitted calls; the cache of `jax.jit` is left out, and of the
static arguments only whether they can be hashed is kept. `lower` is modelled up to the attribute that it asks for.

### Arguments of wrapped functions: `Verif/Module/Forward`, `ForwardProps` (C108)

The `__call__` methods of eleven wrappers of `_jit.py`, `_ad.py`, `_make_jaxpr.py`, `debug/_max_traces.py`, `internal/_noinline.py`,
`internal/_closure_to_pytree.py` and of `BoundMethod`, up to how they pass arguments on; the filtering of arrays on the way is the identity (C01). Python's
`inspect.Signature.bind` and `BoundArguments` are modelled; `inspect.signature` is taken to follow `__wrapped__` and otherwise to give the parameters of
`__call__`. `lawful_bind` is the hypothesis `World.LawfulBind` of C27, for dictionaries whose keys differ. Left out: static argument of
`jax.jit`, `filter_vmap`, `filter_pmap` (C29-C31), `filter_jvp`, `filter_vjp`, `filter_closure_convert` and `filter_eval_shape`, which are called with arguments of their own.

### Options of the wrapping functions: `Verif/Misc/Options`, `OptionsProps` (C109)

Modelled: `filter_jit` (`_jit.py:316-415`), `filter_vmap` and `filter_pmap` (`_vmap_pmap.py:215-223, 336-360, 542-551, 635-684`),
`filter_value_and_grad`, `filter_grad`, `filter_checkpoint` (`_ad.py:151-190, 229-279, 1150-1182`), `assert_max_traces` (`debug/_max_traces.py:99,
153-155`), `filter_primitive_transpose` (`internal/_primitive.py:191, 204-207`) up to the making of the wrapper, and `deprecated_0_10`
(`_deprecate.py`). Calls bind arguments as in `Verif/Module/Signature`. A `functools.partial` is the keywords it keeps; a call of it puts the new
keywords on top of these, as Python's documentation says. `inspect.signature(fun)` is a given function that may raise. Not modelled: the rest of
the wrappers (elsewhere), the text of messages, and what JAX does with the keywords passed on.

### Training with frozen leaves: `Verif/AD/Training` (C110)

The step of `examples/frozen_layer.ipynb` (cell 4), composed of the models of `partition`, `combine`, `filter_grad` and `apply_updates`, and a loop around
it. The optimiser and `+` are given functions with stated assumptions. Left out: `filter_jit` around the step (C27), `has_aux`, filter specifications with
callables (which may change with the values of the leaves) and specifications that are a proper prefix of the model.

### Ensembles and scanning over layers: `Verif/Vmap/Ensemble` (C111)

The recipes of `docs/tricks.md` (103-135, 180-229), composed of the models of `filter_vmap`, `partition` and `combine`. `jax.lax.scan` (JAX's, not
Equinox's) is modelled as a loop over the leading axis which checks the types of the carry; a carry with Python scalars is refused, where JAX would turn
them into arrays. The function that makes a model and the one that calls it are given, with the assumption that their output types depend on input types
only.

### Surgery on models: `Verif/TreeAt/Recipes` (C112)

The recipes of `docs/tricks.md` (18-52, 54-101) and the filter specification of `examples/frozen_layer.ipynb` (cell 4), with the model of `tree_at`
(identities of objects included) and of `tree_map`. A layer is a container of a given kind, its weight is a child with a given number; `init_fn`,
`Symmetric.get` and `jax.random.split` are given functions. Left out: `filter_grad` of the loss that resolves the wrappers (C48 is about the gradient).

### `ContainerMeta`: `Verif/Misc/Container` (C98)

Class bodies are dictionaries, classes lists of them (the method resolution order). Names `__x__` are told apart by a parameter.
Assumed: attribute lookup on classes, indexing of lists.

### Buffers in the carry of a scan: `Verif/Loop/ScanBuffers` (C26)

`f` is a program (`Prog`) over the buffers of the carry; the loop adds the write to `ys`. Which arrays become buffers is decided on
pytrees whose objects have identities, as the code compares with `is`. All buffers have one type of element.

### Values of convolutions: `Verif/NN/ConvValue` (C99)

The specification continues the input to all integers (`extend`), so that padding is an offset only. `ConvModel` now also has the division
by `sqrt(in_channels // groups * prod(kernel_size))` in the constructors, which is why empty kernels are refused.

### The model against equinox's own tests: `Verif/Conform`

The expectations in `tests/` that concern modelled code, carried over as `example`s that Lean evaluates (files `test_filters.py`,
`test_update.py`, `test_tree.py`, `test_enum.py`, `test_stateful.py`, `test_abstract.py`, those parts of `test_module.py`
that concern class creation and initialisation, `test_vmap.py`, the order of evaluation and the perturbation flags in
`test_while_loop.py`, pools and convolutions in `test_nn.py`, `test_serialisation.py`, `test_jit.py`, and `ω` in `test_misc.py`). They are tests of the model's fidelity, not proofs, and no claim refers to them.

### Nested maps: `Verif/Vmap/Nest` (C118)

Code: `_vmap_pmap.py:128-184`, applied to functions which are `filter_vmap`s themselves. The laws of arrays used beyond those of C29 are `Shaped` and `Grid`;
the arrays of `Verif/Vmap/Example` satisfy them.

### Enumerations with other bases: `Verif/Enum/Bases` (C113)

Code: `_enum.py:22-114`. Classes of both kinds with whole method resolution orders, and the names that `_store` warns about. `enum_only` shows that the
model of C16 and C17, which leaves out `Enumeration` and `object`, is what this one gives if all bases are enumerations. Ordinary classes have no metaclass of
their own and no base that prevents a common layout. The generated `__doc__` (99-113) is in the model of C116.

### Recipes of examples and documentation: `Verif/Serialise/Header` (C114), `Verif/Misc/FlatLoop` (C115)

`examples/serialisation.ipynb` (cells 1-3), `examples/init_apply.ipynb` (cell 0) and the low-overhead training loop of `docs/tricks.md` (137-178), on
top of the models of `_serialisation.py` and `_filters.py`. JSON is a parameter, `readline` is modelled.

### The documentation of enumerations: `Verif/Enum/Doc` (C116)

`_enum.py:99-113` and `_magic` (18-19), on top of `Verif/Enum/Model`; strings are lists of characters, names are given concretely. All bases are
enumerations. What is not a string has no method `replace`.

### The argument `max_steps`: `Verif/Loop/Common/Args` (C117)

`loop.py:97-128`, `bounded.py:48-59`, `checkpointed.py:211-244`, `common.py:437-440` for a `max_steps` that is `None`, any integer, or a `bool`. Not
modelled: floats and other types.

### Dtypes of layers: `Verif/NN/DtypeModel`, `Verif/NN/Dtypes` (C119)

Constructors and calls of the layers as far as dtypes go, operation by operation. JAX's promotion lattice (without float8 and int4 types), `jax_enable_x64`,
standard and strict promotion are part of the model; `join_lub` compares the promotion function with the lattice. `lax.select` and
`lax.conv_general_dilated` ask for equal dtypes. Arrays are strongly typed, but for the slope of a `PReLU` made from a Python float. Activations are
taken to keep dtypes. Attention in a sequence is self-attention, without `process_heads`; `Dropout` has a Python number `p`. Shapes and values are elsewhere.

### Which layers a `Sequential` can call: `Verif/NN/Calls` (C120)

The signatures of `__call__` of all layers, Python's passing of arguments, `is_stateful` and the loop of `Sequential.__call__`, as far as keys, states and kinds of
results go. Shapes are taken to fit; `BatchNorm` is taken to be inside of a suitable `vmap`; what layers compute is elsewhere.

### Backends that squelch errors: `Verif/Errors/Tpu` (C121)

The branch of `_error` for `on_error="raise"` with its two callbacks (`_errors.py:82-121`) on any backend: exceptions of callbacks stop the program, or the
callback returns arbitrary dummy values of the right structure, shapes and dtypes, as the comment in the code says of TPUs. `input` shows its argument.
`raising_backend` shows that the model of C32 is the first case.

### Data loaders of the examples: `Verif/Misc/DataLoader` (C122)

`dataloader` of `train_rnn.ipynb`, `frozen_layer.ipynb` and `score_based_diffusion.ipynb`, `train_dataloader` of `parallelism.ipynb`, as machines whose
steps are tests of the inner condition. Permutations are given, keys are not modelled, arrays are lists of rows.

### `filter_pmap` compiled ahead of time: `Verif/Vmap/PmapAot` (C123)

`_PmapWrapper.lower`, `_preprocess`, `Lowered` and `Compiled`, on top of the model of the cache (C89). Lowering is taken to raise what running raises; a
compiled program of JAX compares structure, shapes and dtypes of its arguments.

### Attention and the order of positions: `Verif/NN/AttentionOrder` (C124)

Consequences of the closed form of `MultiheadAttention.__call__` (C51 and C60); nothing further is modelled. Sums over positions are over
real numbers: in floating point, another order of summation gives another rounding.

### Convolutions and translations: `Verif/NN/ConvShift` (C125)

Consequences of the values of convolutions (C99); nothing further is modelled.

### Models made twice: `Verif/NN/Remade` (C126)

What `__init__` of `Linear`, `WeightNorm`, `BatchNorm`, `SpectralNorm` and `Shared` creates, and any module built of such fields, with identities for the objects that
Python compares by identity. An initial state is a tuple of arrays. `make_with_state` and `tree_equal` are the models of C15 and C07.

### Pooling, further laws: `Verif/NN/PoolShift` (C127)

Consequences of what `Pool.__call__` computes (C42); nothing further is modelled. `max` is that of a linear order, so NaN is left out.

### Dropout: `Verif/NN/Dropout` (C128)

`Dropout.__init__` and `__call__` on arrays of any shape, and the cotangents that JAX's rules for `where` and division give. Real arithmetic with one more value for
infinities and NaN, so that division by `1 - p = 0` is seen. `p` is a Python number or an array without dimensions. `bernoulli(key, q, shape)` is
`uniform(key, shape) < q`, as in JAX; the theorem on means integrates over one uniform draw, and nothing is said about the generator.

### Layers that compute the same: `Verif/NN/Agree` (C129)

Consequences of the values of the layers (C42, C43, C72, C99); nothing further is modelled.

### What is different while documentation is generated: `Verif/Misc/Docs` (C130)

Modelled: `doc_repr`, `WithRepr`, `doc_remove_args` (`_doc_utils.py`), over the parameters, calls and signatures of C106. Taken from Python:
`inspect.signature` returns `__signature__` if there is one, and a call does not look at it. Not modelled: other attributes of functions, that
`__signature__` of a `filter_jit`-wrapped function is lost when it is flattened, names of types with null characters.

### Entries of `compile_cache`: `Verif/Misc/CompileCache` (C131)

Modelled: `_strip_wrapped_partial`, `get_fn_names`, `compile_cache` with `delete` (`_compile_utils.py`, 34-95), `clear_caches`. Taken from Python:
`functools.lru_cache(maxsize=None)` stores what is returned and not what is raised; entries of a `WeakKeyDictionary` go with their keys.
Functions are compared by identity. Chains of `__wrapped__` are finite, and keys can be hashed.

### Normalisations that compute the same: `Verif/NN/NormAgree` (C132)

Over the model of C63; nothing further is modelled.

### Not modelled

Of `internal/`: `_onnx.py`, `_str2jax.py`.
XLA compilation, device placement, real floating point, threads, and the contents of
error messages (other than C46 and C54) are out of scope.

## Findings

Claims that turned out to be false of the code; each has a theorem with a
counterexample, and the claim is `partial` or was restated.

* C06 `tree_at_nested_none_misedits`: a `None` selected inside another selected node
  while exactly one other `None` is visible edits that other `None`.
* C25, C55 `buffer_nested_leak`, `nested_bounded_leaks`: a bounded loop with
  `max_steps=1` inside an unbatched lax or checkpointed loop writes to a buffer although
  its condition is false.
* C27, C45 `filter_jit_equal_static`, `noinline_equal_static`: static parts are compared
  by `==`, so that `1`, `True` and `1.0` are mixed up. `aot_ignores_static`: functions
  compiled ahead of time ignore the static values of later calls.
* C30 `named_varargs`: a dictionary of `in_axes` and a function with `*args` raise when
  there are more arguments than parameters.
* C32 `error_if_nan_static_fails`: `on_error="nan"` with a predicate that is true at trace
  time fails for trees with leaves that are not arrays. `error_if_nan_bfloat16`: arrays of
  `bfloat16` (and of the other dtypes of `ml_dtypes`, which `np.issubdtype` does not place under
  `np.inexact` or `np.integer`) are not replaced, so that the error goes unnoticed;
  `error_if_breakpoint_bfloat16`: continuing after the breakpoint then fails.
* C33 `strict_two_inherited`, `strict_reabstract`, `strict_magic`, `strict_init_two_bases`: ways
  to have two implementations of a method in a strict hierarchy.
* C41 `rope_theta_leak`: the cache of rotary embeddings is not keyed by `theta`.
* C47 `finalise_open_consts`: constants acquired by an open jaxpr are dropped. `maybe_set_left`: the `impl` rule of `maybe_set` binds
  `select_if_vmap` (`_loop/common.py:144`), so that a finalised checkpointed loop still contains a custom primitive, which
  has a rule; finalising twice removes it. `vprim_left`: `_vprim_p`, which `maybe_set` becomes under `vmap`, is not registered.
  `noinline_left`: a noinlined function is traced by the `impl` rule, and custom primitives in it stay.
* C17 `enum_override_lost`: a grandparent's message wins over a parent's override.
* C14 `state_update_unchecked`: `State.update` compares no structures.
* C42 `pool_ceil_spurious`, C44 `output_padding_not_elementwise`, C22
  `default_zero_steps_raises`, C52 `omega_code_blind`, C05 `tree_at_changes_odd_tuples`,
  C07 `tree_equal_rtol_not_symmetric`, C09 `np_bfloat16_never_loads`, C35
  `wrapper_named_field`, C45 `noinline_batch_mixed`.
* C64 `inspect_dce_two_calls`: `inspect_dce` does not clear `new_leaves` between entries, so
  a second call of `store_dce` under one name makes it raise a ValueError.
* C68 `nonbatchable_outer`: `nonbatchable` with `allow_constant_across_batch` checks and
  removes only the innermost `vmap`; a value that is constant across the inner and not across
  the outer axis passes, still batched. `nonbatchable_nan`: a constant batch with a NaN is refused.
* C69 `cached_equal_objects`, `cached_weak`: `cached_filter_eval_shape` answers a call with `1.0`
  by what it found for `1`, and takes weakly typed arrays for strongly typed ones.
* C70 `equal_defaults`, `equal_lambdas`: `closure_to_pytree` compares functions by qualified name,
  module and source, so that functions with other defaults, or two lambdas on one line, are
  equal, and `filter_jit` uses the one compiled for the other.
* C71 `jacfwd_no_inputs`, `jac_outputs`: without floating-point leaves to differentiate
  `filter_jacfwd` raises a `ValueError`, where `filter_jacrev` returns `None`s; without outputs it
  is the other way round. (`filter_grad` accepts either.)
* C73 `none_swapped`: `filter_pure_callback` compares only the parts without
  arrays, where `None` stands for an array. A function that returns `(array, None)` for the
  declaration `(None, struct)` gives `(None, array)`.
* C75 `twice_wrong`, `overwritten_wrong`, `early_read_wrong`: the documented restrictions on buffers are needed; and even within them
  the cotangent of the initial contents of a location that is overwritten is not zero (the documentation does not say this; the
  tests set it to zero before comparing).
* C77 `numpy_bfloat16`: `is_inexact_array` asks NumPy about NumPy arrays, for which `bfloat16` and the 8-bit floats are
  not inexact. A NumPy array of `bfloat16` is not differentiated by `filter_grad`; the same values in a JAX array are.
* C79 `noinline_axis_two`, `swapaxes_front_fails`: the batching rule of `noinline` exchanges the batch axis with the first axis
  (`_noinline.py:93`, `jnp.swapaxes`) where it should move it (`jnp.moveaxis`). `vmap` along axis 2 or later permutes the
  other axes of what the function gets; `jax.vmap(noinline(lambda x: x), in_axes=2)` transposes.
* C81 `online_not_similar`: the docstring of `checkpointed.py` says that beyond `(c + 1) (c + 2) / 2` steps the loop "does still have similar
  asymptotic complexity" as the offline version. With a fixed number `c ≥ 2` of checkpoints the backward pass takes at least `n² / (2 c 4^(c-1))`
  iterations, where the offline version needs `O(n^(1 + 1/c))`, because the backward pass halves gaps (`_calc_next_checkpoint`, line 614,
  which the comment calls binomial). With the default number of checkpoints this does not arise (C53).
* C83 `init_diamond`, `init_mixins`: `_has_dataclass_init` of a class is that of the first module in its method resolution order, but the
  order of that module may go on differently in a diamond. With `A` having an `__init__`, `B(A)`, `X(Module)`, `C(X, A)` and `D(B, C)`, no
  `__init__` is generated for `D`, because `B` inherits that of `A`; `D.__init__` is then the one generated for `C`, and a field of `D` that
  `C` does not have is never set. The same happens with an `__init__` of a class which is no module.
* C84 `announce_reverse_fails`: the transpose rule of `announce_transform` (`debug/_announce_transform.py:101`) takes one primal, but is called
  with one for each input of the equation. Reverse mode through `announce_transform` of a pytree with two or more differentiated arrays raises
  a `TypeError`.
* C89 `pmap_equal_static`: as with `filter_jit` (C27), static values which are equal but different share an entry of the cache of `filter_pmap`: after a call
  with `1`, a call with `True` computes with `1`.
* C95 `stale_message`: `filter_jit` makes its report from the globals `last_msg` and `last_stack` (`_jit.py:270-287`). If two `error_if`s are violated
  in one run, or an argument comes from an asynchronous computation outside `filter_jit` that failed earlier, the message shown can be that of
  another `error_if` than the one which stopped the call.
* C97 `missed`: a JAX-transformed callable with arrays inside goes unnoticed if it is the default of a field (the generated `__init__` sets it
  with `object.__setattr__`, and only arguments are checked), or if an `__init__` of the user assigns a list that contains it
  (`_module.py:815` looks at the value only, while arguments of the generated `__init__` are searched as pytrees).
* C98 `inherited_wrong`: with `ContainerMeta`, inherited members keep the number that they had in the base class, but the derived class has a
  table of its own (`internal/_misc.py:30`), so `B[B.x]` is the value of another member, or an IndexError.
* C26 `scan_marks_dict`: `scan(..., buffers=lambda carry: dict(a=carry[0]))` raises, as `tuple` of the dictionary gives its keys
  (`loop.py:224`). The documentation asks only for array leaves, which is enough for `while_loop`; the annotation asks for a sequence.
* C100 `compiled_nonarray`: a noinlined function may return any pytree ("`PyTree[Any] -> PyTree[Any]`"), but if a leaf of it is not an array the call
  works outside of `jit` only: the callback (`_noinline.py:120`) returns all leaves, where the lowering (line 330) declares the arrays only, and the
  call raises a `RuntimeError`.
* C101 `unflattenable_refused`: `class Foo(eqx.Module): d: dict = eqx.field(static=True)` cannot be called with `{1: 0, "a": 0}`: all arguments of a
  generated `__init__` are flattened (`_module.py:507`) to look for JAX-transformed functions, and JAX raises a `ValueError` for dictionaries whose
  keys cannot be sorted. With an `__init__` that assigns the same value there is no error. Also, a field called `cls` cannot be passed by keyword,
  as that is the name of the first parameter of the metaclass's `__call__` (501).
* C102 `written_replaced`, `inherited_changes`: the annotations of an `__init__` that the user wrote are overwritten for parameters that have the name
  of a field with a converter (`_module.py:302-324` runs whether or not the `__init__` was generated, unlike its comment says); a subclass that adds
  a converter thereby changes the `__init__` of its superclass.
* C103 `options_lost`, `partial_not_as_documented`: `truncate_leaf` is documented as "applied to all nodes in the PyTree", but not inside of a
  `jtu.Partial` or a function decorated with `jax.custom_jvp` or `jax.custom_vjp`: `_pretty_print.py:57` and `:61` call `wl.pdoc` without options, so
  `short_arrays`, `struct_as_array`, `truncate_leaf` and `indent` have no effect there.
* C104 `convT3d_dtype`, `convT3d_ignores_dtype`: `ConvTranspose3d.__init__` does not pass its `dtype` on (`nn/_conv.py:714-727`; `ConvTranspose1d`
  and `ConvTranspose2d` do), so the weights always have the default dtype.
* C104 `convT1d_swapped`, `convT2d_positional`: in `ConvTranspose1d`, `ConvTranspose2d`, `ConvTranspose3d` the parameter `output_padding` comes before
  `padding` (`nn/_conv.py:631-633`, `667-669`, `703-705`), in `ConvTranspose` after it (378-380), so the same positional arguments mean different things.
* C105 `leaked_copy`: a copy of `self` made in `__init__` (by `tree_map`, `tree_at`, or by passing `self` through `jit`) is of the temporary class
  (`_module.py:484-489, 901-917`), also after `__init__` has ended: its fields can be assigned for ever, and its tree structure differs from that of the
  instance. `leaked_failure`: an instance kept although its `__init__` raised can be assigned, too; one whose `__check_init__` raised cannot.
* C106 `star_refused`: `__signature__` drops the first parameter of `__init__` even if it is `*args` (`_module.py:497`), so that `inspect.signature` of
  such a module refuses positional arguments that the class takes. `self_keyword`, `cls_keyword`: keywords `self` (with `**kwargs`) and `cls` fit the
  signature, but the call raises `TypeError`.
* C107 `lower_breakpoint`: with `EQX_ON_ERROR=breakpoint` `jax.jit` is replaced by a function that returns a plain function (`_errors.py:175-191`),
  so `filter_jit(f).lower(...)` raises `AttributeError` (`_jit.py:248`). `unhashable_differs`: a nested jitted call with static arguments that cannot
  be hashed returns in that mode and raises otherwise.
* C108 `keyword_self`: wrappers whose `__call__(self, *args, **kwargs)` has no `/` (`_ad.py:60, 826, 1205`, `_make_jaxpr.py:32`, `_max_traces.py:49`,
  `_noinline.py:357`, `_closure_to_pytree.py:82`, `_module.py:1041`) refuse a keyword `self` that the function takes; `filter_jit`, `filter_jacfwd` and `filter_custom_vjp`
  have the `/`, and `filter_grad` has it without effect, since it calls `filter_value_and_grad` with the keyword. `keyword_diff_x`: nor can functions with
  parameters `_diff_x` and `_nondiff_x` be differentiated with these passed by keyword. `noinline_keyword`: `filter_jit(noinline(f))(x=1)` raises `TypeError`,
  because `__wrapped__` of a noinlined function is `abstract_fn(__dynamic_fn, *args, **kwargs)` (`_noinline.py:354`), which the signature follows.
* C109 `max_traces_first`: `assert_max_traces()(f, max_traces=1)` raises `TypeError`, since `max_traces` has no default (`_max_traces.py:99`); all other
  options can be given at any time. `donate_argnames`: `filter_jit(f, donate_argnames=...)` is passed on to `jax.jit`, where it names parameters of the function
  that equinox makes; the check (`_jit.py:382-388`) knows of `donate_argnums` only. `checked_late`: `filter_jit(donate="typo")` raises only when it is
  applied to a function.
* C113 `mixin_accepted`: the check "Cannot subclass enumerations with non-enumerations" looks at `original_base.__mro__[:-2]` (`_enum.py:81`), which is
  empty for an ordinary class that inherits from `object` only: `class A(Foo, Enumeration)` is accepted. `mixin_hides`: attributes of `Foo` then
  hide items of the same name. `mixin_child`: `class B(A)` raises, but not if `A` was declared as `class A(Enumeration, Foo)`. `enum_warns_again`: a
  subclass of a class that overrides a message warns, though it says nothing itself, and has the grandparent's message.
* C120 `prelu_refused`: `PReLU.__call__` (`_activations.py:35`) has no parameter `key`, unlike all other layers, so that a `Sequential` that contains a `PReLU` raises
  `TypeError` whenever it is called. Wrapping it in a `Lambda` helps.
* C121 `squelched_bfloat16`: on a TPU a `bfloat16` array, the usual dtype there, is not turned into NaNs by an error, as `_nan_like` does not know the dtype
  (as in C32); the program goes on with whatever dummy values the backend supplies, after the message was shown.
* C122 `epoch_incomplete`, `loader_hangs`: the data loaders of `frozen_layer.ipynb` and `score_based_diffusion.ipynb` test `end < dataset_size`, those of
  `train_rnn.ipynb` and `parallelism.ipynb` `end <= dataset_size`. The first leave out a whole batch if batches fit exactly, and never
  yield a batch but loop forever if a batch is the whole data set.
* C123 `compiled_ignores_static`: as with `filter_jit` (C27), a function compiled ahead of time uses the static arguments it was lowered for and does not look at
  those of the call.
* C121 `squelched_out_of_range`: on a TPU, `branched_error_if` with an index that selects no message shows nothing and goes on with dummy values, as both callbacks
  fail to look up the message and both exceptions are squelched. Elsewhere it is an `IndexError` (C32 `branched_error_if_out_of_range`).
* C128 `gradient_one`: `Dropout` with `p = 1` returns zeros, and its gradient is NaN in every element: `where(mask, x / q, 0)` divides the zero cotangent by `q = 0`. Selecting
  before dividing would avoid it. `p` outside of `[0, 1]` is not refused.
* C131 `delete_wrapped`: `delete` of a cached function takes off `functools.wraps` wrappers and partial applications before it looks for an entry; entries are
  made for the function as given. Deleting a wrapper keeps its entries, and removes those of the function it wraps.
Smaller observations, made while modelling and visible in the models:

* loops: `buffer_at_set` on plain arrays drops keyword arguments of `.set`
  (`common.py:360`); `scan` treats every `kind` other than "lax" as checkpointed; frozen
  lanes still run bodies; checkpointed `max_steps=0` with `checkpoints=None` raises.
* `State`: a stale State as the argument of `update` raises AttributeError; a StateIndex
  that occurs twice in a model becomes two states in `make_with_state`.
* serialisation: trailing bytes are never checked; scalars in `like` are silently
  converted; huge Python ints cannot be loaded.
* `tree_at`: the same node selected twice: the last replacement wins; an `is_leaf` that
  accepts tuples makes a `where` with several nodes raise.
* pooling: lengths of `kernel_size` and `stride` sequences are not validated; `AdaptivePool`
  applies the operation twice when the target divides the size.
* `filter_pmap` passes arguments that are not arrays whole under an integer axis while
  `filter_vmap` refuses them.
* `error_if` with a concrete array predicate and no array in `x` raises ValueError even if
  the predicate is false; with `on_error="breakpoint"` and everything static the message
  is printed twice.
* modules: `x: int = field()` overriding an AbstractClassVar makes the class concrete but
  its subclasses abstract; methods called `mro` or `register` are refused on strict
  modules; `Partial(f, cls=...)` and keyword `self` raise TypeError.
* `filter_custom_vjp`: a gradient returned for a leaf that is not inexact is silently
  ignored; closure-converted functions use the static leaves of the example.
* `assert_max_traces`: calls whose arguments do not fit the signature are counted.
* `noinline`: `tangents` computed in `_noinline_jvp` (line 222) are unused.
* `create_vprim`: a symbolic zero returned by a `jvp` rule comes back with the shape of one
  lane; transposing raises a ValueError for undefined inputs that are not mapped; rules of
  the base primitive see `None` instead of symbolic zeros under `vmap`.
* `GroupNorm` does not compare its number of channels with that of the input: a layer of
  one channel takes inputs of any number of channels.
* `LSTMCell` broadcasts a cell state of length one; `GRUCell` and `LSTMCell` with
  `hidden_size=0` raise a ZeroDivisionError.
* `tree_serialise_leaves` opens the file before it looks at the tree: a save that raises has already emptied a file that was there
  (`failed_save_truncates`).
* `backward_nan(..., terminate=True)` stacks one boolean for each cotangent that is an array: if all of them are symbolic zeros it raises a
  ValueError instead of passing them on (`backward_nan_rule`).
* `ConvTranspose.__init__` does not check that `groups` divides `in_channels`, unlike `Conv.__init__`: the layer is made
  with a kernel for fewer channels and fails when called (`Keys.transpose_unchecked`).
* A stateful layer that is used in two places of a model has one state with `State(model)` but two after `make_with_state`, which numbers
  occurrences (`make_with_state_unties`, `state_of_shared`); the documentation of `Shared` says that modules are trees.
* The low-overhead training loop of `docs/tricks.md` silently differs from the ordinary loop if a step moves leaves but keeps their number
  (`flat_train_silent`); if the number changes it raises (`flat_train_count`). `save` of `examples/serialisation.ipynb` empties the file before it finds out
  that the hyperparameters cannot be written (`save_bad_hyperparameters`).
* A method in the body of an enumeration makes the class statement raise an AttributeError about `replace`; if the body has a docstring, the method
  silently becomes an item, and the error appears in the first subclass without a docstring (`enum_doc_statement`).
* The three kinds of `while_loop` treat a `max_steps` that is zero or negative in three different ways (`steps_zero`, `steps_negative`); in particular
  `kind="checkpointed"` without `checkpoints` raises for `max_steps=0`, where the others return the initial value.
* `BatchNorm` in training refuses inputs of any other precision than its own (`batch_norm_training`): `lax.select` does not promote (TypeError), and `State.set`
  keeps the dtype (ValueError). In inference mode it takes them, and the other normalisation layers always do.
* `WeightNorm` keeps a new `functools.partial` in a field that is not static (`equal_iff`, `layers` of C126): two `WeightNorm`s made with the same arguments are not
  equal for `tree_equal`, and `filter_jit` compiles again for the second one. The same is true of `Shared`, whose placeholders have no `__eq__`.

## Axioms per theorem

Output of `#print axioms` for the theorems named in `MANIFEST.json`.

`propext`, `Classical.choice`, `Quot.sound`:
* Verif.Filters: combine_partition, combine_partition_isLeaf, filter_governed, filter_frame, filter_succeeds_iff, combine_leaf, combine_frame, combine_succeeds_iff, combine_eq_merge, combine_assoc, combine_laws, applyUpdates_spec, applyUpdates_succeeds_iff, applyUpdates_frozen, is_inexact_array_like_partial
* Verif.TreeAt: tree_at_replaces, tree_at_put_get, tree_at_replace_fn, tree_at_get_put, tree_at_put_put, tree_at_succeeds, tree_at_fn_succeeds, tree_at_many_succeeds, tree_at_many_put_get, tree_at_many_replace_fn, tree_at_many_get_put, tree_at_many_put_put, tree_at_once, tree_at_one_iff, tree_at_raises_not_a_node, tree_at_raises_nested_partial, tree_at_raises_ambiguous_partial, tree_at_raises_none_twice, tree_at_raises_count, tree_at_where_agrees, tree_at_nothing
* Verif.TreeAt.ErrorKinds: check_iff
* Verif.TreeEqual: tree_equal_iff, tree_equal_is_true, tree_equal_refl, tree_equal_symm, tree_equal_trans
* Verif.TreeCheck: tree_check_terminates, tree_check_iff, tree_check_raises, tree_check_error, tree_check_cycle, tree_check_shared_leaves
* Verif.Ser: round_trip, round_trip_self, stream_round_trip, load_checked, load_conforms, truncated_raises, load_error_path, file_of_path, save_load_path, path_errors, save_load_file, failed_save_truncates
* Verif.State: state_get_latest, state_clone, state_structure_constant, make_with_state_spec, make_with_state_no_init, make_with_state_interchangeable, make_with_state_unties
* Verif.Enum: enum_distinct, enum_values, enum_names, enum_other_names, enum_promote, enum_promote_item, enum_promote_compose, enum_promote_injective, enum_promote_unrelated, enum_create_ok, enum_message_own, enum_message_unique, enum_message_inherited
* Verif.Checkpoint: checkpointed_grad_exact, checkpointed_grad_exact_no_buffers, forward_memory, backward_memory, forward_checkpoints_valid, stummWalther_never_errors, backward_iterations, default_checkpoints_least, resolve_spec, default_zero_steps_raises, default_recomputes_once, recomputed_once, backward_cost, backward_quadratic, offline_cost, online_not_similar, forward_kept
* Verif.Checkpoint.Rounding: default_rounded, resolve_rounded, exists_rounding
* Verif.Common: while_loop_value, while_loop_returns, bounded_value, lax_terminates, checkpointed_forward_value, nested_bounded
* Verif.Common.Log: log_not_rounded_down, bounded_while_loop
* Verif.Scan: scan_value, scan_succeeds, scan_inconsistent, scan_empty
* Verif.Scan.Buffers: scan_buffers_value, scan_buffers_succeeds, scan_marks
* Verif.Jit: filter_jit_transparent, filter_jit_exact_partial, aot_transparent, donation, donate_rejected
* Verif.Vmap: filter_vmap_lanes, filter_vmap_succeeds, filter_vmap_no_axis, filter_vmap_sizes, filter_vmap_bad_axis, if_array_axis, named_in_axes_partial, filter_vmap_named_partial, filter_pmap_lanes, filter_pmap_succeeds, filter_pmap_axis_range, filter_pmap_config, pmap_cached, pmap_cached_exact_partial, pmap_once
* Verif.Errors: branched_error_if_quiet, branched_error_if_raises, branched_error_if_nan_partial, branched_error_if_breakpoint_partial, branched_error_if_out_of_range, branched_error_if_no_array, error_if_quiet, error_if_raises, error_if_no_array
* Verif.Module: strict_concrete_final, strict_name, strict_fields, strict_override, strict_checked, strict_single_impl_partial, strict_unique_impl_partial, strict_init_once_partial, field_names, custom_init, abstract_attributes, abstract_methods, instantiable_iff, instance_provided, missing_attribute_raises, provided_instance, unflatten_flatten, flatten_unflatten, module_round_trip, unflatten_leaves, module_eq_iff, module_hash_eq, update_wrapper_attrs, update_wrapper_children, update_wrapper_twice, init_inherited_partial
* Verif.Module.Init: missing_raises
* Verif.Sequential: seq_flat, seq_trace, returns_state_iff, stateless_keeps_state, seq_slices, seq_slice_bounds, seq_keyless
* Verif.Sequential.Slices: slice_ahead, slice_back
* Verif.Inference: inference_mode_sets, inference_mode_last
* Verif.Shared: shared_init, shared_call, shared_tied, shared_structure, shared_round_trip, shared_many_init, shared_many_call
* Verif.Rope: rope_value_partial, rope_history_partial, rope_clear, mk_ok_iff, rope_theta_leak, rope_relative, rope_norm, rope_zero
* Verif.NN: pool_sizes, pool_ok_iff, pool_ceil_covers, pool_max, pool_sum, avgpool_value, block_sizes, adaptive1d_value, adaptive_value, adaptive_shape, adaptive_ok_iff, conv_shape, conv_shape_same, convT_shape, conv_mk, convT_mk, conv_adjoint, embedding_init_iff, embedding_init_sizes
* Verif.NN.Adaptive: adaptive_avg, adaptive_max
* Verif.Noinline: noinline_stack_partial, noinline_call_partial, noinline_compiled_partial, noinline_compiled_call_partial, noinline_vmap_partial, batchedCall_lanes, noinline_derivative, noinline_transposed, noinline_transposed_impl
* Verif.MaxTraces: num_traces, max_traces_call, max_traces_bad_args, max_traces_blame
* Verif.Finalise: finalise_meaning, finalise_eval
* Verif.Finalise.Registry: library_meaning
* Verif.AD: value_and_grad, value_and_grad_ok, filter_grad, grads_update, filter_vjp, filter_vjp_ok, filter_jvp, filter_jvp_ok
* Verif.Custom: nondifferentiable_spec, custom_vjp_call, custom_vjp_diff, custom_vjp_old, custom_jvp_call, custom_jvp_diff, custom_jvp_old, make_jaxpr_spec, closure_convert_call, closure_convert_same, closure_convert_in_struct
* Verif.BatchNorm: training_call, inference_call, running_statistics, fresh_layer, weights_sum, held_same_batch, heldVar_nonneg, training_unbound, wrong_channels, stale_state
* Verif.Attention: attention_formula, attention_convex, masked_key_irrelevant, masked_position_irrelevant, masked_weight_small, masked_limit, all_masked_uniform, mask_shape, multihead_formula, multihead_dropout, multihead_no_key, multihead_no_leak, multihead_lengths, multihead_mask, multihead_process, dropout_inactive, dropout_no_key, dropout_active
* Verif.Omega: omega_binary, omega_call, omega_scalar_right, omega_expr, omega_scalar_left, omega_value
* Verif.Primitive: bind_impl, bind_jit, bind_jit_mismatch, bind_pair, transpose_eqn
* Verif.VPrim: vprim_impl, vprim_abs, vprim_jvp, vprim_transpose, vprim_transpose_raises
* Verif.Norm: layerNorm_eq, rmsNorm_eq, groupNorm_eq, fresh_layerNorm, fresh_rmsNorm, mkGroupNorm_eq, norm_wrong_shape, groupNorm_refused, groupNorm_channels_unchecked, groupNorm_one, standard_mean, standard_meanSq, layerNorm_affine_input, rms_meanSq, rms_eq_layerNorm
* Verif.Dce: store_dce_identity, inspect_dce_partial, inspect_dce_raises, callback_ok
* Verif.WeightNorm: call_eq, mk_eq, fresh_eq, used_zero_group, groupNorm_zero_iff, g_ok, used_norm, used_scale, normExceptAxis_eq
* Verif.SpectralNorm: call_training, call_inference, calls_short, calls_training, used_ge_one, estimate_le, estimate_next, estimate_mono, estimate_steps_mono, estimate_rate, estimate_converges, estimate_rank_one, next_short, mk_eq, mk_error, call_raises
* Verif.Rnn: gru_call, lstm_call, gru_run, lstm_run, gruNext_bound, gru_error, lstm_error, gru_mk, lstm_mk
* Verif.Nontraceable: nontraceable_spec, nonbatchable_spec, nonbatchable_constant_partial, nonbatchable_outer, nonbatchable_empty, nonbatchable_nan, grad_spec
* Verif.EvalShape: eval_shape_spec, eval_shape_values, eval_shape_sound, cached_spec, cached_exact_partial, cached_once, cached_runs, cached_equal_objects, cached_weak, eval_full_spec
* Verif.ClosureTree: convert_leaves
* Verif.AD.Jac: jacfwd_spec, jacrev_spec, jac_agree, jac_entry, hessian_spec, hessian_symmetric, jacfwd_no_inputs, jac_raises, jac_outputs
* Verif.NN.Mlp: linear_spec, linear_errors, linear_init, vmapApply_spec, mlp_spec, mlp_depth_zero, mlp_init, mlp_fresh, mlp_first_error, mlp_activation_error
* Verif.Callback: callback_spec, callback_exact_partial, callback_declared, none_swapped
* Verif.Perturb: gradient_exact, perturb_least, perturb_strict, zeros_greatest, stop_gradient_exact
* Verif.BufferGrad: gradient_exact, jvp_exact, reverse_exact, twice_wrong, overwritten_wrong, early_read_wrong
* Verif.NextAfter: next_daz, next_denormals, next_zero, next_zero_skips, prev_daz, prev_denormals, prev_zero, prev_next_daz
* Verif.Remat: filter_checkpoint_spec, filter_checkpoint_eq, filter_checkpoint_derivatives, filter_shard_ok, filter_shard_not_prefix, filter_shard_error, filter_shard_device
* Verif.Noinline.Ex: swapaxes_front, noinline_axis_two
* Verif.Announce: announce_identity, announce_lines, announce_reverse_partial
* Verif.Debug: backward_nan_call, backward_nan_diff, backward_nan_rule, assert_dce_spec
* Verif.Module.Bound: method_call, method_metadata, method_leaves, method_map, decorated_map
* Verif.Enum.Lanes: item_message, item_compare, item_promote, item_where, item_error_if
* Verif.Errors.Diff: error_if_diff
* Verif.Module.Fields: field_order, field_iff, field_agree, field_nearest
* Verif.Jit.Report: reports_cause_partial, reports_last, filters_restored, filter_in_place
* Verif.NN.Keys: make_once, made, refused, call_once, call_draws, transpose_unchecked
* Verif.Module.Warnings: construct_errors
* Verif.NN.Value: conv_value, convT_value, conv_ok_iff, convT_ok_iff, convT_circular_ok_iff, conv_mk_iff, conv_mk_raises, convT_mk_iff, convT_mk_mode, rank_raises, lim_raises
* Verif.Noinline.Output: announced, announced_exact_partial, announced_once, cache_bounded, finish_iff, finish_consistent, compiled_output_partial
* Verif.Module.Generated: define_spec, call_spec, call_returns_iff, call_raises, call_missing, position_or_keyword
* Verif.Module.Annotations: annotate_idem
* Verif.NN.Named: convT1d_partial, convT2d_partial, convT3d_partial, convT1d_swapped, convT2d_swapped, convT3d_swapped, avg_value, max_value, adaptive_avg_value, adaptive_max_value, adaptive_errors, conv_layer, convT_layer
* Verif.Module.Initable: init_current, post_current, during_init, finished_frozen, copy_frozen, all_frozen_partial, reused, remade, cleared
* Verif.Module.Signature: call_iff_partial, call_self, no_self, first_star, generated_signature, self_keyword, cls_keyword, star_refused
* Verif.Misc.Settings: load_spec, breakpoint_inlines, getkey_keys, getkey_reproducible, getkey_seed
* Verif.Module.Forward: bound_same, lawful_bind, passes_partial, jit_passes, reserved_refused, first_refused, jit_moves_first, jit_noinline, method_iff, lower_iff, keyword_self
* Verif.Misc.Options: in_advance_partial, by_keyword, twice, jit_iff, vmap_iff, pmap_iff, grad_iff, forbidden_refused, donate_refused, unknown_refused, checkpoint_iff, maxTraces_iff, transpose_iff, checked_late
* Verif.AD.Training: step, trained, step_ok
* Verif.Vmap.Ensemble: ensemble, evaluate_same, evaluate_each, scan_layers, scan_no_arrays, ensemble_succeeds
* Verif.Recipes: init_linear_weight, init_linear_weight_succeeds, resolve_symmetric, freeze_spec, freeze_trained
* Verif.Enum.Bases: enum_statement, mixin_rejected_partial, mixin_accepted, mixin_child, mixin_hides, enum_warns, enum_only
* Verif.Ser.Header: save_load_model, save_load_same, load_model_conforms
* Verif.FlatLoop: init_apply
* Verif.Enum.Doc: enum_doc, enum_doc_names, enum_doc_reserved, enum_doc_own, enum_doc_statement, enum_doc_determines, enum_doc_classes
* Verif.Common.Args: steps_natural, steps_negative, steps_zero, steps_bool
* Verif.Vmap.Nest: filter_vmap_traceable, nest_lanes, nest_exchange
* Verif.Errors.Tpu: squelched_quiet, squelched_error_partial, squelched_no_array, squelched_bfloat16, squelched_out_of_range
* Verif.Misc.DataLoader: loader_stream, epoch_batches, epoch_complete_partial, epoch_incomplete, loader_hangs, loader_refuses
* Verif.Vmap.PmapAot: compiled_is_call, compiled_exact_partial, compiled_refuses
* Verif.Attention.Order: keys_unordered, queries_separate, self_attention_equivariant, decoding
* Verif.NN.Shift: circular_moved, circular_equivariant, circular_transposed, valid_patch
* Verif.NN.Remade: equal_iff, with_state, layers
* Verif.NN.PoolShift: pool_monotone, pool_channels, pool_patch, pool_twice
* Verif.NN.Drop: flags, values, extremes, mean, linear, gradient_partial, gradient_one
* Verif.NN.Agree: avgpool_is_conv, conv_one_is_linear, adaptive_max_is_pool, adaptive_avg_is_pool
* Verif.Docs: documented_calls
* Verif.Norm.Agree: layer_is_rms, rms_of_centred, one_group_is_layer, groups_are_layers
* Verif.NN.LinearAgree: embedding_is_linear, linear_after_linear, linear_determined, identity_mlp_is_linear

`propext`:
* Verif.Filters: combine_partition_contentBased_fails, is_array_spec, is_array_like_spec, is_inexact_array_partial, numpy_bfloat16, inclusions
* Verif.TreeAt: tree_at_changes_odd_tuples, tree_at_nested_none_misedits, tree_at_selected_twice
* Verif.TreeAt.ErrorKinds: different_results
* Verif.TreeEqual: leafEq_exact, tree_equal_none, tree_equal_rtol_not_symmetric, tree_equal_nan
* Verif.State: state_set_rejects, state_update_unchecked
* Verif.Enum: enum_mixed_raises, enum_where
* Verif.Scan.Buffers: scan_marks_dict
* Verif.Jit: aot_refuses
* Verif.Vmap: filter_vmap_kwargs, named_in_axes_unmodified, filter_pmap_kwargs
* Verif.Errors: error_if_nan_static_fails
* Verif.Module: instantiate_iff, instantiate_abstract, module_hash_ok, partial_made, bound_call, bound_eq_partial
* Verif.Module.Init: frozen_raises, frozen_unchanged
* Verif.Sequential.Slices: slice_zero
* Verif.NN: pool_mk, pool_rank, pool_ceil_spurious, output_padding_not_elementwise, prelu_eq
* Verif.Noinline: noinline_equal_static
* Verif.Finalise: finalise_clean
* Verif.Finalise.Registry: finalise_left, finalise_standard_partial, finalise_twice, maybe_set_left, vprim_left, noinline_left
* Verif.AD: value_and_grad_no_args
* Verif.Custom: custom_vjp_unready
* Verif.Omega: omega_unknown
* Verif.Ser: runAll_error
* Verif.Common: nested_bounded_leaks
* Verif.Dce: inspect_dce_two_calls, inspect_dce_jit
* Verif.Nontraceable: mark_forward
* Verif.ClosureTree: convert_empty, convert_recursive, equal_defaults, equal_lambdas
* Verif.BufferGrad: documented_disciplined
* Verif.NextAfter: next_special
* Verif.Vmap.PmapToy: pmap_equal_static
* Verif.Debug: backward_nan_shows
* Verif.Enum.Lanes: item_valid
* Verif.Misc.Container: instance_iff, inherited_wrong
* Verif.Noinline.Output: compiled_nonarray
* Verif.Module.Generated: unflattenable_refused
* Verif.Module.Annotations: inherited_changes
* Verif.PFormat: format_partial, shows_unique, options_lost, partial_not_as_documented
* Verif.NN.Named: convT3d_dtype, convT3d_ignores_dtype, convT2d_positional
* Verif.Module.Initable: leaked_copy, leaked_failure
* Verif.Misc.Settings: outer_unhashable, getkey_random
* Verif.Misc.Options: max_traces_first, donate_argnames
* Verif.NN.Dtypes: conv_dtype, rope_dtype, cells_built
* Verif.NN.Calls: norms_interchange
* Verif.Misc.DataLoader: run_prefix, loader_zero, rows_together
* Verif.Vmap.PmapAot: compiled_kwargs, compiled_ignores_static
* Verif.NN.PoolShift: pool_twice_gaps

`propext`, `Quot.sound`:
* Verif.Filters: partition_eq_filters
* Verif.TreeAt: tree_at_raises_neither_both
* Verif.TreeAt.ErrorKinds: foreign_leaf, node_not_once
* Verif.State: state_frame, state_leaves, set_succeeds_iff, state_stale, state_stale_argument, state_error_changes_nothing, state_used_up, state_foreign, state_update_keys, state_update_refuses, state_of_shared
* Verif.Enum: enum_reserved, enum_override_lost
* Verif.Checkpoint: forward_value, halving_reverse
* Verif.Common: lax_value, lax_steps_le, lanewise_prog, buffer_set_partial, buffer_set_single, buffer_chain_partial, lax_dead, lax_wraps
* Verif.Scan.Buffers: scan_marks_refused
* Verif.Jit: filter_jit_equal_static, aot_ignores_static
* Verif.Vmap: named_varargs
* Verif.Errors: branched_error_if_unknown_mode, error_if_nan_bfloat16, error_if_breakpoint_bfloat16
* Verif.Module: strict_two_inherited, strict_reabstract, strict_magic, strict_init_two_bases, strict_decision, abstract_with_value, unflatten_count, partial_call, partial_keywords, partial_duplicate, partial_nested, partial_nested_duplicate, update_wrapper_ok_iff, init_own, init_diamond, init_mixins
* Verif.Module.Init: construct_spec, construct_checks, undeclared_raises, bound_method_raises, declared_assigns, generated_assigns
* Verif.Sequential: stateful_iff, seq_index
* Verif.NN: pool_mk_iff, pool_window_inside, pool_floor_covers, blocks_partition, adaptive_rank, same_size, convT_explicit_size, convT_same_size, size_round_trip, size_candidates, output_padding_check, output_padding_check_one, mkTranspose_mode, embedding_call, embedding_clamps
* Verif.Noinline: noinline_ok, noinline_jvp, noinline_transpose, noinline_batch
* Verif.Finalise: finalise_open_consts
* Verif.Omega: omega_checks
* Verif.Ser: save_key_raises, files_closed
* Verif.VPrim: nest_axes
* Verif.WeightNorm: mem_indices
* Verif.ClosureTree: convert_den, convert_total, rebuild_den, convert_noFn, convert_again, convert_map, equal_den_partial
* Verif.Noinline.Ex: swapaxes_front_fails
* Verif.Announce: announce_reverse_fails
* Verif.Unvmap: unvmap_all_lanes, unvmap_any_lanes, unvmap_max_lanes
* Verif.ScanTrick: scan_trick_interleaves, scan_trick_pure
* Verif.Debug: breakpoint_if_spec
* Verif.Module.Bound: decorated_call, class_access, other_access
* Verif.Module.Fields: field_kind, annotations_kept, bare_field, fields_removed, nearest_fails_for_diamonds
* Verif.Jit.Report: others_pass, stale_message
* Verif.NN.Keys: once_disjoint, parts_unrelated
* Verif.Module.Warnings: warns_iff, hidden_warned_partial, arguments_searched, no_false_alarm, static_warned, missed
* Verif.Misc.Container: declared_partial
* Verif.Module.Generated: field_spec
* Verif.Module.Annotations: generated_annotations, generated_raises, written_annotations_partial, written_replaced, later_classes_partial
* Verif.NN.Named: conv1d_eq, conv2d_eq, conv3d_eq, pool_eq, pool_layer, adaptive_rank
* Verif.Module.Signature: signature_returns
* Verif.Misc.Settings: breakpoint_same, lower_partial, lower_breakpoint
* Verif.Module.Forward: keyword_diff_x, noinline_keyword
* Verif.Misc.Options: merged_get?
* Verif.AD.Training: last_step
* Verif.Enum.Bases: enum_warns_again
* Verif.Ser.Header: save_bad_hyperparameters, load_model_errors
* Verif.FlatLoop: flat_train, flat_train_structure, flat_train_count
* Verif.NN.Dtypes: join_lub, layer_norm_dtype, group_norm_dtype, rms_norm_dtype, attention_weights_dtype, batch_norm_training, batch_norm_inference, linear_dtype, prelu_dtype, spectral_training, build_dtype, build_refuses, cells_dtype, one_dtype
* Verif.NN.Calls: sequential_outcome, sequential_composes_partial, prelu_refused
* Verif.Errors.Tpu: raising_backend, squelched_static
* Verif.NN.Remade: same_structure
* Verif.NN.PoolShift: pool_each
* Verif.Docs: remove_args, remove_args_twice, doc_repr_calls
* Verif.CompileCache: fn_names, cached_right, cached_once, cached_apart, delete_entries_partial, delete_wrapped

No axioms:
* Verif.Common: buffer_nested_leak
* Verif.Errors: unvmap_unbatched
* Verif.Module: wrapper_named_field
* Verif.Noinline: noinline_batch_mixed
* Verif.Omega: omega_at, omega_code_blind
* Verif.ClosureTree: den_unique
* Verif.Misc.Settings: unhashable_differs
* Verif.FlatLoop: flat_train_silent
