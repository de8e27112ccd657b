{"id": "C01", "title": "partition then combine gives the tree back", "statement": "If `left, right = partition(tree, spec)` succeeds (with the default replacement None) then `combine(left, right)` succeeds and equals `tree`, and so does `combine(right, left)`. The same holds when an `is_leaf` predicate that looks at container types only is given to both calls and the spec does not reach inside containers it accepts; for predicates that inspect contents it can fail.", "quantifier": "every pytree, every filter spec (booleans and callables arranged as any prefix tree), every is_leaf predicate, both argument orders", "why_tests_cant": "The claim ranges over all tree shapes (including None nodes and empty containers), all prefix specs and all predicates; tests pick a handful of shapes.", "anchors": ["equinox/_filters.py:partition", "equinox/_filters.py:combine", "equinox/_filters.py:_make_filter_tree"]}
{"id": "C02", "title": "filter keeps exactly the leaves whose mask is truthy", "statement": "`filter(tree, spec, inverse, replace)` returns a tree in which a leaf survives in its original position exactly when the spec entry governing it evaluates truthy (falsy when inverse=True); every other leaf is replaced by `replace`; containers are untouched. `partition` equals the pair `filter(..)`, `filter(.., inverse=True)`. If the spec is not a prefix of the tree, or has an entry which is neither a bool nor callable, an error is raised and nothing is returned.", "quantifier": "every pytree, spec, inverse flag and replacement value", "why_tests_cant": "Needs all shapes of spec against all shapes of tree, including the error cases.", "anchors": ["equinox/_filters.py:filter", "equinox/_filters.py:partition", "equinox/_filters.py:_make_filter_tree"]}
{"id": "C03", "title": "combine is a left-biased merge", "statement": "`combine(t1,...,tn)` of trees with the same structure (up to None) places at each position the first non-None leaf in argument order. Consequently combine is associative, has the all-None tree as identity, is idempotent, and is commutative on trees with disjoint supports.", "quantifier": "every number of trees n>=1 and every family of equally-structured trees", "why_tests_cant": "Algebraic law over unboundedly many arguments and shapes.", "anchors": ["equinox/_filters.py:combine", "equinox/_filters.py:_combine"]}
{"id": "C04", "title": "apply_updates is additive and leaves None-updates untouched", "statement": "`apply_updates(model, updates)` adds each update to the leaf at the same position, leaves every leaf whose update is None untouched, keeps the container structure, and fails if updates is not a prefix of the model. Applying the update tree obtained by filtering gradients to the trainable part never modifies a leaf outside the trainable part.", "quantifier": "every model, every update tree (prefix, Nones anywhere), every partition of the leaves into trainable and frozen", "why_tests_cant": "All shapes and all None patterns.", "anchors": ["equinox/_update.py:apply_updates"]}
{"id": "C05", "title": "tree_at replaces exactly the selected nodes", "statement": "When `tree_at(where, tree, replace)` returns, the result agrees with `tree` at every position outside the selected subtrees (frame), and every selected node has been replaced by the corresponding replacement (put-get). With `replace_fn` each selected node x is replaced by replace_fn(x) where x is the original, unwrapped subtree. Putting back what `where` selected gives the original tree (get-put); replacing twice at the same place keeps the second value (put-put).", "quantifier": "every pytree (including repeated and aliased leaves, None nodes, empty tuples), every set of pairwise-incomparable positions, every replacement", "why_tests_cant": "The implementation works by Python object identity after rewrapping; correctness must hold for all aliasing patterns and all shapes.", "anchors": ["equinox/_tree.py:tree_at", "equinox/_tree.py:_CountedIdDict", "equinox/_tree.py:_LeafWrapper"]}
{"id": "C06", "title": "tree_at never silently mis-edits", "statement": "`tree_at` raises an error rather than returning a wrong tree: when a selected object is not a node of the tree, when a selected node lies inside another selected node, when a None is selected that occurs more than once, when the number of replacements differs from the number of nodes, when both or neither of replace/replace_fn are given, or when `where` depends on leaf values. If it returns, every selected node was replaced exactly once.", "quantifier": "every pytree and every selector, including ill-formed ones", "why_tests_cant": "Absence of silent misbehaviour over all ill-formed selectors cannot be sampled.", "anchors": ["equinox/_tree.py:tree_at"]}
{"id": "C07", "title": "tree_equal decides structural equality", "statement": "With zero tolerances `tree_equal(t1,...,tn)` is true exactly when all trees have the same structure and position-wise equal leaves (arrays: same shape, dtype and values; typematch additionally compares leaf types). On leaf types with a lawful equality it is reflexive, symmetric and transitive. With a non-zero rtol it is in general not symmetric.", "quantifier": "every tuple of pytrees; every leaf equality", "why_tests_cant": "Equivalence-relation laws quantify over all triples of trees.", "anchors": ["equinox/_tree.py:tree_equal", "equinox/_tree.py:_array_equal"]}
{"id": "C08", "title": "tree_check accepts exactly duplicate-free acyclic object graphs", "statement": "`tree_check(x)` terminates on every finite object graph, cyclic ones included. It passes exactly when no non-leaf, non-empty node object is reachable from x along two different paths (in particular when there is no cycle through x), and raises ValueError otherwise. Duplicate leaves and empty containers never cause an error.", "quantifier": "every finite Python object graph with sharing and cycles", "why_tests_cant": "Termination and exactness over all cyclic/shared graphs.", "anchors": ["equinox/_tree.py:tree_check", "equinox/_tree.py:_tree_check", "equinox/_tree.py:tree_flatten_one_level"]}
{"id": "C09", "title": "serialise/deserialise round trip", "statement": "Loading a file written by `tree_serialise_leaves(f, tree)` with a `like` of the same structure and matching leaf types, shapes and dtypes returns a tree with the saved array leaves and `like`'s values for the non-serialised leaves; in particular loading with `like = tree` gives `tree` back. The order of leaves on disk is depth-first left-to-right, so several trees written to one file handle can be read back in sequence.", "quantifier": "every pytree, every number of trees in one stream, every content already present after the written data", "why_tests_cant": "Needs all tree shapes and all leaf mixes, and all concatenations.", "anchors": ["equinox/_serialisation.py:tree_serialise_leaves", "equinox/_serialisation.py:tree_deserialise_leaves", "equinox/_serialisation.py:_ordered_tree_map", "equinox/_serialisation.py:default_serialise_filter_spec", "equinox/_serialisation.py:default_deserialise_filter_spec"]}
{"id": "C10", "title": "loading never silently returns an array of the wrong type, shape or dtype", "statement": "If `tree_deserialise_leaves(f, like)` returns, then every leaf has the type of the leaf of `like` (a ShapeDtypeStruct standing for a JAX array) and every array leaf has the shape and dtype of the leaf of `like`. Otherwise it raises.", "quantifier": "every file content and every `like` tree", "why_tests_cant": "All file contents, including files written by a different model, must be covered.", "anchors": ["equinox/_serialisation.py:_assert_same", "equinox/_serialisation.py:tree_deserialise_leaves"]}
{"id": "C11", "title": "a truncated or crashed save never loads silently", "statement": "If the process stops at any byte while `tree_serialise_leaves` is writing, then loading the resulting prefix of the file with a `like` of the same structure raises an error, unless the prefix already contains every saved leaf in full.", "quantifier": "every tree and every crash point (byte prefix of the file)", "why_tests_cant": "All crash points of all files.", "anchors": ["equinox/_serialisation.py:tree_serialise_leaves", "equinox/_serialisation.py:tree_deserialise_leaves"]}
{"id": "C12", "title": "State behaves as a persistent map with one live version", "statement": "For any history of State operations (get, set, substate, update, flatten/unflatten clones), a get on a live State object returns the value most recently set for that index on the chain of states it derives from (initially the init value); a set on one index does not affect another index; and no operation changes the contents of any other live object. Unflattening with new leaves gives a State in which every index holds the new leaf at its place, and raises if their number differs.", "quantifier": "every history of operations on every number of State objects", "why_tests_cant": "Aliasing and invalidation over unbounded histories of several live objects.", "anchors": ["equinox/nn/_stateful.py:State.get", "equinox/nn/_stateful.py:State.set", "equinox/nn/_stateful.py:State.substate", "equinox/nn/_stateful.py:State.update", "equinox/nn/_stateful.py:State.tree_flatten", "equinox/nn/_stateful.py:State.tree_unflatten"]}
{"id": "C13", "title": "stale State objects are always rejected", "statement": "Once a State object has been consumed by a successful `set` or `update`, every later get, set, substate, update or flatten on that object raises, for ever. A failing operation never consumes the object.", "quantifier": "every history after the consuming operation", "why_tests_cant": "'For ever, whatever happens in between' is an invariant over histories.", "anchors": ["equinox/nn/_stateful.py:State.set", "equinox/nn/_stateful.py:State.update", "equinox/nn/_stateful.py:State.get", "equinox/nn/_stateful.py:State.substate", "equinox/nn/_stateful.py:State.tree_flatten"]}
{"id": "C14", "title": "State.set preserves structure, shape and dtype", "statement": "After any sequence of `set` operations starting from the initial state, the value stored under each index has the same pytree structure, shapes and dtypes as its initial value, the set of indices and their order is unchanged, so the State flattens to the same treedef (no retracing, and it can be carried through scan/while_loop).", "quantifier": "every history of set operations", "why_tests_cant": "Invariant over unbounded histories.", "anchors": ["equinox/nn/_stateful.py:State.set", "equinox/nn/_stateful.py:State.tree_flatten"]}
{"id": "C15", "title": "make_with_state gives distinct indices and interchangeable states", "statement": "`make_with_state(f)()` gives every StateIndex occurrence in the model its own entry in the state, initialised with that index's own init value, and no init value is left in the model. Two calls which build equally-structured models give interchangeable states: the state of one can be used with the model of the other. A StateIndex found in two places of the model, as that of a layer used twice, gets two entries, whereas State(model) keeps one entry for each marker, with the initial value of the last occurrence.", "quantifier": "every model tree with any number of StateIndex occurrences, shared or not", "why_tests_cant": "All model shapes and sharing patterns.", "anchors": ["equinox/nn/_stateful.py:make_with_state", "equinox/nn/_stateful.py:State.__init__", "equinox/nn/_stateful.py:delete_init_state"]}
{"id": "C16", "title": "Enumeration items are distinct and keep their identity through promote", "statement": "In every Enumeration class, however it was derived, distinct names have distinct values and every value indexes a valid message. `Sub.promote(Base.x)` is `Sub.x` for every ancestor Base of Sub and every name x, promotions compose along inheritance chains, and comparing or promoting items of unrelated enumerations raises.", "quantifier": "every inheritance hierarchy (multiple inheritance, diamonds, name clashes) and every item", "why_tests_cant": "Quantifies over all class hierarchies.", "anchors": ["equinox/_enum.py:_EnumerationMeta.__new__", "equinox/_enum.py:_store", "equinox/_enum.py:Enumeration.promote", "equinox/_enum.py:EnumerationItem.__eq__"]}
{"id": "C17", "title": "Enumeration messages follow the last definition", "statement": "The message of an item declared in the class body is the declared one; an item which is only inherited, and whose name is declared by exactly one ancestor, has the message of that ancestor. (If several ancestors declare it, the last one processed wins, even over an override by a nearer ancestor.)", "quantifier": "every hierarchy of enumeration classes", "why_tests_cant": "Quantifies over all class hierarchies.", "anchors": ["equinox/_enum.py:_store", "equinox/_enum.py:_EnumerationMeta.__getitem__"]}
{"id": "C18", "title": "checkpointed_while_loop computes the exact reverse-mode gradient", "statement": "Reverse-mode differentiation of `checkpointed_while_loop` returns the same cotangent for init_val, and the same accumulated cotangent for everything body_fun closes over, as plain reverse-mode differentiation of the unrolled loop: the vector-Jacobian products of the body at the true intermediate values, composed from the last step to the first. This holds whatever number of checkpoints is used.", "quantifier": "every body function, every init value, every number of steps taken, every max_steps (including None), every number of checkpoints >= 1", "why_tests_cant": "The schedule of saves, overwrites and recomputations depends on steps and checkpoints jointly; all pairs must be correct.", "anchors": ["equinox/internal/_loop/checkpointed.py:_checkpointed_while_loop_fwd", "equinox/internal/_loop/checkpointed.py:_checkpointed_while_loop_bwd", "equinox/internal/_loop/checkpointed.py:_make_u_turn", "equinox/internal/_loop/checkpointed.py:_load_from_checkpoint", "equinox/internal/_loop/checkpointed.py:_calc_next_checkpoint"]}
{"id": "C19", "title": "checkpointed_while_loop stays within its memory budget", "statement": "At every moment of the forward and of the backward pass at most `checkpoints` intermediate values are stored; no write or read goes outside the checkpoint buffer, and no read hits a slot which does not hold the value of the step it is read for.", "quantifier": "every moment of every execution, for every steps/checkpoints combination", "why_tests_cant": "Invariant over all moments of all executions; out-of-bounds indices are silently clamped by JAX.", "anchors": ["equinox/internal/_loop/checkpointed.py:_stumm_walther_i", "equinox/internal/_loop/checkpointed.py:_wang_moin", "equinox/internal/_loop/checkpointed.py:_maybe_save_to_checkpoint", "equinox/internal/_loop/checkpointed.py:_calc_next_checkpoint"]}
{"id": "C20", "title": "the forward pass of the checkpointed loop keeps a valid set of checkpoints", "statement": "After the forward pass over n steps the buffer holds the loop values at pairwise distinct steps, each slot holding the true value of the loop at its recorded step; step 0 is always among them, and exactly min(n, checkpoints) slots are in use.", "quantifier": "every number of steps (known bound or unbounded loop) and every number of checkpoints", "why_tests_cant": "The online schedule (Stumm-Walther then Wang-Moin) must be right for every step count, not known in advance.", "anchors": ["equinox/internal/_loop/checkpointed.py:_should_save_residual", "equinox/internal/_loop/checkpointed.py:_stumm_walther_i", "equinox/internal/_loop/checkpointed.py:_wang_moin", "equinox/internal/_loop/checkpointed.py:_checkpointed_while_loop_fwd"]}
{"id": "C21", "title": "the backward pass of the checkpointed loop terminates and needs no recomputation when memory suffices", "statement": "The backward pass always terminates, performing exactly one vector-Jacobian product per step taken. If the number of steps is at most the number of checkpoints then no step is recomputed beyond its single vjp evaluation.", "quantifier": "every steps/checkpoints combination", "why_tests_cant": "Termination of a data-dependent loop; absence of recomputation over all runs.", "anchors": ["equinox/internal/_loop/checkpointed.py:_checkpointed_while_loop_bwd", "equinox/internal/_loop/checkpointed.py:_make_u_turn"]}
{"id": "C22", "title": "the default number of checkpoints is the documented one", "statement": "With `checkpoints=None` and `max_steps=n>=1` the loop picks the smallest c with (c+1)(c+2) > 2n, so that the first phase of the online schedule covers the whole loop; with n=0 the call raises a ValueError instead of returning init_val (while an explicit checkpoints>=1 returns init_val).", "quantifier": "every max_steps", "why_tests_cant": "Closed-form integer identity for all n, computed in floating point in the code.", "anchors": ["equinox/internal/_loop/checkpointed.py:checkpointed_while_loop"]}
{"id": "C23", "title": "while_loop of every kind computes the bounded iteration", "statement": "`while_loop(cond, body, init, max_steps, kind=...)` returns the value obtained by applying body while cond holds, at most max_steps times, whatever the kind ('lax', 'checkpointed', 'bounded'), checkpoints and base. For 'bounded' the recursive base-ary nesting never runs the body more often than that in an observable way and never stops early.", "quantifier": "every cond, body, init, max_steps, base >= 2, number of checkpoints", "why_tests_cant": "All loops, all bounds; the nested-scan splitting has boundary cases at every power of the base.", "anchors": ["equinox/internal/_loop/bounded.py:bounded_while_loop", "equinox/internal/_loop/bounded.py:_while_loop", "equinox/internal/_loop/loop.py:while_loop", "equinox/internal/_loop/common.py:common_rewrite"]}
{"id": "C24", "title": "vmapped loops freeze finished lanes", "statement": "Running any of the loops under vmap gives for every lane of the batch exactly the result of running that lane on its own: a lane whose condition became false is no longer changed while other lanes continue, including values written to buffers, even if the lane's condition would become true again.", "quantifier": "every batch size, every mixture of lane step counts, every body, nested batching", "why_tests_cant": "Interleavings of lane terminations over all batch sizes.", "anchors": ["equinox/internal/_loop/common.py:common_rewrite", "equinox/internal/_loop/common.py:_select_if_vmap", "equinox/internal/_loop/common.py:_maybe_set", "equinox/internal/_loop/common.py:buffer_at_set"]}
{"id": "C25", "title": "loop buffers behave like arrays", "statement": "Inside a loop, `buf.at[i].set(x, pred=p)` followed by reading gives x at i when the loop step is live and p holds and the old contents otherwise, and leaves all other indices unchanged; a chain of such updates equals the same chain on a plain array, with all nested predicates conjoined.", "quantifier": "every sequence of writes, every nesting of predicates", "why_tests_cant": "Unbounded chains of writes and nestings.", "anchors": ["equinox/internal/_loop/common.py:_Buffer", "equinox/internal/_loop/common.py:_BufferItem", "equinox/internal/_loop/common.py:buffer_at_set", "equinox/internal/_loop/common.py:_maybe_set"]}
{"id": "C26", "title": "scan equals the left fold", "statement": "`scan(f, init, xs, kind='checkpointed', checkpoints=c)` returns the same carry and the same stacked ys as the mathematical scan (left fold with outputs) for every length >= 1; lengths that disagree raise. For length 0 it raises (although lax.scan would return (init, empty)) unless xs has no leaves and checkpoints is an explicit positive integer. This also holds if parts of the carry are buffers, which `f` reads and writes; the buffers are exactly the arrays in buffers(carry) and ys, if buffers returns a part of the carry or a tuple or list of parts.", "quantifier": "every f, init, xs, length and number of checkpoints", "why_tests_cant": "All lengths.", "anchors": ["equinox/internal/_loop/loop.py:scan"]}
{"id": "C27", "title": "filter_jit is transparent", "statement": "For any history of calls to filter_jit-wrapped pure functions, every call returns what the undecorated function would return on those arguments: the compilation cache never serves an entry compiled for different static values, a different tree structure or different shapes/dtypes, and arguments are reassembled exactly (including no-argument calls, None arguments and keyword arguments).", "quantifier": "every history of calls, every mix of array and non-array leaves, every function", "why_tests_cant": "Stale-cache bugs only appear for particular call histories.", "anchors": ["equinox/_jit.py:_filter_jit_cache", "equinox/_jit.py:_preprocess", "equinox/_jit.py:_postprocess", "equinox/_compile_utils.py:hashable_partition", "equinox/_compile_utils.py:hashable_combine", "equinox/_compile_utils.py:compile_cache"]}
{"id": "C28", "title": "donation touches only what was asked for", "statement": "With donate='none' no buffer is donated; with 'all'/'warn' exactly the arrays among function and arguments are; with 'all-except-first'/'warn-except-first' exactly the arrays outside the first argument are. Any other value raises at decoration time.", "quantifier": "every donate mode and every argument tree", "why_tests_cant": "All argument trees; a wrongly donated buffer is invalidated memory.", "anchors": ["equinox/_jit.py:filter_jit", "equinox/_jit.py:_preprocess"]}
{"id": "C29", "title": "filter_vmap maps each lane independently", "statement": "Lane i of the output of `filter_vmap(f, in_axes, out_axes)(*args)` is f applied to the arguments in which every mapped leaf is sliced at i along its axis and every unmapped leaf is passed whole; outputs with axis None are returned unbatched, others have the batch axis at the requested position.", "quantifier": "every argument tree, in_axes/out_axes prefix spec, batch size and pure function", "why_tests_cant": "All axis specs over all trees.", "anchors": ["equinox/_vmap_pmap.py:_VmapWrapper.__call__", "equinox/_vmap_pmap.py:_resolve_axes", "equinox/_vmap_pmap.py:_resolve_axis", "equinox/_vmap_pmap.py:_moveaxis"]}
{"id": "C30", "title": "named in_axes reach the right argument", "statement": "When in_axes is a dict, each passed positional argument whose parameter is named in the dict gets the given spec, every other passed argument gets if_array(0), and a name that matches no passed argument raises ValueError; the dict given by the user is not modified.", "quantifier": "every signature, every dict, every number of passed arguments", "why_tests_cant": "All signatures and partial argument lists.", "anchors": ["equinox/_vmap_pmap.py:_named_in_axes"]}
{"id": "C31", "title": "filter_pmap returns every output leaf exactly once at its requested axis", "statement": "In filter_pmap every output leaf is put in exactly one of the per-axis groups or in the unmapped group, and recombining the groups restores the output tree; an out axis outside the valid range raises.", "quantifier": "every output tree and out_axes tree", "why_tests_cant": "All axis assignments over all trees.", "anchors": ["equinox/_vmap_pmap.py:_filter_pmap_cache", "equinox/_vmap_pmap.py:_postprocess"]}
{"id": "C32", "title": "error_if triggers exactly when some predicate is true", "statement": "`error_if(x, pred, msg)` returns x unchanged if no entry of pred, in any batch element at any depth of vmap, is true; otherwise it raises (or returns x with arrays replaced by NaN-like values when on_error='nan'). Without an array to attach to and with a traced predicate it raises at trace time instead of dropping the check. branched_error_if reports the message of the largest index in the batch (counted from the end if negative); if there is no such message the error is an IndexError, and is not lost.", "quantifier": "every predicate array, every nesting of vmap, every tree x, static and traced predicates", "why_tests_cant": "All batch nestings and static/traced combinations.", "anchors": ["equinox/_errors.py:branched_error_if_impl", "equinox/_errors.py:error_if", "equinox/_errors.py:_nan_like", "equinox/_unvmap.py:unvmap_any", "equinox/_unvmap.py:unvmap_max"]}
{"id": "C33", "title": "strict modules have concrete-means-final hierarchies", "statement": "If every class of a hierarchy was accepted with strict=True (default configuration) then every method has at most one concrete implementation along the ancestors of any class, every concrete class has no subclasses, and a class name starts with Abstract/_Abstract exactly when the class is abstract. Hence which code runs for a method call is readable from a single class.", "quantifier": "every class hierarchy admitted by the checks", "why_tests_cant": "Invariant over all sequences of class definitions.", "anchors": ["equinox/_module.py:_ActualModuleMeta.__new__", "equinox/_module.py:StrictConfig"]}
{"id": "C34", "title": "abstract attributes must be provided", "statement": "A class can be instantiated only if every AbstractVar and AbstractClassVar declared by an ancestor has been overridden (by a field/annotation, property or class attribute as applicable) in the method resolution order; otherwise instantiation raises TypeError.", "quantifier": "every linearised class hierarchy with any mix of abstract annotations and overrides", "why_tests_cant": "All hierarchies and orders of overrides.", "anchors": ["equinox/_better_abstract.py:ABCMeta.__new__", "equinox/_better_abstract.py:ABCMeta.__call__", "equinox/_better_abstract.py:_process_annotation"]}
{"id": "C35", "title": "Module instances are pytrees that round-trip and compare structurally", "statement": "Flattening and unflattening a Module gives an equal Module: dynamic fields become children in field order, static fields and wrapper fields are kept in the structure, missing fields stay missing. Modules compare equal exactly when their structure (class, field presence, static values, wrapper metadata) and leaves are equal, and equal modules have equal hashes.", "quantifier": "every module class (any fields, static or dynamic, any subset set) and every instance", "why_tests_cant": "All classes and all instances.", "anchors": ["equinox/_module.py:_flatten_module", "equinox/_module.py:_unflatten_module", "equinox/_module.py:Module.__hash__", "equinox/_module.py:Module.__eq__"]}
{"id": "C36", "title": "Modules are frozen after construction", "statement": "During __init__ only declared fields can be assigned; after __init__ returns, all declared fields without default are set (else ValueError), converters have been applied exactly once to each field that has one, every __check_init__ along the MRO ran on the frozen instance, and no later assignment or deletion succeeds.", "quantifier": "every class, every sequence of assignments in __init__, every sequence of later mutation attempts", "why_tests_cant": "Histories of assignments over all classes.", "anchors": ["equinox/_module.py:_ActualModuleMeta.__call__", "equinox/_module.py:_make_initable", "equinox/_module.py:field"]}
{"id": "C37", "title": "Partial applies its stored arguments", "statement": "`Partial(f, *a, **k)(*b, **l)` calls f with positional arguments a then b and keywords l and k when the keyword sets are disjoint; a keyword given both times raises TypeError (unlike functools.partial, which would let the call win). Nesting Partials composes.", "quantifier": "every function, all argument lists", "why_tests_cant": "Algebraic law over all argument lists.", "anchors": ["equinox/_module.py:Partial", "equinox/_module.py:BoundMethod"]}
{"id": "C38", "title": "Sequential composes its layers and threads state", "statement": "`Sequential(layers)(x, state, key=k)` is the left-to-right composition of its layers, each stateful layer receiving the state returned by the previous stateful layer, and layer i receiving the i-th split key; splitting a Sequential into two consecutive slices and composing them gives the same result when keys are unused. Nested Sequentials are stateful exactly when some leaf layer is. Indexing with integers and slices (with any step) picks the layers that it picks from a tuple.", "quantifier": "every list of layers (nested, any mix of stateful and stateless), every input and state", "why_tests_cant": "All layer lists and nestings.", "anchors": ["equinox/nn/_sequential.py:Sequential.__call__", "equinox/nn/_sequential.py:Sequential.is_stateful", "equinox/nn/_sequential.py:Sequential.__getitem__"]}
{"id": "C39", "title": "inference_mode sets every flag and nothing else", "statement": "`inference_mode(model, v)` sets the inference attribute of every sub-module having one, at any depth (also inside other such modules), to v and changes nothing else; it is idempotent and the last call wins.", "quantifier": "every model tree, both values", "why_tests_cant": "All nestings.", "anchors": ["equinox/nn/_inference.py:inference_mode", "equinox/nn/_inference.py:_inferences"]}
{"id": "C40", "title": "Shared ties nodes together", "statement": "After `s = Shared(tree, where, get)`, `s()` is a tree of the original structure in which the node selected by where is what `get` returns on the stored tree; the stored tree holds no copy of the tied node, and any update of the stored leaves is seen at both places.", "quantifier": "every tree, every valid where/get pair with disjoint positions, every update of the leaves", "why_tests_cant": "All trees and updates.", "anchors": ["equinox/nn/_shared.py:Shared.__init__", "equinox/nn/_shared.py:Shared.__call__"]}
{"id": "C41", "title": "rotary embeddings do not depend on call history", "statement": "The output of a RotaryPositionalEmbedding call depends only on its configuration and input, not on which other rotary embeddings were evaluated before in the process. (At this commit it holds for modules with equal theta and fails between modules that share embedding size and dtype but differ in theta, because the process-wide cache is not keyed by theta.)", "quantifier": "every history of calls of any rotary embedding modules", "why_tests_cant": "A process-wide cache makes the result depend on history; only particular histories expose it.", "anchors": ["equinox/nn/_embedding.py:RotaryPositionalEmbedding.__call__", "equinox/nn/_embedding.py:internal_rope_embedding_cache"]}
{"id": "C42", "title": "pooling output sizes", "statement": "Pool produces floor((n+l+r-k)/s)+1 windows per dimension, and with use_ceil=True ceil((n+l+r-k)/s)+1 windows; every window starts inside the padded input as extended. The padding check rejects use_ceil calls that need extension whenever the extended right padding exceeds the kernel size.", "quantifier": "every input size, kernel, stride and padding", "why_tests_cant": "Integer arithmetic for all sizes.", "anchors": ["equinox/nn/_pool.py:Pool._update_padding_for_ceil", "equinox/nn/_pool.py:Pool.__call__", "equinox/nn/_pool.py:Pool._check_is_padding_valid"]}
{"id": "C43", "title": "adaptive pooling partitions its input", "statement": "AdaptivePool to target size t of a dimension of size n >= t splits the dimension into t consecutive non-empty blocks covering every element exactly once, block sizes differing by at most one (larger ones first), and applies the operation to each block. (When t divides n the operation is additionally applied to each scalar result.)", "quantifier": "every n >= t >= 1 and every input", "why_tests_cant": "Integer arithmetic for all sizes.", "anchors": ["equinox/nn/_pool.py:_adaptive_pool1d"]}
{"id": "C44", "title": "convolution and transposed convolution sizes correspond", "statement": "Conv with 'SAME'/'SAME_LOWER' padding and stride s outputs ceil(n/s) positions; ConvTranspose with the same hyperparameters maps an input of the size produced by Conv back to a size which Conv maps to it, with output_padding a < s selecting among the candidates; with explicit padding its output is (n-1)s + d(k-1) + 1 - p0 - p1 + a. The elementwise requirement output_padding < stride announced by the error message is not enforced for every dimension.", "quantifier": "every size, kernel, stride, dilation, padding, output padding", "why_tests_cant": "Integer arithmetic for all sizes.", "anchors": ["equinox/nn/_conv.py:ConvTranspose._padding_transpose", "equinox/nn/_conv.py:ConvTranspose.__init__", "equinox/nn/_conv.py:Conv.__call__"]}
{"id": "C45", "title": "noinline keeps calling the right function", "statement": "For any history of noinline registrations and calls with transforms applied, the function evaluated by a call is the one that was registered for it, under exactly the stack of transforms (jvp, vmap, transpose ...) applied to that call.", "quantifier": "every history of registrations and calls, every transform stack", "why_tests_cant": "Global registry keyed by indices; only particular histories expose a mix-up.", "anchors": ["equinox/internal/_noinline.py:noinline", "equinox/internal/_noinline.py:_get_callback"]}
{"id": "C46", "title": "assert_max_traces counts exactly", "statement": "A function wrapped with assert_max_traces(max_traces=n) can be called n times over all clones of the wrapper and raises RuntimeError on every later call; get_num_traces returns the number of calls so far, failed ones included; separately wrapped copies count separately.", "quantifier": "every history of calls on any number of wrappers and their clones", "why_tests_cant": "Counter over histories with clones.", "anchors": ["equinox/debug/_max_traces.py:_AssertMaxTraces.__call__", "equinox/debug/_max_traces.py:get_num_traces"]}
{"id": "C47", "title": "finalising a jaxpr preserves its meaning", "statement": "finalise_jaxpr returns a jaxpr that computes the same outputs for all inputs, provided each finalised primitive's impl agrees with its bind and no custom_jvp_call with array constants of its own sits inside an open (not closed) sub-jaxpr; without the second condition the constants are lost. Evaluating with finalise_fn gives the same outputs too. With the primitives that the library registers and what their impl rules compute, the first condition holds; and the result contains, at any nesting depth reachable through closed sub-jaxprs, no primitive that is registered or defined by Equinox. (Where the library falls short because the impl of one registered primitive binds another, finalising a second time removes it.)", "quantifier": "every jaxpr (any number of equations and nested sub-jaxprs) and all inputs", "why_tests_cant": "Program transformation correctness quantifies over all programs.", "anchors": ["equinox/internal/_finalise_jaxpr.py:finalise_eval_jaxpr", "equinox/internal/_finalise_jaxpr.py:_finalise_jaxprs_in_params", "equinox/internal/_loop/common.py:_maybe_set_impl", "equinox/internal/_primitive.py:create_vprim"]}
{"id": "C48", "title": "filter_grad differentiates exactly the inexact-array leaves of the first argument", "statement": "`filter_value_and_grad(f)(x, *rest)` returns f's value unchanged and a gradient tree of the structure of x in which exactly the inexact-array leaves have a gradient (that of f with all other leaves held fixed) and every other leaf is None; hence apply_updates(x, grads) never changes a non-inexact leaf.", "quantifier": "every argument tree and every function", "why_tests_cant": "All argument trees.", "anchors": ["equinox/_ad.py:_ValueAndGradWrapper", "equinox/_ad.py:filter_grad"]}
{"id": "C49", "title": "closure-captured and static parts survive custom derivative wrappers", "statement": "filter_custom_vjp, filter_custom_jvp and nondifferentiable reassemble arguments exactly: function and rules are called with the arguments the user passed, rules get None for a symbolic zero and may return it, residuals and static outputs come back unchanged, a tangent for anything that may not have one raises, as does a gradient of another structure. A closure-converted function gives what the function gives for the arrays of the call (with the static arguments of the example, which == those of the call), and raises if the structure, a shape, a dtype or a static argument differs from the example.", "quantifier": "every argument tree, function and rule", "why_tests_cant": "All argument trees.", "anchors": ["equinox/_ad.py:filter_custom_vjp", "equinox/_ad.py:filter_custom_jvp", "equinox/_ad.py:nondifferentiable", "equinox/_ad.py:filter_closure_convert", "equinox/_ad.py:_ClosureConvert", "equinox/_make_jaxpr.py:filter_make_jaxpr"]}
{"id": "C50", "title": "BatchNorm running statistics are an exponential average that starts from the first batch", "statement": "After n>=1 training calls the stored mean/variance equal the exponential moving average of the batch statistics with weight momentum, initialised with the first batch (so never depending on the uninitialised buffer); inference calls change no state and use the stored statistics.", "quantifier": "every sequence of training and inference calls, every momentum", "why_tests_cant": "Histories of calls.", "anchors": ["equinox/nn/_batch_norm.py:BatchNorm.__call__"]}
{"id": "C51", "title": "masked attention ignores masked positions", "statement": "In dot-product attention each output row is a convex combination of the value rows; a masked-out key/value position has weight exactly determined by the mask and not by its key, so (in exact arithmetic, when at least one position is unmasked, with the mask value taken to its limit) changing a masked key or value does not change the output. Mask of wrong shape raises.", "quantifier": "every query/key/value/mask of every size", "why_tests_cant": "All sizes and masks.", "anchors": ["equinox/nn/_attention.py:dot_product_attention_weights", "equinox/nn/_attention.py:dot_product_attention"]}
{"id": "C52", "title": "omega arithmetic acts leaf-wise and checks structure", "statement": "Arithmetic on ω-wrapped pytrees applies the operator to corresponding leaves, with scalars broadcast; trees of different structure, or whose is_leaf functions have different bytecode, raise (nothing more of is_leaf is compared); the wrapped value is recovered by .ω unchanged.", "quantifier": "every pair of trees and every operator", "why_tests_cant": "All shapes.", "anchors": ["equinox/internal/_omega.py:ω"]}
{"id": "C53", "title": "with enough checkpoints each step is recomputed at most once", "statement": "If the loop takes n steps and 2n < (c+1)(c+2), where c is the number of checkpoints (always the case with the default number), the backward pass of checkpointed_while_loop takes exactly n + max(n-c, 0) iterations: one vector-Jacobian product per step and one recomputation per step beyond the c stored ones. In general it takes between n and n(n+1)/2 iterations.", "quantifier": "every number of steps n, every number of checkpoints c >= 1", "why_tests_cant": "The cost depends on the interplay of the online schedule with the number of steps, over unboundedly many pairs (n, c).", "anchors": ["equinox/internal/_loop/checkpointed.py:_stumm_walther_i", "equinox/internal/_loop/checkpointed.py:_calc_next_checkpoint", "equinox/internal/_loop/checkpointed.py:_checkpointed_while_loop_bwd"]}
{"id": "C54", "title": "loading errors name the leaf at fault", "statement": "If `tree_deserialise_leaves` fails while reading, the TreePathError carries the path (in `like`) of the leaf whose reading failed, and all leaves before it had been read. Saving a tree which holds a PRNG key array raises.", "quantifier": "every tree, every file content", "why_tests_cant": "The path is assembled from two nested traversals and has to be right for every leaf of every structure and for every way a read can fail.", "anchors": ["equinox/_serialisation.py:_ordered_tree_map", "equinox/_serialisation.py:tree_deserialise_leaves"]}
{"id": "C55", "title": "loops nest", "statement": "A loop in the body of another loop, sharing its buffers, does on each lane what it would do on its own while the outer step is live on this lane, and leaves the buffers alone on lanes on which the outer loop has ended. In particular a loop whose condition is false does nothing.", "quantifier": "every nesting of loops of any kind, every batch, every body", "why_tests_cant": "The interplay of the predicates and of the makes_false_steps flags of several loops shows only for particular combinations of kinds, step bounds and batching.", "anchors": ["equinox/internal/_loop/common.py:_Buffer._op", "equinox/internal/_loop/common.py:_wrap_buffers", "equinox/internal/_loop/bounded.py:bounded_while_loop"]}
{"id": "C56", "title": "rotary embedding is a rotation", "statement": "Over exact real arithmetic a RotaryPositionalEmbedding keeps the length of every row, leaves position 0 unchanged, and the inner product of a rotated query at position m with a rotated key at position n depends on the positions only through m - n.", "quantifier": "every embedding size, theta, input and pair of positions", "why_tests_cant": "A trigonometric identity over all real inputs and all positions.", "anchors": ["equinox/nn/_embedding.py:RotaryPositionalEmbedding.rotate_half", "equinox/nn/_embedding.py:RotaryPositionalEmbedding.precompute_freqs_cis", "equinox/nn/_embedding.py:RotaryPositionalEmbedding.__call__"]}
{"id": "C57", "title": "transposed convolution is the linear transpose of convolution", "statement": "ConvTranspose, with the kernel of a Conv flipped in the spatial dimensions and with its channel axes swapped, and with the same stride, dilation, padding and padding mode (zeros, or circular with SAME padding), is the exact linear transpose of this Conv: <conv(x), y> = <x, conv_transpose(y)> whenever the shapes match.", "quantifier": "every kernel, stride, dilation, padding, size and input, any number of dimensions", "why_tests_cant": "An identity between two sums whose index arithmetic (flipping, dilation, padding, wrap-around) must agree for all sizes and hyperparameters.", "anchors": ["equinox/nn/_conv.py:ConvTranspose.__call__", "equinox/nn/_conv.py:ConvTranspose._padding_transpose", "equinox/nn/_conv.py:ConvTranspose._circular_pad", "equinox/nn/_conv.py:Conv.__call__"]}
{"id": "C58", "title": "module_update_wrapper copies metadata and nothing else", "statement": "module_update_wrapper(wrapper, wrapped) returns a copy of wrapper whose __module__, __name__, __qualname__, __doc__ and __annotations__ are those of wrapped where wrapped has them and those of wrapper otherwise; every other attribute, every child and every static value are those of wrapper; a class without a __wrapped__ property is refused with ValueError.", "quantifier": "every wrapper class and instance, every wrapped object, repeated wrapping", "why_tests_cant": "The copy passes through flattening and unflattening and through attributes on instance and class; interactions depend on which of these are present.", "anchors": ["equinox/_module.py:module_update_wrapper", "equinox/_module.py:_module_update_wrapper"]}
{"id": "C59", "title": "filter_vjp and filter_jvp evaluate the function exactly and differentiate what has a tangent", "statement": "`filter_vjp(f, *primals)` returns f(*primals) exactly, with the auxiliary output unchanged; its pullback accepts exactly cotangents with an array for every inexact array of the output and None elsewhere, and returns cotangents of the structure of the primals, with None for all leaves that are not inexact arrays. `filter_jvp(f, primals, tangents)` returns f(*primals, **kwargs) exactly and differentiates with respect to exactly the leaves with a tangent; it raises unless the tangents have the structure of the primals with None for some leaves.", "quantifier": "every tree of primals, tangents and cotangents and every function", "why_tests_cant": "All argument trees and all placements of None.", "anchors": ["equinox/_ad.py:filter_vjp", "equinox/_ad.py:filter_jvp"]}
{"id": "C60", "title": "multi-head attention is the sum over heads of its documentation", "statement": "MultiheadAttention(Q,K,V) equals the sum over heads of Attention(Q W_i^Q, K W_i^K, V W_i^V) W_i^O with biases where used, a two-dimensional mask being shared by all heads and a three-dimensional one giving each head its own; the output of a query does not depend on keys and values masked for it in all heads; dropout acts on the weights of each head with its own key, is off in inference or when p is the number 0, needs a key otherwise, and keeps the expected value; wrong mask shapes, lengths of key and value that differ, and a process_heads that changes a shape raise ValueError.", "quantifier": "every size, number of heads, weight, mask and input", "why_tests_cant": "Index arithmetic of the head splitting over all sizes; absence of leaks quantifies over all inputs.", "anchors": ["equinox/nn/_attention.py:MultiheadAttention.__call__", "equinox/nn/_dropout.py:Dropout.__call__", "equinox/nn/_linear.py:Linear.__call__"]}
{"id": "C61", "title": "primitives over arbitrary pytrees are transparent", "statement": "A primitive whose rules are wrapped with filter_primitive_def/jvp/transpose/batching and called with filter_primitive_bind behaves as its rules on pytrees: without a transformation, bind(prim, *args) is impl(*args); under jit the abstract rule sees the arguments with shapes for arrays, the caller gets the arrays of the implementation and the static parts of the abstract rule, and an AssertionError is raised iff the two outputs differ in structure or static parts; the jvp (batching) rule sees the primals and a tangent (axis) for exactly the arrays that have one, and its output is returned, with an AssertionError unless its tangents match its primals; the transpose rule sees undefined primals and cotangents (None for symbolic zeros unless materialised) in place, and returns a cotangent for each array argument in order, an AssertionError being raised for one that belongs to no array.", "quantifier": "every pytree of arguments and results, every mixture of arrays and other leaves, every rule", "why_tests_cant": "Arguments are flattened, split and rebuilt several times; correctness needs all tree shapes and all placements of arrays and None.", "anchors": ["equinox/internal/_primitive.py:Flatten", "equinox/internal/_primitive.py:filter_primitive_def", "equinox/internal/_primitive.py:filter_primitive_jvp", "equinox/internal/_primitive.py:filter_primitive_transpose", "equinox/internal/_primitive.py:filter_primitive_batching", "equinox/internal/_primitive.py:filter_primitive_bind"]}
{"id": "C62", "title": "a vprim may be vmapped any number of times", "statement": "A primitive made by create_vprim(name, impl, abstract_eval, jvp, transpose), bound under any nest of vmaps (each input mapped along any axis, or not mapped, at each level), gives in every lane exactly what impl gives on that lane of the inputs; its outputs are mapped along axis 0 at the levels that map an input and unmapped at the others, and abstract_eval reports the shapes of the lanes with the sizes of those levels in front. Differentiated from outside of the nest, primals and tangents are lane by lane those of jvp, symbolic zeros in being zeros of the shape of a lane (a symbolic zero out keeps the shape of a lane). Transposed, the cotangent of each undefined input is lane by lane that of the rule, along that input's own axes; this raises a ValueError exactly if a cotangent is given for an input which is not mapped at a level that maps another input.", "quantifier": "every primitive whose rules agree with their traces, every depth of nesting, every axis, size and lane, every mixture of symbolic zeros and undefined inputs", "why_tests_cant": "_vprim_p batches itself, so each further vmap nests the rules once more; tests cover two levels with axis 0 and every input mapped.", "anchors": ["equinox/internal/_primitive.py:create_vprim", "equinox/internal/_primitive.py:_vprim_impl", "equinox/internal/_primitive.py:_vprim_abstract_eval", "equinox/internal/_primitive.py:_vprim_jvp", "equinox/internal/_primitive.py:_vprim_transpose"]}
{"id": "C63", "title": "normalisation layers normalise over the right elements", "statement": "LayerNorm and RMSNorm map every element of an input of the layer's shape to gamma*(x-E[x])/sqrt(Var[x]+eps)+beta and gamma*x/sqrt(E[x^2]+eps)+beta, the averages being over all elements; GroupNorm maps the element of channel c at any position to gamma_c*(x-E[x_g])/sqrt(Var[x_g]+eps)+beta_c where x_g are all elements of all channels of the group of c. A fresh layer has gamma=1 and beta=0. The normalised values have mean 0 and mean square Var/(Var+eps); LayerNorm is invariant under adding a constant; GroupNorm with one group is LayerNorm; RMSNorm is LayerNorm on inputs of mean 0. The state comes back as it was. Inputs of another shape raise a ValueError (LayerNorm, RMSNorm); for GroupNorm a scalar raises an IndexError, a number of channels which the groups do not divide a TypeError, and another number of channels than the layer's a ValueError unless the layer has one channel, which is broadcast; GroupNorm.__init__ raises exactly if the groups do not divide the channels, are zero, or channels is missing with channelwise_affine.", "quantifier": "every shape, every number of groups and channels, every index, all real inputs, weights and biases, every eps > 0", "why_tests_cant": "Groups are taken by reshaping; tests compare one or two shapes with a reference to a tolerance.", "anchors": ["equinox/nn/_normalisation.py:LayerNorm", "equinox/nn/_normalisation.py:GroupNorm", "equinox/nn/_normalisation.py:RMSNorm", "equinox/_misc.py:left_broadcast_to"]}
{"id": "C64", "title": "store_dce is the identity and inspect_dce reports what was eliminated", "statement": "Inside of jit, store_dce(x, name) returns x unchanged (outside it raises a RuntimeError, as inspect_dce does inside of jit). After any history of calls and of runs of their callbacks, inspect_dce(name) reports the number of calls under that name and prints for each, in order, its argument with every array replaced by the shape and dtype last seen by its callback, or by <DCE'd> if its callback never ran; leaves that are not arrays are unchanged, and calls under other names have no influence. The callback of a call never fails.", "quantifier": "every pytree, every history of calls under any names, every pattern of eliminated arrays and of repeated runs", "why_tests_cant": "The report depends on all earlier calls in the process through a global dictionary; tests make one call per name.", "anchors": ["equinox/debug/_dce.py:store_dce", "equinox/debug/_dce.py:inspect_dce", "equinox/debug/_dce.py:_register_alive"]}
{"id": "C65", "title": "weight normalisation separates direction and magnitude", "statement": "WeightNorm(layer, weight_name, axis) calls the layer with its weight v replaced by g*v/||v||, the norm being over all elements which share their index along the axis (any axis, counted from either end; over all elements if axis is None), all other attributes as they were. Freshly made it behaves exactly as the layer it wraps, if no such group of elements is zero; the elements of a group which is zero become NaN. For any g the norm of each group of the weight used is |g|, and the weight used does not change if each group of v is scaled by a positive number of its own. An axis out of range raises a ValueError and a missing attribute an AttributeError.", "quantifier": "every shape and number of axes, every axis, all real weights and magnitudes, every layer", "why_tests_cant": "The norm is computed by a vmap over one axis with keepdims and broadcast back; tests look at matrices with axis 0 and at one convolution.", "anchors": ["equinox/nn/_weight_norm.py:WeightNorm", "equinox/nn/_weight_norm.py:_norm_except_axis"]}
{"id": "C66", "title": "spectral normalisation divides by an estimate that only errs on one side and converges", "statement": "SpectralNorm calls the layer with its weight (all axes but the first flattened) divided by u^T W v, all other attributes as they were. In training mode u and v are first advanced by num_power_iterations steps of the power method and stored in the new State (every other entry of it unchanged, the old State unusable); in inference mode the stored ones are used and the State is returned as it is. For every sequence of calls in any modes, with the weights changing in between, no call raises and u and v stay no longer than one, so that the divisor never exceeds the largest singular value of the weight and the largest singular value of the weight used is never below one. With the weight fixed the divisor never decreases once it is at least eps, and converges to the largest singular value unless v is orthogonal to its singular vector, at the rate s*|c|^(1/2k) after k steps; for a matrix of rank one a single step is exact. A weight with fewer than two axes raises a ValueError. A divisor of zero makes the weight NaN.", "quantifier": "every weight shape with at least two axes, all real weights, every starting vector, every eps > 0, every number of power iterations, every sequence of calls and modes", "why_tests_cant": "Convergence and monotonicity are statements about all matrices and unboundedly many iterations; tests check that the output is finite and one matrix to a tolerance.", "anchors": ["equinox/nn/_spectral_norm.py:SpectralNorm", "equinox/nn/_spectral_norm.py:_power_iteration"]}
{"id": "C67", "title": "recurrent cells compute the gates they are documented to and stay bounded", "statement": "GRUCell and LSTMCell split their weights by rows into gates (reset, update, candidate; input, forget, candidate, output) and compute the standard recurrences from them; use_bias=False is the same as biases of zero. For every sequence of inputs no step raises and the shapes are kept; no entry of the hidden state of a GRUCell ever gets further from zero than one or its starting value, and strictly less after a step; every entry of the hidden state of an LSTMCell is strictly between -1 and 1 and its cell state grows by less than one in each step. Inputs and hidden states of other lengths raise; a hidden size of zero raises a ZeroDivisionError.", "quantifier": "all input and hidden sizes, all real weights and biases, every sequence of inputs of any length, every starting state", "why_tests_cant": "Boundedness is an invariant of unboundedly long sequences for all weights; tests check the shape of the output.", "anchors": ["equinox/nn/_rnn.py:GRUCell", "equinox/nn/_rnn.py:LSTMCell"]}
{"id": "C68", "title": "nontraceable, nonbatchable and nondifferentiable_backward are identities which raise exactly when they should", "statement": "nontraceable(x) returns x if no array of x is affected by a transformation and raises a RuntimeError otherwise. nonbatchable(x) returns x if no array of x is affected, and raises a ValueError if the innermost transformation affecting it is a vmap; with allow_constant_across_batch it raises a RuntimeError if and only if the lanes are not all equal, and otherwise returns what they all are, no longer batched. nondifferentiable_backward(x) is the identity in forward mode of any order; in reverse mode a program raises a RuntimeError if and only if a total cotangent that arrives at a marked value is not a symbolic zero (or, with symbolic=False, not zero), and otherwise has the same gradients as if it was not marked.", "quantifier": "all pytrees, any nesting of vmap and jvp, any number of lanes; all linear programs with any number of marks", "why_tests_cant": "Whether a cotangent arrives depends on the whole program after the mark; tests use one operation. Nested transformations grow without bound.", "anchors": ["equinox/internal/_nontraceable.py:nontraceable", "equinox/internal/_nontraceable.py:nonbatchable", "equinox/internal/_nontraceable.py:nondifferentiable_backward"]}
{"id": "C69", "title": "filter_eval_shape predicts shapes and its cache is transparent", "statement": "filter_eval_shape calls the function with every array and ShapeDtypeStruct replaced by a tracer of its shape and dtype and everything else as it is, and returns its output with shapes and dtypes in place of arrays, so the values of arrays do not matter; if running the function agrees with tracing it, the result is right. For every history of calls to cached_filter_eval_shape and clear_caches, each call returns what filter_eval_shape would return; the function is run again only after an exception or after clear_caches. eval_empty, eval_zero and eval_full return arrays of the shapes and dtypes of the output.", "quantifier": "all pytrees of functions, arguments and outputs, every function, every history of calls", "why_tests_cant": "A stale entry in a cache shows up only for particular histories, and only for arguments that are equal and behave differently.", "anchors": ["equinox/_eval_shape.py:filter_eval_shape", "equinox/_eval_shape.py:cached_filter_eval_shape", "equinox/_caches.py:clear_caches", "equinox/internal/_misc.py:eval_empty", "equinox/internal/_misc.py:eval_zero", "equinox/internal/_misc.py:eval_full"]}
{"id": "C70", "title": "closure_to_pytree keeps the meaning of functions and makes their closures leaves", "statement": "closure_to_pytree(tree) replaces every function in tree, and in turn every function closed over, by a callable pytree that behaves as the function did, also if variables are assigned to later; its leaves are the code of the function and the leaves of what it closes over; no function is left over and converting again changes nothing; changing a leaf is the same as having closed over something else. Two results that are equal as pytrees behave the same, so that filter_jit may use what was compiled for one for the other. A function that refers to itself raises a RecursionError, and one with an unassigned variable a ValueError; everything else is converted.", "quantifier": "all pytrees, functions with closures nested to any depth, all heaps", "why_tests_cant": "Closures nest without bound; equality of results has to imply equality of behaviour for all pairs of functions.", "anchors": ["equinox/internal/_closure_to_pytree.py:closure_to_pytree", "equinox/internal/_closure_to_pytree.py:_Closure", "equinox/internal/_closure_to_pytree.py:_FunctionWithEquality"]}
{"id": "C71", "title": "Jacobians and Hessians have the derivative of every output with respect to every floating-point leaf", "statement": "filter_jacfwd(fn)(x, ...) and filter_jacrev(fn)(x, ...) return the output of fn in which each leaf is replaced by a copy of x holding the partial derivatives of that leaf with respect to the floating-point leaves of x, and None at the other leaves; both agree. filter_hessian nests the two: each output leaf is replaced by a copy of x of copies of x holding the second partial derivatives, and it is symmetric. With has_aux the auxiliary output comes back as it is. What fn raises is raised; outputs that are not floating-point are a TypeError; forward mode needs a floating-point input and reverse mode an output.", "quantifier": "all pytrees, all twice continuously differentiable functions of them, all auxiliary outputs and errors", "why_tests_cant": "Equality of entries with derivatives for all functions, structures and numbers of leaves.", "anchors": ["equinox/_ad.py:_Jac", "equinox/_ad.py:filter_jacfwd", "equinox/_ad.py:filter_jacrev", "equinox/_ad.py:filter_hessian"]}
{"id": "C72", "title": "Linear and MLP compute affine maps with an activation function per neuron", "statement": "Linear(in, out)(x) is W x + b, where in and out may be \"scalar\" for inputs and outputs of shape (); an input of any other size raises. A new layer has weights (out, in) and biases (out,) between -1/sqrt(in) and 1/sqrt(in), and no bias if not asked for. A new MLP has depth + 1 layers from in_size over width_size to out_size, each from a key of its own, only the last with use_final_bias. MLP(x) passes the result of each hidden layer through the activation function and that of the last through the final activation function; where these have arrays, neuron k of layer i uses row [i][k] of them. A new MLP uses the arrays that it was given for every neuron. With depth 0 it is a single layer.", "quantifier": "all sizes, widths and depths, all weights, all activation functions with any parameters, all inputs", "why_tests_cant": "The composition has any number of layers and neurons, with a copy of the activation's parameters for each of them.", "anchors": ["equinox/nn/_linear.py:Linear", "equinox/nn/_mlp.py:MLP"]}
{"id": "C73", "title": "filter_pure_callback calls the function with the arguments given and returns what was declared", "statement": "filter_pure_callback(f, *args, result_shape_dtypes=r, **kwargs) calls f(*args, **kwargs) with arrays and other objects in their places and returns what f returned. If f raises, or returns other objects than those in r, or arrays that are not as many or of other shapes or dtypes than declared, it raises a RuntimeError. What it returns always has the structure of r.", "quantifier": "all pytrees of arguments, all functions, all declarations", "why_tests_cant": "The arguments, the result and the declaration are pytrees of any shape in which arrays, None and other objects mix.", "anchors": ["equinox/_callback.py:filter_pure_callback"]}
{"id": "C74", "title": "The backward pass of a checkpointed loop propagates as few cotangents as needed, and still gives exact gradients", "statement": "Which leaves of the loop's value get cotangents is decided by two fixed points. The first ends after at most one round per leaf (and one more) with the least set of leaves that contains the perturbed initial ones and every inexact leaf that depends on it or on perturbed parts of the closure; the second with the least subset of these that contains those with a cotangent at the end and those to which a cotangent comes back. No assertion fails. For each perturbed leaf of the initial value and of the closure the gradient is the one of differentiating the unrolled loop with respect to everything. In forward mode, cutting the tangents of the result to the first set changes nothing.", "quantifier": "all bodies with any dependencies between any number of leaves, with buffers or without, all sets of perturbed leaves, all cotangents, any number of steps and checkpoints", "why_tests_cant": "A wrong fixed point drops gradients only for particular dependencies across several iterations; one that is not reached hangs while tracing.", "anchors": ["equinox/internal/_loop/checkpointed.py:_checkpointed_while_loop_bwd", "equinox/internal/_loop/checkpointed.py:_resolve_perturb_val", "equinox/internal/_loop/checkpointed.py:_stop_gradient_on_unperturbed_jvp", "equinox/internal/_loop/common.py:common_rewrite"]}
{"id": "C75", "title": "Gradients through loop buffers are exact if the documented restrictions are kept", "statement": "A loop with buffers has the derivative of the same loop on plain arrays. In forward mode always. In reverse mode, if no location is written after it has been read or written (which the documented restrictions imply): though the transpose of a write does not clear the cotangent of the location, and the checkpointed loop recomputes its values with the buffers as they are at the end, its backward pass returns the gradient with respect to what the body closes over, the initial values, and the initial contents of all locations that are not overwritten.", "quantifier": "all bodies made of differentiable functions, reads, writes and selects, all numbers of steps and checkpoints, all predicates, all cotangents", "why_tests_cant": "The shortcuts in the transposed rules are wrong for some programs, and their gradients are wrong without any error.", "anchors": ["equinox/internal/_loop/common.py:_maybe_set_transpose", "equinox/internal/_loop/common.py:_maybe_set_jvp", "equinox/internal/_loop/common.py:_select_if_vmap_transpose", "equinox/internal/_loop/common.py:_select_if_vmap_jvp", "equinox/internal/_loop/checkpointed.py:_checkpointed_while_loop_bwd"]}
{"id": "C76", "title": "nextafter and prevbefore are the neighbours of a number as the arithmetic sees it", "statement": "Where denormals are zero, nextafter(x) compares greater than x and no number compares to be in between, for every number but inf; prevbefore is the mirror image, and undoes nextafter up to what compares equal. Where there are denormals the same holds for all numbers but zero, whose neighbours are the smallest positive and largest negative normal numbers. NaN stays NaN, inf stays inf. (The docstring says 'the floating point number after x', which is not so for zero where there are denormals.)", "quantifier": "all floating point formats of IEEE 754 with any number of fraction bits and exponents, all numbers including denormals, zeros of both signs, infinities and NaN; with and without denormals-are-zero", "why_tests_cant": "Zero, the denormals and the ends of the binades are a handful of values out of 2^64, and whether denormals are zero depends on the platform.", "anchors": ["equinox/internal/_nextafter.py:nextafter", "equinox/internal/_nextafter.py:prevbefore"]}
{"id": "C77", "title": "The predicates on leaves say what they document", "statement": "is_array holds of exactly the JAX and NumPy arrays; is_array_like of these, the Python numbers and objects with __jax_array__; is_inexact_array of exactly the arrays of floating or complex dtype; is_inexact_array_like of these, Python float and complex, and what __jax_array__ turns into one of them. Every inexact array is an array, every array is array-like, and so on.", "quantifier": "all Python objects, as told apart by type, dtype and what __jax_array__ returns or raises; all dtypes, those of ml_dtypes included", "why_tests_cant": "The tests have a dozen literals; whether JAX and NumPy agree on what is inexact depends on the dtype and on who holds the array.", "anchors": ["equinox/_filters.py:is_array", "equinox/_filters.py:is_array_like", "equinox/_filters.py:is_inexact_array", "equinox/_filters.py:is_inexact_array_like"]}
{"id": "C78", "title": "filter_checkpoint changes neither results nor derivatives; filter_shard only places arrays", "statement": "A function wrapped in filter_checkpoint is called once with the arguments of the call (NumPy arrays having become JAX arrays); it returns what the function returns and raises what it raises; without NumPy arrays it has the same gradients, pullbacks and tangents as the function. filter_shard returns the same tree with every array under the sharding found above it in the tree of shardings, everything that is not an array untouched, and refuses shardings which are not a prefix of the tree.", "quantifier": "all functions of positional and keyword arguments, all pytrees of arguments and outputs with any mixture of arrays and other leaves; all trees of shardings, None included, and devices", "why_tests_cant": "The tests have one MLP and one device; which leaf gets which sharding and what happens to leaves that are not arrays depends on the shapes of both trees.", "anchors": ["equinox/_ad.py:filter_checkpoint", "equinox/_ad.py:_CheckpointWrapper", "equinox/_sharding.py:filter_shard"]}
{"id": "C79", "title": "vmapping a noinlined function is vmapping the function", "statement": "When a call of a noinlined function is batched, the function is called on every lane of the arguments (arrays sliced along their batch axes, everything else whole), and the result has the outcomes as its lanes along its first axis.", "quantifier": "all functions, argument pytrees, batch axes and array shapes", "why_tests_cant": "The tests batch matrices along their first axis; what becomes of other axes depends on the rank of the array and its batch axis.", "anchors": ["equinox/internal/_noinline.py:_noinline_batch", "equinox/internal/_noinline.py:_move_to_front", "equinox/internal/_noinline.py:_MetaBatchTransform"]}
{"id": "C80", "title": "the derivative of a noinlined function is the derivative of the function", "statement": "Differentiating a call of a noinlined function gives the output of the call and the tangents which filter_jvp gives for the function, with respect to exactly those leaves of the arguments that have a tangent. Transposing a call applies jax.linear_transpose to the function of the leaves that are not known, and puts the cotangents at these leaves, and None at the others.", "quantifier": "all functions, transforms applied before, argument pytrees, choices of leaves with a tangent or unknown", "why_tests_cant": "The tests differentiate a few functions of arrays; which leaves have a tangent or are unknown is a choice for every leaf of an arbitrary pytree, after arbitrary earlier transforms.", "anchors": ["equinox/internal/_noinline.py:_noinline_jvp", "equinox/internal/_noinline.py:_jvp_transform", "equinox/internal/_noinline.py:_noinline_transpose", "equinox/internal/_noinline.py:_MetaTransposeTransform"]}
{"id": "C81", "title": "the number of iterations of the backward pass is that of recursive halving, and quadratic for a fixed number of checkpoints", "statement": "The backward pass of a checkpointed loop takes exactly the sum, over the gaps between successive checkpoints the forward pass leaves behind, of the cost of halving the gap recursively with the slots that are still free. For a fixed number c of checkpoints it is therefore at least n^2 / (2 c 4^(c-1)), while with the number of steps known in advance C(c+t, t) steps cost at most t+1 per step: no constant bounds the ratio.", "quantifier": "all loops, numbers of steps and of checkpoints, max_steps", "why_tests_cant": "A test runs a few lengths; the growth of the cost with the number of steps is a statement about all of them, and no test counts iterations.", "anchors": ["equinox/internal/_loop/checkpointed.py:_calc_next_checkpoint", "equinox/internal/_loop/checkpointed.py:_load_from_checkpoint", "equinox/internal/_loop/checkpointed.py:_maybe_save_to_checkpoint", "equinox/internal/_loop/checkpointed.py:_checkpointed_while_loop_bwd"]}
{"id": "C82", "title": "which checkpoints the forward pass keeps beyond the range of a single recomputation", "statement": "From c (c + 3) / 2 steps on, each further step gets a checkpoint. It takes the place of the latest dispensable one, on level zero; a checkpoint is dispensable if some later one has a level at least two higher. If there is none, it takes the place of the latest checkpoint, one level higher. The initial value is always kept.", "quantifier": "all loops, numbers of steps and of checkpoints >= 2, max_steps", "why_tests_cant": "The state of the schedule (levels and flags for every slot) evolves over arbitrarily many steps; tests only see gradients, which are right whatever is evicted.", "anchors": ["equinox/internal/_loop/checkpointed.py:_wang_moin", "equinox/internal/_loop/checkpointed.py:_any_dispensable", "equinox/internal/_loop/checkpointed.py:_none_dispensable", "equinox/internal/_loop/checkpointed.py:_should_save_residual"]}
{"id": "C83", "title": "a module inherits the __init__ that was written for it", "statement": "If a Module class, or any class it inherits from, is written with an `__init__`, then `cls.__init__` is the one of the nearest such class in the method resolution order: dataclass never generates another one in its place. If there is none, `cls.__init__` is generated for the fields of `cls` itself.", "quantifier": "all class hierarchies", "why_tests_cant": "Whether an `__init__` is generated is decided per class from flags of other classes; tests have a few hierarchies, the rule is about all method resolution orders.", "anchors": ["equinox/_module.py:_ActualModuleMeta.__new__"]}
{"id": "C84", "title": "announce_transform changes nothing and announces every transform", "statement": "`announce_transform(x)` returns `x` under any nest of jvp, vmap, grad and jit, whatever is differentiated or batched, for values, tangents, batch axes and cotangents. If every array is transformed by every transform, one line is announced for each call the nest makes of one call (vmap makes one batched call; jvp one for primals and one for tangents), listing the transforms from the innermost to the outermost and what happens at the end (impl, or abstract and then mlir); with `intermediates=True` there is in addition a line for each transform when it happens.", "quantifier": "all pytrees, all nests of transforms, all choices of what is batched and differentiated, all names", "why_tests_cant": "The rules call each other through JAX once for each transform; the log is about all nests, of which tests have a handful.", "anchors": ["equinox/debug/_announce_transform.py:announce_transform"]}
{"id": "C85", "title": "unvmap_all, unvmap_any and unvmap_max reduce over all lanes of all vmaps", "statement": "Under any nest of vmaps, along any axes, some of which may not batch the argument: `unvmap_all(x)` is true exactly if all elements of all lanes of `x` are true, `unvmap_any(x)` exactly if some element of some lane is, `unvmap_max(x)` is the largest element of all lanes (ValueError if there are no elements), and the result is batched by none of the vmaps.", "quantifier": "all arrays, all nests of vmaps, all batch axes", "why_tests_cant": "Each vmap adds an axis at a position of its own; the claim is about all nests and all positions.", "anchors": ["equinox/_unvmap.py:unvmap_all", "equinox/_unvmap.py:unvmap_any", "equinox/_unvmap.py:unvmap_max"]}
{"id": "C86", "title": "scan_trick runs fn and the intermediates in turn", "statement": "`scan_trick(fn, [g1, ..., gk], x)` computes fn, g1, fn, g2, ..., gk, fn in this order, each exactly once for its position, and raises what the first of them to fail raises; under any transformations, as its counter is affected by none.", "quantifier": "all functions, all lists of intermediates, all inputs", "why_tests_cant": "An off-by-one in the switch shows only for particular lengths.", "anchors": ["equinox/internal/_misc.py:scan_trick"]}
{"id": "C87", "title": "Embedding has the sizes of its table and looks up rows; PReLU is what it is documented to be", "statement": "`Embedding(...)` succeeds exactly if a two-dimensional table agreeing with the sizes given is given, or two non-negative sizes and a key; its sizes are then the shape of its table. Calling it with a scalar gives that row (negative numbers count from the end, others are clamped), with anything else a ValueError. `PReLU()(x)` is `max(x, 0) + alpha * min(x, 0)`.", "quantifier": "all arguments, tables and indices", "why_tests_cant": "The constructor has five ways to fail depending on which arguments are given; tests try some combinations.", "anchors": ["equinox/nn/_embedding.py:Embedding.__init__", "equinox/nn/_embedding.py:Embedding.__call__", "equinox/nn/_activations.py:PReLU.__call__"]}
{"id": "C88", "title": "saving to and loading from a path go to the same file, and files are closed", "statement": "A path without a suffix stands for the same with `.eqx`, any other for itself. What `tree_serialise_leaves` saved under a path, `tree_deserialise_leaves` loads under every path that stands for the same file, whatever the file contained before; no other file changes. However either of them ends, every file they opened is closed; a file object of the user is left open, is appended to and read from where it stands. An empty name, a missing directory or a missing file raise.", "quantifier": "all paths, disks, pytrees, filter specifications and outcomes", "why_tests_cant": "Suffixes have corner cases (dots at the beginning, at the end, in directories); closing files has to be shown for every exception.", "anchors": ["equinox/_serialisation.py:_with_suffix", "equinox/_serialisation.py:_maybe_open", "equinox/_serialisation.py:tree_serialise_leaves", "equinox/_serialisation.py:tree_deserialise_leaves"]}
{"id": "C89", "title": "the cache of filter_pmap cannot be noticed", "statement": "After any history of calls of functions decorated with `filter_pmap`, of `clear_caches`, and of functions being deleted, a call does what it does without a cache: the same result or the same exception; static values that cannot be hashed raise a TypeError. The function may itself be a pytree with arrays, which are passed on anew in every call. After a call that returned, equal calls do not trace the function for its output rank again until the caches are cleared or the function goes away.", "quantifier": "all histories, functions, arguments, axes and configurations", "why_tests_cant": "The cache is shared by all decorated functions of the process, and the number of output axes in an entry comes from an earlier call; whether an entry fits depends on the whole history.", "anchors": ["equinox/_compile_utils.py:compile_cache", "equinox/_vmap_pmap.py:_filter_pmap_cache", "equinox/_vmap_pmap.py:_PmapWrapper._call", "equinox/_caches.py:clear_caches"]}
{"id": "C90", "title": "backward_nan passes values and cotangents on, and stops at a NaN", "statement": "`debug.backward_nan(x, name, terminate)` returns `x` unchanged, and on the backward pass prints the name, the primals and the cotangents once. Each inexact array of `x` gets as gradient exactly its own cotangent, unless `terminate` is true: then a NaN anywhere in the cotangents raises (with EQX_ON_ERROR=raise), and cotangents without any array are a ValueError. `debug.breakpoint_if` opens the debugger exactly if the predicate is true somewhere in some batch element and hands its token back. `assert_dce` does nothing outside of jit, and under jit stops a program that keeps the value.", "quantifier": "all pytrees, names, cotangents and sets of perturbed arrays; all predicates under any nest of vmap and jit", "why_tests_cant": "NaNs on the backward pass only, symbolic zeros, and trees with leaves that are not differentiable are hard to reach from the outside.", "anchors": ["equinox/debug/_backward_nan.py:backward_nan", "equinox/debug/_backward_nan.py:_backward_nan_bwd", "equinox/debug/_breakpoint_if.py:breakpoint_if", "equinox/_errors.py:assert_dce"]}
{"id": "C91", "title": "methods bind their instance, and are pytrees", "statement": "A function in the body of a module class, under a name that is not magic, is found on instances as a method that calls the function with the instance first, and has its name and documentation; the same for a function decorated with filter_jit, filter_grad, filter_vmap, filter_pmap, filter_checkpoint. On the class both are what was written; the first class of the method resolution order counts; static methods, properties, magic methods and attributes of the instance behave as in Python. The leaves of a method are those of its instance (for a decorated one those of the decorated function come first); taken apart and put together with other leaves, it is the method of the instance with these leaves.", "quantifier": "all classes, inheritance orders, instances, functions, arguments and leaves", "why_tests_cant": "All class hierarchies and all replacements of leaves.", "anchors": ["equinox/_module.py:_wrap_method", "equinox/_module.py:BoundMethod", "equinox/_module.py:_ActualModuleMeta.__new__", "equinox/_jit.py:_JitWrapper.__get__", "equinox/_ad.py:_ValueAndGradWrapper.__get__", "equinox/_vmap_pmap.py:_VmapWrapper.__get__"]}
{"id": "C92", "title": "enumeration items in batches: messages, comparisons, promotion, errors", "statement": "For an item whose value may be traced and may differ between the elements of a batch: Cls[item] is the declared message if the value is concrete, 'traced' under a transformation and 'unknown' if the value is not an array. In every batch element, item == Cls.x holds just if the item is Cls.x there and != is its negation; Sub.promote(item) is Sub.x where item is Base.x; Cls.where(pred, a, b) is the item that pred chooses there. item.error_if(x, pred) gives x back if pred holds nowhere, and otherwise raises with the message of the item (of the one with the largest value, if the batch has several); it never raises with the message of an item that does not occur. Operands of another class raise ValueError.", "quantifier": "all hierarchies of enumerations, all nestings of jit and vmap, all batches of items, all predicates", "why_tests_cant": "All hierarchies and all nestings of transformations.", "anchors": ["equinox/_enum.py:EnumerationItem.error_if", "equinox/_enum.py:EnumerationItem.__eq__", "equinox/_enum.py:_EnumerationMeta.__getitem__", "equinox/_enum.py:Enumeration.promote", "equinox/_enum.py:Enumeration.where", "equinox/_errors.py:branched_error_if"]}
{"id": "C93", "title": "error_if is transparent to differentiation", "statement": "Differentiating a call of error_if or branched_error_if raises just if the call itself does, whatever carries tangents, and otherwise gives the same value. The tangent of every floating point array of the result is that of the same array of x: it is passed on unchanged, symbolic zeros stay symbolic zeros, also where the value is replaced by NaNs when the program runs. Only NaNs put in while tracing are constants.", "quantifier": "all trees, tangents, predicates and indices (bool, int, traced in any way), messages, modes", "why_tests_cant": "All trees and combinations of tangents.", "anchors": ["equinox/_errors.py:_error_jvp", "equinox/_errors.py:_error", "equinox/_errors.py:branched_error_if_impl", "equinox/_ad.py:filter_custom_jvp"]}
{"id": "C94", "title": "Fields of modules", "statement": "The fields of a module, class variables included, are the names that the modules of its method resolution order annotate other than as abstract, in the order in which they are first met going from the furthest ancestor to the class itself; abstract annotations neither make a field nor remove one, and all annotations stay visible on the class. Whether a name is a field or a class variable is decided by the declaration in the class body, and otherwise by the first of the other classes of the method resolution order that has the name. So modules that agree on a name are respected, and with single inheritance the nearest declaration decides; with several bases it need not.", "quantifier": "all class hierarchies built by any sequence of class statements, with any bases, bodies, kinds of annotation, strict or not", "why_tests_cant": "All class hierarchies, multiple inheritance included.", "anchors": ["equinox/_better_abstract.py:dataclass", "equinox/_better_abstract.py:_process_annotation", "equinox/_module.py:_ActualModuleMeta.__new__"]}
{"id": "C95", "title": "filter_jit reports the error_if that was violated", "statement": "A call of a function wrapped in filter_jit that is stopped by an error_if while running raises an EquinoxRuntimeError with the message and stack of that error_if, and not of one violated in an earlier call or in a call nested in a callback. Results and all other exceptions pass through unchanged. The logging filter installed for the call is in place while the program runs and is removed afterwards, whatever happens, leaving those of the user as they were.", "quantifier": "all sequences of calls, nested to any depth, with any violated error_ifs, results and exceptions", "why_tests_cant": "All histories: the report is made from global variables.", "anchors": ["equinox/_jit.py:_call", "equinox/_jit.py:_FilterCallback", "equinox/_errors.py:_error"]}
{"id": "C96", "title": "Layers use every random key once", "statement": "A layer that is made with a key draws every parameter (for complex dtypes the real and the imaginary parts separately) with a key of its own that was split off the given one, and uses no key for two purposes; so layers made from different parts of a key are independent. The parameters have the documented shapes, and their entries are bounded by one over the square root of the number of terms summed in each output (by 1 if there are none). Arguments for which this is impossible (groups not dividing the channels of a Conv, no hidden units, an empty kernel, no heads, a weight with fewer than two dimensions) are refused. When Dropout, MultiheadAttention or Sequential are called, however they are nested, each active dropout mask has a key of its own; without a key this raises unless no mask is needed.", "quantifier": "Linear, MLP, GRUCell, LSTMCell, Conv, ConvTranspose, MultiheadAttention, Embedding and SpectralNorm with any arguments (any depth, any dtype, with or without biases); Sequentials nested to any depth; all keys", "why_tests_cant": "All sizes and nestings; that two arrays of random numbers are correlated does not show in tests of shapes or values.", "anchors": ["equinox/nn/_misc.py:default_init", "equinox/nn/_mlp.py:MLP.__init__", "equinox/nn/_rnn.py:GRUCell.__init__", "equinox/nn/_conv.py:Conv.__init__", "equinox/nn/_attention.py:MultiheadAttention.__init__", "equinox/nn/_sequential.py:Sequential.__call__", "equinox/nn/_dropout.py:Dropout.__call__"]}
{"id": "C97", "title": "Making a module warns about hidden arrays", "statement": "If a new module holds in a field a JAX-transformed callable (or any function with __wrapped__) around something with arrays or numbers, then making it gave a warning, whether it was passed to the generated __init__, also inside containers and modules, or assigned in __init__ or __post_init__, or returned by a converter. There is no such warning if nothing that was passed, assigned or converted contains such a callable. There is one further warning for each static field with a JAX array anywhere inside, and none for others.", "quantifier": "Modules with any fields, converters and defaults, made by the generated __init__ or one of the user with any arguments and assignments; values of any nesting, with __wrapped__ chains of any length", "why_tests_cant": "All values and ways of assigning them; a missed warning is silent, and shows as parameters that never train.", "anchors": ["equinox/_module.py:_warn_jax_transformed_function", "equinox/_module.py:_ActualModuleMeta.__call__", "equinox/_module.py:_make_initable"]}
{"id": "C98", "title": "ContainerMeta numbers its members and looks them up", "statement": "For a class made with ContainerMeta, the members that its body declares are numbered 0, 1, ... in order of declaration: accessing one gives its number, indexing the class with that number gives back the declared value, numbers beyond raise IndexError, and len is how many there are. Names of the form __x__ are untouched, and a body that declares reverse_lookup is refused. isinstance accepts integers, integer arrays without dimensions, and nothing else that is not an instance. The numbers of inherited members also lead to their values.", "quantifier": "Class bodies with any names and values, in any class hierarchy", "why_tests_cant": "All bodies, including ones that mix members and special names in any order.", "anchors": ["equinox/internal/_misc.py:ContainerMeta"]}
{"id": "C99", "title": "Convolutions compute what they are documented to compute", "statement": "Every entry of the result of Conv is the bias of its output channel plus the sum, over the input channels of its group and all entries of the kernel, of the weight times the entry of the input that window and dilation select, where the input is continued beyond its ends by zeros, by repetition, by its end values, or by reflection, as padding_mode says. For ConvTranspose the input is first spread out by the stride with zeros in between. A call of Conv succeeds exactly if the input has the right number of dimensions and channels, kernel, stride and dilation are positive, groups divides both numbers of channels, and (in the modes other than zeros) the padding is not negative and an empty dimension is not padded. The constructors accept exactly arguments with an entry for every dimension (or one for all), non-empty kernels, a known padding and mode, and (Conv) a number of input channels that groups divides; ConvTranspose raises NotImplementedError for the modes that it lacks, and checks output_padding as C44 says.", "quantifier": "All inputs of any number of dimensions; all kernels, strides, dilations, paddings, modes, groups; entries in any commutative semiring", "why_tests_cant": "All combinations of hyperparameters; an offset that is wrong by one for odd paddings, or for a stride that does not divide the size, shows for few of them.", "anchors": ["equinox/nn/_conv.py:Conv", "equinox/nn/_conv.py:ConvTranspose", "equinox/nn/_conv.py:_padding_init", "equinox/nn/_conv.py:_ntuple"]}
{"id": "C100", "title": "A compiled call of a noinlined function returns what the function returns", "statement": "Under jit, a call of a noinlined function has the structure and the static leaves that abstract_fn gives for it, with the arrays that the function computes at run time, so that it equals the call outside of jit if abstract_fn is consistent with the function. Outputs with other shapes, dtypes or numbers of arrays, and errors of the function, are RuntimeErrors. What abstract evaluation announces does not depend on the calls evaluated earlier; at most 128 results are kept, and a call is not evaluated again if fewer other calls were evaluated since then.", "quantifier": "All functions, transforms, arguments, all histories of registrations, compilations, runs, abstract evaluations and clears of the caches", "why_tests_cant": "The result depends on two caches that persist in the process, and on which calls filled them before.", "anchors": ["equinox/internal/_noinline.py:noinline", "equinox/internal/_noinline.py:_noinline_abstract", "equinox/internal/_noinline.py:_cache_filter_eval_shape", "equinox/internal/_noinline.py:_get_callback"]}
{"id": "C101", "title": "The generated __init__ takes the fields as parameters and fills them", "statement": "A module class without __init__ of its own can be called with its fields as arguments, in order and by position, or by keyword; kw_only fields by keyword only, init=False fields not at all. The call returns exactly if the arguments fit that signature (TypeError otherwise), the default factories that are needed return, every field ends up with a value, and the converters return. Then each field holds what was passed, or its default, put once through its converter. Defaults that are unhashable, and fields without default behind positional ones with default, are refused by the class statement; eqx.field refuses converter and static in metadata.", "quantifier": "All lists of fields with any defaults, factories, flags and converters, all positional and keyword arguments, any __post_init__", "why_tests_cant": "The number of combinations of flags, defaults and ways of passing arguments is unbounded; tests fix a few classes.", "anchors": ["equinox/_module.py:field", "equinox/_module.py:_ActualModuleMeta.__new__", "equinox/_module.py:_ActualModuleMeta.__call__"]}
{"id": "C102", "title": "Converters annotate the generated __init__, and only that", "statement": "The parameters of a generated __init__ are annotated with what the converter of the field takes (Any if that is unknown), or else with the type of the field. Neither the class statement nor any later one changes the annotations of an __init__ that the user wrote.", "quantifier": "All fields, converters, and all sequences of class statements", "why_tests_cant": "Functions are shared between classes; whether one class statement changes another class shows only in sequences of definitions.", "anchors": ["equinox/_module.py:_ActualModuleMeta.__new__"]}
{"id": "C103", "title": "tree_pformat shows every node as its options say", "statement": "In what tree_pformat shows, every node for which truncate_leaf is true is shown as its type name with (...), and otherwise every JAX array is condensed to dtype and shape if short_arrays, and every ShapeDtypeStruct if struct_as_array as well, with weak types marked; functions decorated with custom_jvp or custom_vjp are shown as the function, and everything else with all that it contains.", "quantifier": "All objects of any nesting, all options and predicates", "why_tests_cant": "Options have to be passed on at every level of a recursion that goes through another library; tests look at the top level and at one list.", "anchors": ["equinox/_pretty_print.py:tree_pformat"]}
{"id": "C104", "title": "The layers named after their number of dimensions are the general layers", "statement": "Conv1d, Conv2d, Conv3d called with any positional and keyword arguments do what Conv does with the same arguments and num_spatial_dims in front, including defaults and errors; likewise ConvTranspose1d/2d/3d and ConvTranspose, AvgPool/MaxPool1d/2d/3d and Pool with its initial value and operation. AvgPool returns window sums divided by the size of the kernel, MaxPool the largest element of each window; AdaptiveAvgPool and AdaptiveMaxPool return the mean and the maximum of each box, and accept an integer or a sequence of one integer per dimension.", "quantifier": "All positional and keyword arguments; all inputs", "why_tests_cant": "Fifteen copies of long signatures: each test uses a few of the parameters of a few of the copies, mostly by keyword.", "anchors": ["equinox/nn/_conv.py:Conv1d", "equinox/nn/_conv.py:ConvTranspose3d", "equinox/nn/_pool.py:AvgPool1d", "equinox/nn/_pool.py:AdaptiveAvgPool1d"]}
{"id": "C105", "title": "Modules can be assigned to in `__init__` only, and the `__init__` that runs is the current one", "statement": "Calling a module class calls the __init__ now found along its method resolution order, and a generated __init__ the __post_init__ now found there, whatever was assigned to or deleted from the class and its superclasses before, and whatever the cache of temporary classes contains. While that __init__ runs exactly the declared fields of the instance can be assigned, whatever its body does (making other modules included); once it has returned, the instance is of the class that was called and neither it nor its copies can be changed. A class called again before 128 others is not prepared again; after 128 others or after clear_caches it is.", "quantifier": "All class hierarchies, all histories of patching, calling, copying, wrapping, assigning and clearing", "why_tests_cant": "The cache is only wrong for particular orders of patching and calling; tests make modules from classes that do not change.", "anchors": ["equinox/_module.py:_ActualModuleMeta.__call__", "equinox/_module.py:_make_initable", "equinox/_module.py:_make_initable_wrapper", "equinox/_module.py:_unflatten_module", "equinox/_caches.py:clear_caches"]}
{"id": "C106", "title": "The signature of a module class is what it can be called with", "statement": "inspect.signature of a module class raises nothing, and a call of the class enters the body of __init__ exactly if the arguments fit that signature, with every parameter bound as the signature says and self bound to the new instance; other calls raise TypeError. For a generated __init__ the signature lists the fields with init=True, the positional ones in order and then the keyword-only ones, and fits exactly the arguments that the class takes.", "quantifier": "All parameter lists that Python allows (positional-only, *args, keyword-only, **kwargs, defaults), all positional and keyword arguments", "why_tests_cant": "Tests print signatures; they do not compare, over all kinds of parameters, what a signature accepts with what calls accept.", "anchors": ["equinox/_module.py:_ActualModuleMeta.__signature__", "equinox/_module.py:_ActualModuleMeta.__call__"]}
{"id": "C107", "title": "The environment variables choose how errors are handled, without changing results", "statement": "equinox can be imported exactly if EQX_ON_ERROR is unset, raise, breakpoint or nan, and EQX_ON_ERROR_BREAKPOINT_FRAMES and EQX_GETKEY_SEED are unset or integers (ValueError otherwise), and the settings are what the variables say. EQX_ON_ERROR=breakpoint, which replaces jax.jit, does not change what any program of nested jitted functions returns: exactly the calls outside of any trace are compiled, and each other one is warned about and inlined; filter_jit(f).lower still lowers f. The keys of a GetKey are fold_in(PRNGKey(seed), 1), fold_in(PRNGKey(seed), 2), ..., whatever other GetKeys do, with the seed of the argument or else of EQX_GETKEY_SEED, so they can be reproduced from what its repr shows.", "quantifier": "All environments; all programs made of computations, sequencing, tracing and jitted calls, and all inputs; all histories of making and calling GetKeys", "why_tests_cant": "The variables are read once at import, so a test process sees one setting; that results agree for all nestings, and key sequences for all interleavings, is not testable by runs.", "anchors": ["equinox/_config.py", "equinox/_errors.py:fixed_jit", "equinox/_jit.py:_call", "equinox/internal/_getkey.py:GetKey"]}
{"id": "C108", "title": "Wrapped functions take the arguments of the function", "statement": "A function in any stack of the wrappers of equinox (filter_jit, filter_value_and_grad, filter_grad, filter_jacfwd/jacrev, filter_custom_jvp, filter_custom_vjp, filter_checkpoint, filter_make_jaxpr, assert_max_traces, noinline, closure_to_pytree) finds its parameters bound as in a direct call: positional and keyword arguments, defaults, *args and **kwargs; and arguments that do not fit raise TypeError. filter_jit, which passes arguments through inspect.signature(f).bind, does so for all parameters and arguments, keeps positional arguments where they are and adds no keywords. Methods of modules get the module in front, and filter_jit(f).lower takes the arguments of f.", "quantifier": "All valid lists of parameters of all kinds, all positional and keyword arguments, all stacks of wrappers", "why_tests_cant": "Tests call wrapped functions with a few arguments; the combinations of kinds of parameters, ways of passing arguments and nested wrappers cannot be enumerated.", "anchors": ["equinox/_jit.py:_bind", "equinox/_jit.py:_JitWrapper", "equinox/_ad.py:_ValueAndGradWrapper", "equinox/_ad.py:_GradWrapper", "equinox/_ad.py:_Jac", "equinox/_ad.py:filter_custom_jvp", "equinox/_ad.py:filter_custom_vjp", "equinox/_ad.py:_CheckpointWrapper", "equinox/_make_jaxpr.py:_MakeJaxpr", "equinox/debug/_max_traces.py:_AssertMaxTraces", "equinox/internal/_noinline.py:_NoInlineWrapper", "equinox/internal/_closure_to_pytree.py:_Closure", "equinox/_module.py:BoundMethod"]}
{"id": "C109", "title": "Options can be given in advance, and are checked", "statement": "filter_jit, filter_vmap, filter_pmap, filter_grad, filter_value_and_grad, filter_checkpoint, assert_max_traces and filter_primitive_transpose can be called with options only, any number of times, and then with the function: this does what one call with the function and all of these options does, later options replacing earlier ones, errors included. The function can be given by position or by keyword, but not both. filter_jit and filter_pmap accept exactly their documented values of donate and make of them the flags that the documentation says; keywords that equinox handles itself (static_argnums, donate_argnums, argnums, ...) or no longer has are refused with ValueError; all others are passed on to JAX unchanged.", "quantifier": "All of these functions, all sequences of dictionaries of options, all positional and keyword arguments", "why_tests_cant": "Tests use a few decorators with one option each; sequences of options and all the values and unknown keywords cannot be enumerated.", "anchors": ["equinox/_jit.py:filter_jit", "equinox/_vmap_pmap.py:filter_vmap", "equinox/_vmap_pmap.py:filter_pmap", "equinox/_ad.py:filter_value_and_grad", "equinox/_ad.py:filter_grad", "equinox/_ad.py:filter_checkpoint", "equinox/debug/_max_traces.py:assert_max_traces", "equinox/internal/_primitive.py:filter_primitive_transpose", "equinox/_deprecate.py:deprecated_0_10"]}
{"id": "C110", "title": "Training changes the trainable leaves and nothing else", "statement": "A training step made of partition, combine, filter_grad and apply_updates, as in the example on freezing parameters, run any number of times: the model keeps its structure; every leaf that the filter specification marks False, and every leaf that is not an inexact array, is the one it was at the start; every other leaf is in each step the old leaf plus its update. The gradients given to the optimiser are those of the loss as a function of exactly the trainable leaves of the whole model, with None everywhere else. A step fails only if the loss does, with its exception.", "quantifier": "All models, all filter specifications of bools with the structure of the model, all losses, all optimisers whose updates have the structure of the gradients, all numbers of steps and batches", "why_tests_cant": "Tests train a few models for a few steps; models, specifications, optimisers and numbers of steps are unbounded.", "anchors": ["equinox/_filters.py:partition", "equinox/_filters.py:combine", "equinox/_ad.py:filter_grad", "equinox/_update.py:apply_updates", "examples/frozen_layer.ipynb:make_step"]}
{"id": "C111", "title": "Ensembles of models are their members, and scanning over layers applies them in turn", "statement": "The recipes of the documentation: filter_vmap of a function that makes a model gives one pytree, all of whose arrays have a leading axis of the common length n of the arrays in the arguments, and index i of whose arrays is the model made from index i of the arguments. Evaluating the ensemble with in_axes=(if_array(0), None) gives, at index i, what model i makes of the whole input; evaluating it with the default axes gives what model i makes of index i of the input. Partitioning the ensemble and scanning over it succeeds exactly if the initial carry consists of arrays, the models applied one after the other succeed and keep the types of the carry, and gives their result; without arrays in the ensemble it raises a ValueError. The ensemble is made whenever each model is.", "quantifier": "All functions that make and call models and satisfy JAX's rules for tracing, all arguments that contain an array, all numbers of members, all inputs", "why_tests_cant": "Tests vmap a few layers over a few keys; models, their static parts and the number of layers are unbounded.", "anchors": ["equinox/_vmap_pmap.py:filter_vmap", "equinox/_vmap_pmap.py:if_array", "equinox/_filters.py:partition", "equinox/_filters.py:combine", "docs/tricks.md:evaluate_ensemble"]}
{"id": "C112", "title": "Surgery on models changes exactly the weights of the layers found", "statement": "The recipes of the documentation. init_linear_weight, whose where searches the tree for linear layers: if it returns, the weight of the i-th outermost linear layer from left to right is init_fn of the old weight and of the i-th key, also when layers share a weight, and nothing else has changed; it returns if every linear layer has a weight and init_fn returns. Wrapping the weights with tree_at(get_weights, model, replace_fn=Symmetric) and resolving them with resolve_symmetric succeeds: in between every weight is wrapped, in the end it is get of the old weight, and nothing else changes. The filter specification of the example on freezing has the structure of the model, True exactly at the selected leaves and False elsewhere, though all its leaves are the same object False, so that training changes no other leaf.", "quantifier": "All models (pytrees), all kinds of layers, all functions init_fn and get, all selections of leaves, any number of training steps", "why_tests_cant": "Tests replace the weights of one small model; trees, sharing and the positions of layers are unbounded.", "anchors": ["equinox/_tree.py:tree_at", "equinox/_filters.py:partition", "docs/tricks.md:init_linear_weight", "docs/tricks.md:resolve_symmetric", "examples/frozen_layer.ipynb:filter_spec"]}
{"id": "C113", "title": "Class statements of enumerations check their bases and warn about clashes", "statement": "A class statement that has an enumeration among its bases raises a ValueError if some other base is not an enumeration, and otherwise runs if a method resolution order exists. It warns about a name exactly if the classes it inherits from and its body do not all give the same message to the name. Hierarchies in which all bases are enumerations behave as in C16 and C17, with Enumeration and object at the end of every method resolution order.", "quantifier": "All sequences of class statements with any bases (enumerations, ordinary classes, Enumeration and object), all class bodies", "why_tests_cant": "Tests have a handful of hierarchies, and none with an ordinary class as a base; hierarchies, names and messages are unbounded.", "anchors": ["equinox/_enum.py:_EnumerationMeta.__new__", "equinox/_enum.py:_store", "equinox/_enum.py:_EnumerationMeta.__getattr__"]}
{"id": "C114", "title": "Hyperparameters and weights in one file", "statement": "With the save and load functions of the serialisation example: if the hyperparameters survive JSON and the model made of them has the structure of the saved model and leaves of the same types, shapes and dtypes, then loading returns a model whose arrays and scalars are the saved ones and whose other leaves are those of the model that was made. Other files do not change and no file stays open. Whatever the file contains, a model that is loaded fits the hyperparameters in its first line; loading never changes the disk.", "quantifier": "All models, hyperparameters, functions making models, JSON formats, disks and paths; all contents of the file", "why_tests_cant": "The example checks one number of one array of one model.", "anchors": ["examples/serialisation.ipynb", "equinox/_serialisation.py:tree_serialise_leaves", "equinox/_serialisation.py:tree_deserialise_leaves"]}
{"id": "C115", "title": "Training loops over leaves and init/apply pairs are the ordinary ones", "statement": "The low-overhead training loop of the documentation, which passes lists of leaves from step to step, returns the model that the ordinary loop returns and raises what it raises, if steps keep the structure of the model and of the optimiser's state. In any case the model it returns has the structure of the one put in; if a step changes the number of leaves, it raises. In the init/apply example, apply of the initial parameters is calling the model, and apply of changed parameters is calling the model with exactly its inexact arrays changed.", "quantifier": "All models, states, steps, batches and numbers of batches; all functions on parameters", "why_tests_cant": "These are recipes without tests; steps, models and numbers of steps are unbounded.", "anchors": ["docs/tricks.md", "examples/init_apply.ipynb", "equinox/_filters.py:partition", "equinox/_filters.py:combine"]}
{"id": "C116", "title": "The generated documentation of an enumeration lists its items", "statement": "A class statement of an enumeration without a docstring gives the class a documentation with one entry for every item, own or inherited, in the order of the values, made of the name and the message of the item (an empty message is left out, later lines are indented). Two enumerations with the same generated documentation have the same names, values and messages. A docstring in the body is kept. The statement raises an AttributeError exactly if there is no docstring and some item has a message that is not a string.", "quantifier": "All sequences of class statements of enumerations; all names without backticks; all messages, strings or not, with any line breaks", "why_tests_cant": "There is no test of the documentation; names, messages and hierarchies are unbounded, and messages may imitate entries.", "anchors": ["equinox/_enum.py:_EnumerationMeta.__new__", "equinox/_enum.py:_magic"]}
{"id": "C117", "title": "Loops with a max_steps of zero, below zero, or of type bool", "statement": "while_loop with a natural number for max_steps, or none, is the loop of C22 to C26. With max_steps=0 it returns the initial value without a step, but kind=checkpointed raises a ValueError unless a positive number of checkpoints is given. With a negative max_steps kind=lax makes no step, kind=bounded raises a ValueError, and kind=checkpointed raises one unless a positive number of checkpoints is given. With True or False kind=lax raises, kind=bounded takes them for one and zero, and kind=checkpointed raises except for False with a positive number of checkpoints.", "quantifier": "All loops, lanes, initial values, integers and booleans for max_steps, integers or None for checkpoints, bases", "why_tests_cant": "Tests use a few positive values of max_steps; the three kinds check it in different places.", "anchors": ["equinox/internal/_loop/loop.py:while_loop", "equinox/internal/_loop/bounded.py:bounded_while_loop", "equinox/internal/_loop/checkpointed.py:checkpointed_while_loop", "equinox/internal/_loop/common.py:common_rewrite"]}
{"id": "C118", "title": "filter_vmap inside of filter_vmap, to any depth", "statement": "A filter_vmap of a function that can be traced is itself a function that can be traced: on arguments which agree in structure, shapes, dtypes and non-array leaves its results agree in them too. Hence a nest of filter_vmaps of any depth, each with its own in_axes, out_axes and axis_size, calls the function on every lane of every lane of the arguments and returns the outcomes as lanes of lanes. Mapping over the first axis and inside over the second gives what mapping over the second and inside over the first gives.", "quantifier": "All depths, functions that can be traced, in_axes and out_axes (numbers, None, callables, prefixes), axis sizes, pytrees of arguments, arrays", "why_tests_cant": "Tests apply filter_vmap once, or twice with one function and one shape; the claim is by induction on the depth.", "anchors": ["equinox/_vmap_pmap.py:_VmapWrapper.__call__", "equinox/_vmap_pmap.py:filter_vmap", "equinox/_vmap_pmap.py:_resolve_axes"]}
{"id": "C119", "title": "Dtypes of layers: what is asked for is what is held, and precision is kept", "statement": "Every array a layer holds, parameter or state, has the dtype asked for at construction (by default the default floating dtype); layers with random parameters refuse dtypes that are neither floating nor complex. Layers of one dtype, called one after the other, in training or inference, take inputs of it to outputs of it and keep the dtypes of their state, also under strict promotion. LayerNorm, GroupNorm, RMSNorm compute with at least 32 bits and return the dtype of the input whatever their parameters' dtypes, attention weights likewise; RoPE returns the dtype of its input. Linear and recurrent cells return the promoted dtype, Conv accepts only its own. BatchNorm in training accepts exactly inputs whose averages have the dtype of the running statistics (otherwise TypeError or ValueError); SpectralNorm in training accepts a state whose dtype is at least the weight's.", "quantifier": "All dtypes of JAX's promotion lattice (bool, integers, bfloat16 to complex128), 32- and 64-bit mode, standard and strict promotion, all layers with or without biases and affine parameters, MLPs of any depth, sequences of any length, any number of power iterations", "why_tests_cant": "Tests use float32 nearly everywhere, and for each layer at most one other dtype; the combinations of dtypes of input, parameters and state with the promotion settings are many, and sequences unbounded.", "anchors": ["equinox/nn/_misc.py:default_init", "equinox/nn/_normalisation.py:LayerNorm.__call__", "equinox/nn/_normalisation.py:RMSNorm.__call__", "equinox/nn/_batch_norm.py:BatchNorm.__call__", "equinox/nn/_attention.py:dot_product_attention_weights", "equinox/nn/_spectral_norm.py:SpectralNorm.__call__", "equinox/nn/_embedding.py:RotaryPositionalEmbedding.__call__", "equinox/nn/_mlp.py:MLP.__init__"]}
{"id": "C120", "title": "Which layers a Sequential can call", "statement": "Every layer of equinox.nn from one array to one array can be put into a Sequential, nested to any depth: given a state and a key the call succeeds and returns a pair. (False for PReLU, whose __call__ has no parameter key: a Sequential that contains one cannot be called.) In general, the first layer in order that cannot be called with what is there raises: a layer with several inputs or a plain function a TypeError, a stateful layer without state an AttributeError, an active Dropout without key a RuntimeError; otherwise the result is a pair exactly if a state was given. LayerNorm, GroupNorm, RMSNorm and BatchNorm can be exchanged for each other in calls with a state.", "quantifier": "All trees of Sequentials of any depth over all layer classes and plain functions, with or without state, with or without key", "why_tests_cant": "Tests call a handful of sequences; the claim is about all trees and all layers, by induction on the nesting.", "anchors": ["equinox/nn/_sequential.py:Sequential.__call__", "equinox/nn/_sequential.py:Sequential.is_stateful", "equinox/nn/_sequential.py:StatefulLayer.is_stateful", "equinox/nn/_activations.py:PReLU.__call__", "equinox/nn/_normalisation.py:LayerNorm.__call__"]}
{"id": "C121", "title": "error_if where callbacks cannot raise", "statement": "On a backend that squelches exceptions of callbacks and goes on with dummy values of the right structure, shapes and dtypes (a TPU), error_if and branched_error_if with on_error='raise' and a true traced predicate show the message of the largest index once, and return what on_error='nan' returns, whatever the dummy values are. (False for arrays in dtypes that NumPy does not have itself, such as bfloat16: they are returned as dummies. Nor is anything shown if the index selects no message.) With a false predicate nothing is shown and x is returned; errors known at trace time, and the refusal of an x without arrays, are raised at trace time as anywhere else; and on a backend where exceptions stop the program, the extra code changes nothing.", "quantifier": "All trees x, predicates, indices, messages, and all functions giving dummy values", "why_tests_cant": "No test suite runs on such a backend with all dummy values; the claim is about all of them.", "anchors": ["equinox/_errors.py:_error", "equinox/_errors.py:branched_error_if", "equinox/_errors.py:branched_error_if_impl", "equinox/_errors.py:_nan_like"]}
{"id": "C122", "title": "The data loaders of the examples", "statement": "The data loaders of the examples yield, epoch for epoch, the permutation of the epoch cut into batches: all batches have the size asked for, no row comes twice in an epoch, corresponding rows of several arrays stay together, and fewer rows than one batch are left out in an epoch. (The last is false for the loaders with 'end < dataset_size', in frozen_layer and score_based_diffusion: if batches fit exactly, a whole batch is left out.) The loader hangs, and never yields a batch, exactly if a batch is larger than the data set (or as large, with '<'). Arrays of different lengths are refused.", "quantifier": "All data sets, batch sizes, permutations and numbers of epochs, both variants of the loop", "why_tests_cant": "An example is run with one batch size and data set; the claim is about all of them and about infinitely many epochs.", "anchors": ["examples/train_rnn.ipynb:dataloader", "examples/parallelism.ipynb:train_dataloader", "examples/frozen_layer.ipynb:dataloader", "examples/score_based_diffusion.ipynb:dataloader"]}
{"id": "C123", "title": "filter_pmap compiled ahead of time", "statement": "filter_pmap(f).lower(*args).compile(), after any history of calls, is a function which does on further arguments what the decorated function does there, provided they differ from those it was lowered for in the values of arrays only. Arrays of other shapes or dtypes or at other places are refused with a TypeError, keyword arguments with a RuntimeError. To the cache of filter_pmap, lowering is a call. (As with filter_jit, other static arguments are not looked at: those it was lowered for are used.)", "quantifier": "All functions, histories of calls, arguments, axes and trees", "why_tests_cant": "Tests lower one function for one shape; the claim quantifies over histories and arguments.", "anchors": ["equinox/_vmap_pmap.py:_PmapWrapper.lower", "equinox/_vmap_pmap.py:_preprocess", "equinox/_compile_utils.py:Lowered", "equinox/_compile_utils.py:Compiled"]}
{"id": "C124", "title": "Attention and the order of positions", "statement": "MultiheadAttention without active dropout: putting the keys and values, and the columns of the mask, in another order leaves the output as it is. Putting the queries, and the rows of the mask, in another order, or repeating some, does the same to the output. Hence self-attention without a mask is equivariant. If a query may look at the first n positions only, its output is the one it gets, alone or among any other queries, from the first n keys and values (incremental decoding agrees with a causal mask), provided that in every head it may look at some position whose score is not at the bottom of the number range.", "quantifier": "All sizes, weights, biases, inputs, masks (shared or per head), permutations and prefixes", "why_tests_cant": "Tests compare a few outputs on random inputs up to tolerance; the claim quantifies over all orders and lengths.", "anchors": ["equinox/nn/_attention.py:MultiheadAttention.__call__", "equinox/nn/_attention.py:dot_product_attention", "equinox/nn/_attention.py:dot_product_attention_weights"]}
{"id": "C125", "title": "Convolutions and translations", "statement": "A convolution with circular padding of a rolled input has the same shape as that of the input itself, and each entry is the one of the original output whose window is the moved window (for any stride, dilation, padding, groups, and number of dimensions); with stride one and SAME or SAME_LOWER padding it is the rolled output. Rolling the input of a circular transposed convolution by v rolls the output by v times the stride. With VALID padding, whatever the mode, a patch of the input that begins where a window does gives the patch of the output that begins with that window.", "quantifier": "All weights, inputs, shifts, patches, kernel sizes, strides, dilations, groups and numbers of dimensions", "why_tests_cant": "Tests use a few shapes; equivariance is quantified over shifts, patches and all hyperparameters.", "anchors": ["equinox/nn/_conv.py:Conv.__call__", "equinox/nn/_conv.py:Conv._nonzero_pad", "equinox/nn/_conv.py:ConvTranspose.__call__", "equinox/nn/_conv.py:ConvTranspose._circular_pad"]}
{"id": "C126", "title": "Models made twice", "statement": "Making a model twice with the same arguments and key gives models of the same tree structure exactly if no StateIndex is created among its layers (its marker is a new object in a static field), and models that are equal for tree_equal exactly if moreover no object compared by identity is created as a leaf (the functools.partial of WeightNorm, the placeholders of Shared). make_with_state removes the first obstacle and not the second: both calls give the same state and models of the same structure, and they are equal exactly if no such leaf is created.", "quantifier": "All models, however layers are nested, and all arguments", "why_tests_cant": "Tests compare a few models made twice; which layers spoil equality, at any depth of any model, is quantified over all models.", "anchors": ["equinox/nn/_stateful.py:StateIndex.__init__", "equinox/nn/_stateful.py:make_with_state", "equinox/nn/_weight_norm.py:WeightNorm.__init__", "equinox/nn/_shared.py:Shared.__init__", "equinox/nn/_batch_norm.py:BatchNorm.__init__", "equinox/nn/_spectral_norm.py:SpectralNorm.__init__", "equinox/_tree.py:tree_equal"]}
{"id": "C127", "title": "Pooling: functions, channels, patches and pools in succession", "statement": "Pooling commutes with every function applied to each element that respects the operation, with any padding and with the same errors; maximum pooling commutes with every monotone function (an activation function) wherever a window meets the input; choosing, repeating or permuting channels commutes with pooling; without padding, a patch of the input that begins where a window does gives the patch of the output that begins with this window; and without padding two maximum pools in succession, of which the first leaves no gaps, are one maximum pool of kernel k1 + (k2 - 1) s1 and stride s1 s2 in every dimension, with the same shape and values (which fails with gaps).", "quantifier": "All pools of any number of dimensions, kernel sizes, strides, inputs, functions, and windows", "why_tests_cant": "Tests pool a few arrays with a few sizes; the equations quantify over all sizes, dimensions and inputs.", "anchors": ["equinox/nn/_pool.py:Pool.__call__", "equinox/nn/_pool.py:Pool.__init__"]}
{"id": "C128", "title": "Dropout", "statement": "Dropout on an array of any shape returns the input, with or without a key, unless it is active: the argument deterministic goes before inference, which goes before the field, and p is not the Python number zero. If it is active a key is needed (RuntimeError), and every element is zero or divided by 1 - p as its own draw says; everything is zero with p >= 1 and nothing is dropped with p <= 0. The mean of every element over a uniform draw is the input, and that of its square is the square over 1 - p. For a given key dropout is linear, and the gradient it passes back is the cotangent times the derivative (false for p = 1: the output is constantly zero and every element of the gradient is NaN).", "quantifier": "All shapes, inputs, keys, probabilities and flags", "why_tests_cant": "Tests count dropped elements for one or two probabilities; the mean is an integral over all draws, and p = 1 is not differentiated.", "anchors": ["equinox/nn/_dropout.py:Dropout.__init__", "equinox/nn/_dropout.py:Dropout.__call__"]}
{"id": "C129", "title": "Layers that compute the same", "statement": "AvgPool without ceil mode, with any padding and stride, is Conv with one group for each channel, padding with zeros, and all weights one over the size of the kernel: same shape, same values. Conv with kernels of size one, stride one, one group and no explicit padding is Linear with the same weights and bias at every position, whatever the padding mode and dilation. AdaptiveMaxPool and AdaptiveAvgPool to sizes that divide those of the input are MaxPool and AvgPool with kernels and strides of the size of the parts.", "quantifier": "All numbers of dimensions and channels, sizes, strides, paddings, weights and inputs", "why_tests_cant": "Tests compare each layer with fixed arrays; that two implementations agree on all inputs cannot be tested.", "anchors": ["equinox/nn/_pool.py:Pool.__call__", "equinox/nn/_pool.py:AvgPool1d.__call__", "equinox/nn/_pool.py:AdaptivePool.__call__", "equinox/nn/_conv.py:Conv.__call__", "equinox/nn/_linear.py:Linear.__call__"]}
{"id": "C130", "title": "What is different while documentation is generated", "statement": "doc_repr gives the object itself, or, while documentation is generated, one with the representation asked for that is called like the object (but for a keyword cls). doc_remove_args leaves the function alone, or, while documentation is generated, lets inspect.signature list the parameters not named, in order, without ever raising; calls are as before. If those removed are keyword-only with defaults, or **kwargs, the documented signature allows a call just if the function does and every keyword is documented, and binds the same.", "quantifier": "All functions with parameters Python allows, names to be removed, objects, and calls", "why_tests_cant": "Tests do not run with GENERATING_DOCUMENTATION set; signatures and calls are without bound.", "anchors": ["equinox/_doc_utils.py:doc_repr", "equinox/_doc_utils.py:WithRepr", "equinox/_doc_utils.py:doc_remove_args"]}
{"id": "C131", "title": "Entries of compile_cache", "statement": "get_fn_names gives the names of the one object inside all functools.wraps wrappers and partial applications, or of its type. After any history of calls, deletes, clears and garbage collection, a cached function returns an object made for the function, names and arguments of this call, raises just if making it raises, and makes it once as long as nothing takes the entry away; calls that differ never share one. delete(f) removes the entries of f, so that the next call makes a new object, keeps all others, and warns just if there was nothing to remove. (False if f was made with functools.wraps: then f keeps its entries and those of the wrapped function go.)", "quantifier": "All histories, functions, wrappers, partial applications, arguments and makers that may raise", "why_tests_cant": "Histories and nesting are without bound; tests call neither delete nor get_fn_names on nested wrappers.", "anchors": ["equinox/_compile_utils.py:compile_cache", "equinox/_compile_utils.py:get_fn_names", "equinox/_compile_utils.py:_strip_wrapped_partial", "equinox/_caches.py:clear_caches"]}
{"id": "C132", "title": "Normalisations that compute the same", "statement": "LayerNorm is RMSNorm with the same parameters on the input minus its mean, errors included; on inputs with mean zero the two are equal. GroupNorm with one group is LayerNorm over the whole input, with the parameter of a channel at all its elements. GroupNorm without parameters is LayerNorm on each group by itself, so with as many groups as channels every channel is normalised by itself.", "quantifier": "All shapes, inputs, parameters, values of eps and numbers of groups", "why_tests_cant": "Tests compare layers with fixed arrays; that two implementations agree on all inputs cannot be tested.", "anchors": ["equinox/nn/_normalisation.py:LayerNorm.__call__", "equinox/nn/_normalisation.py:GroupNorm.__call__", "equinox/nn/_normalisation.py:RMSNorm.__call__"]}
{"id": "C133", "title": "Layers that compute what a Linear computes", "statement": "Embedding at an index of its table is the Linear without bias whose weight is the transposed table, at the one-hot vector of the index. One Linear after another is the Linear with the product of the weights and the second layer's value at the first bias. Two Linear layers agree on all inputs exactly if their weights and biases agree, a missing bias being a bias of zeros. A new MLP whose activation functions are the identity computes what one Linear computes, whatever its depth and width.", "quantifier": "All tables and indices; all layers, sizes (scalar too), weights and biases; all depths, widths and random keys", "why_tests_cant": "Tests compare layers with fixed arrays; that two layers agree on all inputs, or that only equal parameters do, cannot be tested.", "anchors": ["equinox/nn/_linear.py:Linear.__call__", "equinox/nn/_embedding.py:Embedding.__call__", "equinox/nn/_mlp.py:MLP.__call__"]}
