{
 "claims": [
  {
   "property": "C01",
   "status": "proved",
   "theorems": [
    "Verif.Filters.combine_partition",
    "Verif.Filters.combine_partition_isLeaf",
    "Verif.Filters.combine_partition_contentBased_fails"
   ],
   "note": "With is_leaf: for predicates that look at container types only and specs not reaching inside accepted containers; the negative theorem shows the restriction is needed."
  },
  {
   "property": "C02",
   "status": "proved",
   "theorems": [
    "Verif.Filters.filter_governed",
    "Verif.Filters.filter_frame",
    "Verif.Filters.filter_succeeds_iff",
    "Verif.Filters.partition_eq_filters"
   ],
   "note": "Callables are assumed to return a leaf (a truth value)."
  },
  {
   "property": "C03",
   "status": "proved",
   "theorems": [
    "Verif.Filters.combine_leaf",
    "Verif.Filters.combine_frame",
    "Verif.Filters.combine_succeeds_iff",
    "Verif.Filters.combine_eq_merge",
    "Verif.Filters.combine_assoc",
    "Verif.Filters.combine_laws"
   ],
   "note": ""
  },
  {
   "property": "C04",
   "status": "proved",
   "theorems": [
    "Verif.Filters.applyUpdates_spec",
    "Verif.Filters.applyUpdates_succeeds_iff",
    "Verif.Filters.applyUpdates_frozen"
   ],
   "note": "The leaf addition is a parameter."
  },
  {
   "property": "C05",
   "status": "proved",
   "theorems": [
    "Verif.TreeAt.tree_at_replaces",
    "Verif.TreeAt.tree_at_put_get",
    "Verif.TreeAt.tree_at_replace_fn",
    "Verif.TreeAt.tree_at_get_put",
    "Verif.TreeAt.tree_at_put_put",
    "Verif.TreeAt.tree_at_succeeds",
    "Verif.TreeAt.tree_at_fn_succeeds",
    "Verif.TreeAt.tree_at_many_succeeds",
    "Verif.TreeAt.tree_at_many_put_get",
    "Verif.TreeAt.tree_at_many_replace_fn",
    "Verif.TreeAt.tree_at_many_get_put",
    "Verif.TreeAt.tree_at_many_put_put",
    "Verif.TreeAt.tree_at_changes_odd_tuples"
   ],
   "note": "For every where function (tree_at_replaces), and spelled out for selectors of one or several positions. Trees must not have a leaf that is an empty instance of a subclass of tuple: tree_at_changes_odd_tuples shows that such a leaf is changed although it is not selected. replace_fn sees empty tuples as _DistinctTuple objects."
  },
  {
   "property": "C06",
   "status": "partial",
   "theorems": [
    "Verif.TreeAt.tree_at_once",
    "Verif.TreeAt.tree_at_one_iff",
    "Verif.TreeAt.tree_at_raises_not_a_node",
    "Verif.TreeAt.tree_at_raises_nested_partial",
    "Verif.TreeAt.tree_at_raises_ambiguous_partial",
    "Verif.TreeAt.tree_at_raises_none_twice",
    "Verif.TreeAt.tree_at_raises_neither_both",
    "Verif.TreeAt.tree_at_raises_count",
    "Verif.TreeAt.tree_at_where_agrees",
    "Verif.TreeAt.tree_at_nothing",
    "Verif.TreeAt.tree_at_nested_none_misedits",
    "Verif.TreeAt.tree_at_selected_twice",
    "Verif.TreeAt.ErrorKinds.foreign_leaf",
    "Verif.TreeAt.ErrorKinds.different_results",
    "Verif.TreeAt.ErrorKinds.check_iff",
    "Verif.TreeAt.ErrorKinds.node_not_once"
   ],
   "note": "The claim is false of the code in one corner, proved as tree_at_nested_none_misedits: a None selected inside another selected node while exactly one other None is visible edits that other None silently. The two _partial theorems exclude it by hypothesis; everything else in the claim is proved in full."
  },
  {
   "property": "C07",
   "status": "proved",
   "theorems": [
    "Verif.TreeEqual.tree_equal_iff",
    "Verif.TreeEqual.tree_equal_is_true",
    "Verif.TreeEqual.leafEq_exact",
    "Verif.TreeEqual.tree_equal_refl",
    "Verif.TreeEqual.tree_equal_symm",
    "Verif.TreeEqual.tree_equal_trans",
    "Verif.TreeEqual.tree_equal_none",
    "Verif.TreeEqual.tree_equal_rtol_not_symmetric",
    "Verif.TreeEqual.tree_equal_nan"
   ],
   "note": "tree_equal_iff covers every tolerance; element equality, allclose on elements and != on other leaves are parameters. tree_equal_is_true says when the result is the Python object True."
  },
  {
   "property": "C08",
   "status": "proved",
   "theorems": [
    "Verif.TreeCheck.tree_check_terminates",
    "Verif.TreeCheck.tree_check_iff",
    "Verif.TreeCheck.tree_check_raises",
    "Verif.TreeCheck.tree_check_error",
    "Verif.TreeCheck.tree_check_cycle",
    "Verif.TreeCheck.tree_check_shared_leaves"
   ],
   "note": "Object graphs with fixed children: custom nodes that make new children on each flattening are outside of the model. Termination is shown for a bound on the recursion depth."
  },
  {
   "property": "C09",
   "status": "proved",
   "theorems": [
    "Verif.Ser.round_trip",
    "Verif.Ser.round_trip_self",
    "Verif.Ser.stream_round_trip"
   ],
   "note": "Default filter specifications and is_leaf. The .npy codec and scalar conversions are assumed lawful (Env.Lawful, with an instance in Example.lean). Storable excludes leaves that do not round-trip in the code: NumPy bfloat16 arrays (np_bfloat16_never_loads), huge Python ints, ShapeDtypeStructs."
  },
  {
   "property": "C10",
   "status": "proved",
   "theorems": [
    "Verif.Ser.load_checked",
    "Verif.Ser.load_conforms"
   ],
   "note": "Any file content, any filter specification; load_checked also for any is_leaf. Scalars of the wrong kind are converted silently (see the example in Props.lean), which C10 permits."
  },
  {
   "property": "C11",
   "status": "proved",
   "theorems": [
    "Verif.Ser.truncated_raises"
   ],
   "note": "A crash leaves a prefix of the bytes written."
  },
  {
   "property": "C12",
   "status": "proved",
   "theorems": [
    "Verif.State.state_get_latest",
    "Verif.State.state_frame",
    "Verif.State.state_clone",
    "Verif.State.state_leaves",
    "Verif.State.set_succeeds_iff"
   ],
   "note": "Every program over create/get/set/substate/update/flatten/unflatten, on a heap of State objects; the expected value is read off the history of operations. conv (tree_map of jnp.asarray) and struct (eval_shape) are parameters."
  },
  {
   "property": "C13",
   "status": "proved",
   "theorems": [
    "Verif.State.state_stale",
    "Verif.State.state_stale_argument",
    "Verif.State.state_error_changes_nothing",
    "Verif.State.state_used_up"
   ],
   "note": "Holds for ever after the object was used up. A stale State as the argument of update raises AttributeError, not the documented error; that is what the code does."
  },
  {
   "property": "C14",
   "status": "proved",
   "theorems": [
    "Verif.State.state_structure_constant",
    "Verif.State.state_set_rejects",
    "Verif.State.state_foreign",
    "Verif.State.state_update_keys",
    "Verif.State.state_update_refuses",
    "Verif.State.state_update_unchecked"
   ],
   "note": "state_update_unchecked records that update, unlike set, compares no structures (witness)."
  },
  {
   "property": "C15",
   "status": "proved",
   "theorems": [
    "Verif.State.make_with_state_spec",
    "Verif.State.make_with_state_no_init",
    "Verif.State.make_with_state_interchangeable",
    "Verif.State.make_with_state_unties",
    "Verif.State.state_of_shared"
   ],
   "note": "The model leaf type has StateIndex leaves as produced by flattening with is_leaf=_is_index."
  },
  {
   "property": "C16",
   "status": "proved",
   "theorems": [
    "Verif.Enum.enum_distinct",
    "Verif.Enum.enum_values",
    "Verif.Enum.enum_names",
    "Verif.Enum.enum_other_names",
    "Verif.Enum.enum_promote",
    "Verif.Enum.enum_promote_item",
    "Verif.Enum.enum_promote_compose",
    "Verif.Enum.enum_promote_injective",
    "Verif.Enum.enum_promote_unrelated",
    "Verif.Enum.enum_mixed_raises",
    "Verif.Enum.enum_where",
    "Verif.Enum.enum_create_ok",
    "Verif.Enum.enum_reserved"
   ],
   "note": "Arbitrary sequences of class statements with C3 method resolution orders. Items found by ordinary attribute lookup first (for example one called mro) are the parameter shadowed. All bases are enumerations."
  },
  {
   "property": "C17",
   "status": "proved",
   "theorems": [
    "Verif.Enum.enum_message_own",
    "Verif.Enum.enum_message_unique",
    "Verif.Enum.enum_message_inherited",
    "Verif.Enum.enum_override_lost"
   ],
   "note": "enum_override_lost is the witness that a grandparent's message wins over a parent's override."
  },
  {
   "property": "C18",
   "status": "proved",
   "theorems": [
    "Verif.Checkpoint.forward_value",
    "Verif.Checkpoint.checkpointed_grad_exact",
    "Verif.Checkpoint.checkpointed_grad_exact_no_buffers"
   ],
   "note": "The vjp of the body is a parameter. With buffers, under the contract that the final buffer contents can stand in for the contents at each step. Which leaves are differentiated (symbolic zeros, perturbation) is not modelled."
  },
  {
   "property": "C19",
   "status": "proved",
   "theorems": [
    "Verif.Checkpoint.forward_memory",
    "Verif.Checkpoint.backward_memory"
   ],
   "note": ""
  },
  {
   "property": "C20",
   "status": "proved",
   "theorems": [
    "Verif.Checkpoint.forward_checkpoints_valid",
    "Verif.Checkpoint.stummWalther_never_errors"
   ],
   "note": ""
  },
  {
   "property": "C21",
   "status": "proved",
   "theorems": [
    "Verif.Checkpoint.backward_iterations",
    "Verif.Checkpoint.checkpointed_grad_exact"
   ],
   "note": "One vjp per step follows from checkpointed_grad_exact, whose cotangent types are arbitrary (take the trace of calls)."
  },
  {
   "property": "C22",
   "status": "proved",
   "theorems": [
    "Verif.Checkpoint.default_checkpoints_least",
    "Verif.Checkpoint.resolve_spec",
    "Verif.Checkpoint.default_zero_steps_raises",
    "Verif.Checkpoint.default_recomputes_once",
    "Verif.Checkpoint.Rounding.default_rounded",
    "Verif.Checkpoint.Rounding.resolve_rounded",
    "Verif.Checkpoint.Rounding.exists_rounding"
   ],
   "note": "First for the exact square root; default_rounded and resolve_rounded show that rounding every floating point operation to a nearest double makes no difference below 2**50 steps."
  },
  {
   "property": "C23",
   "status": "proved",
   "theorems": [
    "Verif.Common.while_loop_value",
    "Verif.Common.while_loop_returns",
    "Verif.Common.bounded_value",
    "Verif.Common.lax_value",
    "Verif.Common.lax_terminates",
    "Verif.Common.checkpointed_forward_value",
    "Verif.Common.lax_steps_le",
    "Verif.Common.Log.log_not_rounded_down",
    "Verif.Common.Log.bounded_while_loop"
   ],
   "note": "Loops whose buffers are arrays on entry; for loops inside loops see C55. For bounded loops: base >= 2 and math.log not rounded down, which log_not_rounded_down proves for max_steps and base below 2**31 (relative error of log at most 2**-50, quotient rounded to a nearest double). Derivatives are C18-C22."
  },
  {
   "property": "C24",
   "status": "proved",
   "theorems": [
    "Verif.Common.while_loop_value",
    "Verif.Common.while_loop_returns",
    "Verif.Common.lax_value",
    "Verif.Common.lax_terminates",
    "Verif.Common.bounded_value",
    "Verif.Common.lanewise_prog"
   ],
   "note": "B lanes stand for all nested vmaps together. The body is any program over buffers (lanewise_prog) or any other body satisfying Lanewise. A body is assumed to terminate on the frozen lanes too."
  },
  {
   "property": "C25",
   "status": "partial",
   "theorems": [
    "Verif.Common.buffer_set_partial",
    "Verif.Common.buffer_set_single",
    "Verif.Common.buffer_chain_partial",
    "Verif.Common.buffer_nested_leak"
   ],
   "note": "Proved for buffers of a single loop (buffer_set_single). For nested loops the claim is false of the code when no predicate is batched, the outer loop makes no false steps and the inner one does: buffer_nested_leak."
  },
  {
   "property": "C26",
   "status": "proved",
   "theorems": [
    "Verif.Scan.scan_value",
    "Verif.Scan.scan_succeeds",
    "Verif.Scan.scan_inconsistent",
    "Verif.Scan.scan_empty",
    "Verif.Scan.Buffers.scan_buffers_value",
    "Verif.Scan.Buffers.scan_buffers_succeeds",
    "Verif.Scan.Buffers.scan_marks",
    "Verif.Scan.Buffers.scan_marks_refused",
    "Verif.Scan.Buffers.scan_marks_dict"
   ],
   "note": "Also under vmap. That indexing an empty array with 0 raises is assumed. Buffers inside the carry: Verif.Scan.Buffers. A dictionary or module that buffers makes on the spot is refused (scan_marks_dict); the annotation does not allow it, but the documentation does."
  },
  {
   "property": "C27",
   "status": "partial",
   "theorems": [
    "Verif.Jit.filter_jit_transparent",
    "Verif.Jit.filter_jit_exact_partial",
    "Verif.Jit.filter_jit_equal_static",
    "Verif.Jit.aot_transparent",
    "Verif.Jit.aot_refuses",
    "Verif.Jit.aot_ignores_static"
   ],
   "note": "Exact up to == on static parts, for all histories of decorating, calling and clearing caches. False of the code where == identifies different objects (1 and True), proved as filter_jit_equal_static; filter_jit_exact_partial excludes this by hypothesis. jax.jit is modelled after its documentation, functions are pure and traceable, inspect.Signature.bind is assumed lawful. Also functions compiled ahead of time."
  },
  {
   "property": "C28",
   "status": "proved",
   "theorems": [
    "Verif.Jit.donation",
    "Verif.Jit.donate_rejected"
   ],
   "note": "That donate_argnums=0 donates the arrays of the first argument of fun_wrapped is JAX's."
  },
  {
   "property": "C29",
   "status": "proved",
   "theorems": [
    "Verif.Vmap.filter_vmap_lanes",
    "Verif.Vmap.filter_vmap_succeeds",
    "Verif.Vmap.filter_vmap_kwargs",
    "Verif.Vmap.filter_vmap_no_axis",
    "Verif.Vmap.filter_vmap_sizes",
    "Verif.Vmap.filter_vmap_bad_axis",
    "Verif.Vmap.if_array_axis"
   ],
   "note": "What filter_vmap returns is described lane by lane, for every function, argument tree, in_axes and out_axes; when it returns and when it raises are stated separately. The array operations and jax.vmap are parameters with laws, which are shown to hold for arrays of integers (Vmap/Example.lean)."
  },
  {
   "property": "C30",
   "status": "partial",
   "theorems": [
    "Verif.Vmap.named_in_axes_partial",
    "Verif.Vmap.filter_vmap_named_partial",
    "Verif.Vmap.named_in_axes_unmodified",
    "Verif.Vmap.named_varargs",
    "Verif.Vmap.if_array_axis"
   ],
   "note": "Holds when every passed argument has a parameter of its own. With *args and more arguments than parameters the call raises instead of using if_array(0) for the rest; named_varargs is the counterexample."
  },
  {
   "property": "C31",
   "status": "proved",
   "theorems": [
    "Verif.Vmap.filter_pmap_lanes",
    "Verif.Vmap.filter_pmap_succeeds",
    "Verif.Vmap.filter_pmap_axis_range",
    "Verif.Vmap.filter_pmap_kwargs",
    "Verif.Vmap.filter_pmap_config"
   ],
   "note": "The result is described lane by lane like that of filter_vmap: same tree, every leaf once, stacked at its axis. An axis no output has raises ValueError. jax.pmap is a parameter of the model."
  },
  {
   "property": "C32",
   "status": "partial",
   "theorems": [
    "Verif.Errors.branched_error_if_quiet",
    "Verif.Errors.branched_error_if_raises",
    "Verif.Errors.branched_error_if_nan_partial",
    "Verif.Errors.branched_error_if_breakpoint_partial",
    "Verif.Errors.branched_error_if_out_of_range",
    "Verif.Errors.branched_error_if_no_array",
    "Verif.Errors.branched_error_if_unknown_mode",
    "Verif.Errors.error_if_quiet",
    "Verif.Errors.error_if_raises",
    "Verif.Errors.error_if_no_array",
    "Verif.Errors.unvmap_unbatched",
    "Verif.Errors.error_if_nan_static_fails",
    "Verif.Errors.error_if_nan_bfloat16",
    "Verif.Errors.error_if_breakpoint_bfloat16"
   ],
   "note": "For arrays under any nesting of vmap and jit. Only the claims about NaN-like values are partial: with a true predicate known at trace time the code maps _nan_like over leaves that are not arrays too, and fails (error_if_nan_static_fails); and arrays of the dtypes of ml_dtypes, such as bfloat16, are not replaced, so that with on_error='nan' an error goes unnoticed (error_if_nan_bfloat16)."
  },
  {
   "property": "C33",
   "status": "partial",
   "theorems": [
    "Verif.Module.strict_concrete_final",
    "Verif.Module.strict_name",
    "Verif.Module.strict_fields",
    "Verif.Module.strict_override",
    "Verif.Module.strict_checked",
    "Verif.Module.strict_single_impl_partial",
    "Verif.Module.strict_unique_impl_partial",
    "Verif.Module.strict_two_inherited",
    "Verif.Module.strict_reabstract",
    "Verif.Module.strict_magic",
    "Verif.Module.strict_init_once_partial",
    "Verif.Module.field_names",
    "Verif.Module.custom_init",
    "Verif.Module.strict_init_two_bases",
    "Verif.Module.strict_decision"
   ],
   "note": "That strict classes are final or abstract, the naming rule, the field rule and the override rule are proved for every class table. Uniqueness of a method's implementation is proved under single inheritance when no class re-declares a method abstract, and for names that are not magic; it is false of the code otherwise (strict_two_inherited, strict_reabstract, strict_magic)."
  },
  {
   "property": "C34",
   "status": "proved",
   "theorems": [
    "Verif.Module.abstract_attributes",
    "Verif.Module.abstract_methods",
    "Verif.Module.instantiable_iff",
    "Verif.Module.instantiate_iff",
    "Verif.Module.instantiate_abstract",
    "Verif.Module.instance_provided",
    "Verif.Module.missing_attribute_raises",
    "Verif.Module.provided_instance",
    "Verif.Module.abstract_with_value"
   ],
   "note": "Classes with any bases; C3 linearisation is modelled. Non-module bases are neither dataclasses nor abc classes."
  },
  {
   "property": "C35",
   "status": "proved",
   "theorems": [
    "Verif.Module.unflatten_flatten",
    "Verif.Module.flatten_unflatten",
    "Verif.Module.module_round_trip",
    "Verif.Module.unflatten_leaves",
    "Verif.Module.unflatten_count",
    "Verif.Module.module_eq_iff",
    "Verif.Module.module_hash_eq",
    "Verif.Module.module_hash_ok",
    "Verif.Module.wrapper_named_field"
   ],
   "note": "For modules nested to any depth in other modules and containers. Metadata of wrappers (__doc__ etc.) counts as structure and is compared by ==. No field may be called like one of these; wrapper_named_field is what happens otherwise. Hashes: given that leaves keep the contract between == and hash."
  },
  {
   "property": "C36",
   "status": "proved",
   "theorems": [
    "Verif.Module.Init.construct_spec",
    "Verif.Module.Init.missing_raises",
    "Verif.Module.Init.construct_checks",
    "Verif.Module.Init.undeclared_raises",
    "Verif.Module.Init.bound_method_raises",
    "Verif.Module.Init.declared_assigns",
    "Verif.Module.Init.generated_assigns",
    "Verif.Module.Init.frozen_raises",
    "Verif.Module.Init.frozen_unchanged"
   ],
   "note": "Methods are arbitrary programs reading, assigning and deleting attributes of self and catching exceptions. Going around __setattr__ is not modelled. Fields overridden by a property are excluded in construct_spec and missing_raises."
  },
  {
   "property": "C37",
   "status": "proved",
   "theorems": [
    "Verif.Module.partial_made",
    "Verif.Module.partial_call",
    "Verif.Module.partial_keywords",
    "Verif.Module.partial_duplicate",
    "Verif.Module.partial_nested",
    "Verif.Module.partial_nested_duplicate",
    "Verif.Module.bound_call",
    "Verif.Module.bound_eq_partial"
   ],
   "note": "Keywords called self (at a call) and cls (at construction) are refused with TypeError by Python itself; this is modelled."
  },
  {
   "property": "C38",
   "status": "proved",
   "theorems": [
    "Verif.Sequential.seq_flat",
    "Verif.Sequential.seq_trace",
    "Verif.Sequential.stateful_iff",
    "Verif.Sequential.returns_state_iff",
    "Verif.Sequential.stateless_keeps_state",
    "Verif.Sequential.seq_slices",
    "Verif.Sequential.seq_slice_bounds",
    "Verif.Sequential.seq_keyless",
    "Verif.Sequential.seq_index",
    "Verif.Sequential.Slices.slice_ahead",
    "Verif.Sequential.Slices.slice_back",
    "Verif.Sequential.Slices.slice_zero"
   ],
   "note": ""
  },
  {
   "property": "C39",
   "status": "proved",
   "theorems": [
    "Verif.Inference.inference_mode_sets",
    "Verif.Inference.inference_mode_last"
   ],
   "note": "For models whose inference attributes are leaves and children (as in all layers); tree_at is the model of C05."
  },
  {
   "property": "C40",
   "status": "proved",
   "theorems": [
    "Verif.Shared.shared_init",
    "Verif.Shared.shared_call",
    "Verif.Shared.shared_tied",
    "Verif.Shared.shared_structure",
    "Verif.Shared.shared_round_trip",
    "Verif.Shared.shared_many_init",
    "Verif.Shared.shared_many_call"
   ],
   "note": "filter_eval_shape is modelled as evaluating and forgetting the values of arrays."
  },
  {
   "property": "C41",
   "status": "partial",
   "theorems": [
    "Verif.Rope.rope_value_partial",
    "Verif.Rope.rope_history_partial",
    "Verif.Rope.rope_clear",
    "Verif.Rope.mk_ok_iff",
    "Verif.Rope.rope_theta_leak"
   ],
   "note": "False of the code across values of theta, proved as rope_theta_leak; the _partial theorems assume that the cache was filled by modules of equal theta. Element operations are parameters."
  },
  {
   "property": "C42",
   "status": "proved",
   "theorems": [
    "Verif.NN.pool_mk",
    "Verif.NN.pool_mk_iff",
    "Verif.NN.pool_sizes",
    "Verif.NN.pool_ok_iff",
    "Verif.NN.pool_rank",
    "Verif.NN.pool_window_inside",
    "Verif.NN.pool_ceil_covers",
    "Verif.NN.pool_floor_covers",
    "Verif.NN.pool_ceil_spurious",
    "Verif.NN.pool_max",
    "Verif.NN.pool_sum",
    "Verif.NN.avgpool_value"
   ],
   "note": "lax.reduce_window is modelled after its documentation. pool_ceil_spurious is the witness of a use_ceil call that is rejected although its padding is sensible."
  },
  {
   "property": "C43",
   "status": "proved",
   "theorems": [
    "Verif.NN.blocks_partition",
    "Verif.NN.block_sizes",
    "Verif.NN.adaptive1d_value",
    "Verif.NN.adaptive_value",
    "Verif.NN.adaptive_shape",
    "Verif.NN.adaptive_ok_iff",
    "Verif.NN.adaptive_rank",
    "Verif.NN.Adaptive.adaptive_avg",
    "Verif.NN.Adaptive.adaptive_max"
   ],
   "note": ""
  },
  {
   "property": "C44",
   "status": "proved",
   "theorems": [
    "Verif.NN.conv_shape",
    "Verif.NN.conv_shape_same",
    "Verif.NN.same_size",
    "Verif.NN.convT_shape",
    "Verif.NN.convT_explicit_size",
    "Verif.NN.convT_same_size",
    "Verif.NN.size_round_trip",
    "Verif.NN.size_candidates",
    "Verif.NN.conv_mk",
    "Verif.NN.convT_mk",
    "Verif.NN.output_padding_check",
    "Verif.NN.output_padding_check_one",
    "Verif.NN.output_padding_not_elementwise"
   ],
   "note": "lax.conv_general_dilated, lax.padtype_to_pads and jnp.pad are modelled after their documentation."
  },
  {
   "property": "C45",
   "status": "partial",
   "theorems": [
    "Verif.Noinline.noinline_ok",
    "Verif.Noinline.noinline_stack_partial",
    "Verif.Noinline.noinline_call_partial",
    "Verif.Noinline.noinline_jvp",
    "Verif.Noinline.noinline_transpose",
    "Verif.Noinline.noinline_batch",
    "Verif.Noinline.noinline_batch_mixed",
    "Verif.Noinline.noinline_compiled_partial",
    "Verif.Noinline.noinline_compiled_call_partial",
    "Verif.Noinline.noinline_equal_static"
   ],
   "note": "For all histories of registering, compiling, running and clearing caches. The registry and the caches compare static parts by ==, so the claim is proved up to == (and exactly when == is exact); it is false for functions that differ but are equal, such as Partial(f, 1) and Partial(f, True) (noinline_equal_static). Batching two different indices together silently uses the first (noinline_batch_mixed)."
  },
  {
   "property": "C46",
   "status": "proved",
   "theorems": [
    "Verif.MaxTraces.num_traces",
    "Verif.MaxTraces.max_traces_call",
    "Verif.MaxTraces.max_traces_bad_args",
    "Verif.MaxTraces.max_traces_blame"
   ],
   "note": "For all histories of wrapping, copying through flatten/unflatten, and (nested) calls. deepcopy and pickle copies are not modelled."
  },
  {
   "property": "C47",
   "status": "partial",
   "theorems": [
    "Verif.Finalise.finalise_meaning",
    "Verif.Finalise.finalise_clean",
    "Verif.Finalise.finalise_eval",
    "Verif.Finalise.finalise_open_consts",
    "Verif.Finalise.Registry.finalise_left",
    "Verif.Finalise.Registry.finalise_standard_partial",
    "Verif.Finalise.Registry.finalise_twice",
    "Verif.Finalise.Registry.library_meaning",
    "Verif.Finalise.Registry.maybe_set_left",
    "Verif.Finalise.Registry.vprim_left",
    "Verif.Finalise.Registry.noinline_left"
   ],
   "note": "False for jaxprs with maybe_set (whose impl binds select_if_vmap; finalising twice helps), with vprim (not registered), and with noinline (whose function is traced but not finalised). What unregistered primitives compute, given what their sub-jaxprs compute, is a parameter. finalise_open_consts shows that the condition on open sub-jaxprs is needed: _maybe_finalise_jaxpr drops the constants."
  },
  {
   "property": "C48",
   "status": "proved",
   "theorems": [
    "Verif.AD.value_and_grad",
    "Verif.AD.value_and_grad_ok",
    "Verif.AD.value_and_grad_no_args",
    "Verif.AD.filter_grad",
    "Verif.AD.grads_update"
   ],
   "note": "Differentiation of functions of finitely many arrays is JAX's and a parameter."
  },
  {
   "property": "C49",
   "status": "proved",
   "theorems": [
    "Verif.Custom.nondifferentiable_spec",
    "Verif.Custom.custom_vjp_unready",
    "Verif.Custom.custom_vjp_call",
    "Verif.Custom.custom_vjp_diff",
    "Verif.Custom.custom_vjp_old",
    "Verif.Custom.custom_jvp_call",
    "Verif.Custom.custom_jvp_diff",
    "Verif.Custom.custom_jvp_old",
    "Verif.Custom.make_jaxpr_spec",
    "Verif.Custom.closure_convert_call",
    "Verif.Custom.closure_convert_same",
    "Verif.Custom.closure_convert_in_struct"
   ],
   "note": "Whether JAX differentiates, and tracing into a jaxpr, are parameters; tracing is assumed to be faithful to the function."
  },
  {
   "property": "C50",
   "status": "proved",
   "theorems": [
    "Verif.BatchNorm.training_call",
    "Verif.BatchNorm.inference_call",
    "Verif.BatchNorm.running_statistics",
    "Verif.BatchNorm.fresh_layer",
    "Verif.BatchNorm.weights_sum",
    "Verif.BatchNorm.held_same_batch",
    "Verif.BatchNorm.heldVar_nonneg",
    "Verif.BatchNorm.training_unbound",
    "Verif.BatchNorm.wrong_channels",
    "Verif.BatchNorm.stale_state"
   ],
   "note": "Arithmetic over the reals; dtypes are not modelled, spatial dimensions are flattened into one."
  },
  {
   "property": "C51",
   "status": "proved",
   "theorems": [
    "Verif.Attention.attention_formula",
    "Verif.Attention.attention_convex",
    "Verif.Attention.masked_key_irrelevant",
    "Verif.Attention.masked_position_irrelevant",
    "Verif.Attention.masked_weight_small",
    "Verif.Attention.masked_limit",
    "Verif.Attention.all_masked_uniform",
    "Verif.Attention.mask_shape"
   ],
   "note": "Arithmetic over the reals; the exponential is a parameter, so that exact independence is shown for one that underflows, and the limit for the real one."
  },
  {
   "property": "C52",
   "status": "proved",
   "theorems": [
    "Verif.Omega.omega_checks",
    "Verif.Omega.omega_binary",
    "Verif.Omega.omega_call",
    "Verif.Omega.omega_scalar_right",
    "Verif.Omega.omega_expr",
    "Verif.Omega.omega_scalar_left",
    "Verif.Omega.omega_unknown",
    "Verif.Omega.omega_value",
    "Verif.Omega.omega_at",
    "Verif.Omega.omega_code_blind"
   ],
   "note": "_equal_code compares bytecode only: omega_code_blind is the witness that callables without __code__ are not told apart."
  },
  {
   "property": "C53",
   "status": "proved",
   "theorems": [
    "Verif.Checkpoint.recomputed_once",
    "Verif.Checkpoint.backward_iterations",
    "Verif.Checkpoint.default_recomputes_once"
   ],
   "note": ""
  },
  {
   "property": "C54",
   "status": "proved",
   "theorems": [
    "Verif.Ser.load_error_path",
    "Verif.Ser.runAll_error",
    "Verif.Ser.save_key_raises"
   ],
   "note": ""
  },
  {
   "property": "C55",
   "status": "partial",
   "theorems": [
    "Verif.Common.nested_bounded",
    "Verif.Common.lax_dead",
    "Verif.Common.lax_wraps",
    "Verif.Common.lax_value",
    "Verif.Common.nested_bounded_leaks"
   ],
   "note": "False of the code in a corner, proved as nested_bounded_leaks: a bounded loop with max_steps=1 inside an unbatched lax or checkpointed loop writes to the buffer although its condition is false. nested_bounded excludes it by hypothesis. Inner loops of kind lax: lax_value and lax_dead, given that they end."
  },
  {
   "property": "C56",
   "status": "proved",
   "theorems": [
    "Verif.Rope.rope_relative",
    "Verif.Rope.rope_norm",
    "Verif.Rope.rope_zero"
   ],
   "note": "Exact real arithmetic."
  },
  {
   "property": "C57",
   "status": "proved",
   "theorems": [
    "Verif.NN.conv_adjoint",
    "Verif.NN.mkTranspose_mode"
   ],
   "note": "Without groups; elements of any commutative semiring, so floating-point rounding is not modelled."
  },
  {
   "property": "C58",
   "status": "proved",
   "theorems": [
    "Verif.Module.update_wrapper_attrs",
    "Verif.Module.update_wrapper_children",
    "Verif.Module.update_wrapper_ok_iff",
    "Verif.Module.update_wrapper_twice"
   ],
   "note": ""
  },
  {
   "property": "C59",
   "status": "proved",
   "theorems": [
    "Verif.AD.filter_vjp",
    "Verif.AD.filter_vjp_ok",
    "Verif.AD.filter_jvp",
    "Verif.AD.filter_jvp_ok"
   ],
   "note": "As C48. Which outputs of filter_jvp carry a tangent is decided by JAX's tracing and part of the parameter."
  },
  {
   "property": "C60",
   "status": "proved",
   "theorems": [
    "Verif.Attention.multihead_formula",
    "Verif.Attention.multihead_dropout",
    "Verif.Attention.multihead_no_key",
    "Verif.Attention.multihead_no_leak",
    "Verif.Attention.multihead_lengths",
    "Verif.Attention.multihead_mask",
    "Verif.Attention.multihead_process",
    "Verif.Attention.dropout_inactive",
    "Verif.Attention.dropout_no_key",
    "Verif.Attention.dropout_active"
   ],
   "note": "As C51. Random bits are a parameter; empty sequences are not modelled."
  },
  {
   "property": "C61",
   "status": "proved",
   "theorems": [
    "Verif.Primitive.bind_impl",
    "Verif.Primitive.bind_jit",
    "Verif.Primitive.bind_jit_mismatch",
    "Verif.Primitive.bind_pair",
    "Verif.Primitive.transpose_eqn"
   ],
   "note": "Which rule JAX calls is given by one entry per interpreter; tree_equal is a parameter."
  },
  {
   "property": "C62",
   "status": "proved",
   "theorems": [
    "Verif.VPrim.nest_axes",
    "Verif.VPrim.vprim_impl",
    "Verif.VPrim.vprim_abs",
    "Verif.VPrim.vprim_jvp",
    "Verif.VPrim.vprim_transpose",
    "Verif.VPrim.vprim_transpose_raises"
   ],
   "note": "jax.vmap is modelled as tracing once and evaluating lane by lane; a rule returns and does not raise."
  },
  {
   "property": "C63",
   "status": "proved",
   "theorems": [
    "Verif.Norm.layerNorm_eq",
    "Verif.Norm.rmsNorm_eq",
    "Verif.Norm.groupNorm_eq",
    "Verif.Norm.fresh_layerNorm",
    "Verif.Norm.fresh_rmsNorm",
    "Verif.Norm.mkGroupNorm_eq",
    "Verif.Norm.norm_wrong_shape",
    "Verif.Norm.groupNorm_refused",
    "Verif.Norm.groupNorm_channels_unchecked",
    "Verif.Norm.groupNorm_one",
    "Verif.Norm.standard_mean",
    "Verif.Norm.standard_meanSq",
    "Verif.Norm.layerNorm_affine_input",
    "Verif.Norm.rms_meanSq",
    "Verif.Norm.rms_eq_layerNorm"
   ],
   "note": "Over the real numbers; eps > 0."
  },
  {
   "property": "C64",
   "status": "partial",
   "theorems": [
    "Verif.Dce.store_dce_identity",
    "Verif.Dce.inspect_dce_partial",
    "Verif.Dce.inspect_dce_raises",
    "Verif.Dce.inspect_dce_two_calls",
    "Verif.Dce.inspect_dce_jit",
    "Verif.Dce.callback_ok"
   ],
   "note": "inspect_dce is wrong for two calls under one name unless only the last has arrays: new_leaves is not cleared between entries, so it raises a ValueError after the first entry with an array (inspect_dce_raises, all cases; inspect_dce_two_calls, a witness)."
  },
  {
   "property": "C65",
   "status": "proved",
   "theorems": [
    "Verif.WeightNorm.call_eq",
    "Verif.WeightNorm.mk_eq",
    "Verif.WeightNorm.fresh_eq",
    "Verif.WeightNorm.used_zero_group",
    "Verif.WeightNorm.groupNorm_zero_iff",
    "Verif.WeightNorm.g_ok",
    "Verif.WeightNorm.used_norm",
    "Verif.WeightNorm.used_scale",
    "Verif.WeightNorm.mem_indices",
    "Verif.WeightNorm.normExceptAxis_eq"
   ],
   "note": "Over the real numbers; tree_at is C05."
  },
  {
   "property": "C66",
   "status": "proved",
   "theorems": [
    "Verif.SpectralNorm.call_training",
    "Verif.SpectralNorm.call_inference",
    "Verif.SpectralNorm.calls_short",
    "Verif.SpectralNorm.calls_training",
    "Verif.SpectralNorm.used_ge_one",
    "Verif.SpectralNorm.estimate_le",
    "Verif.SpectralNorm.estimate_next",
    "Verif.SpectralNorm.estimate_mono",
    "Verif.SpectralNorm.estimate_steps_mono",
    "Verif.SpectralNorm.estimate_rate",
    "Verif.SpectralNorm.estimate_converges",
    "Verif.SpectralNorm.estimate_rank_one",
    "Verif.SpectralNorm.next_short",
    "Verif.SpectralNorm.mk_eq",
    "Verif.SpectralNorm.mk_error",
    "Verif.SpectralNorm.call_raises"
   ],
   "note": "Over the real numbers; tree_at is C05 and State C12-C15. Convergence is stated from vectors no longer than one with an estimate of at least eps (as they are after any training call that finds such an estimate)."
  },
  {
   "property": "C67",
   "status": "proved",
   "theorems": [
    "Verif.Rnn.gru_call",
    "Verif.Rnn.lstm_call",
    "Verif.Rnn.gru_run",
    "Verif.Rnn.lstm_run",
    "Verif.Rnn.gruNext_bound",
    "Verif.Rnn.gru_error",
    "Verif.Rnn.lstm_error",
    "Verif.Rnn.gru_mk",
    "Verif.Rnn.lstm_mk"
   ],
   "note": "Over the real numbers (in floating point the strict bounds become non-strict). A cell state of length one is broadcast by LSTMCell, see lstm_error."
  },
  {
   "property": "C68",
   "status": "partial",
   "theorems": [
    "Verif.Nontraceable.nontraceable_spec",
    "Verif.Nontraceable.nonbatchable_spec",
    "Verif.Nontraceable.nonbatchable_constant_partial",
    "Verif.Nontraceable.nonbatchable_outer",
    "Verif.Nontraceable.nonbatchable_empty",
    "Verif.Nontraceable.nonbatchable_nan",
    "Verif.Nontraceable.mark_forward",
    "Verif.Nontraceable.grad_spec"
   ],
   "note": "False of the code for allow_constant_across_batch: under two vmaps only the inner one is checked and removed (nonbatchable_outer), and a constant batch with a NaN is refused (nonbatchable_nan); nonbatchable_constant_partial is what holds. The other clauses are proved in full."
  },
  {
   "property": "C69",
   "status": "partial",
   "theorems": [
    "Verif.EvalShape.eval_shape_spec",
    "Verif.EvalShape.eval_shape_values",
    "Verif.EvalShape.eval_shape_sound",
    "Verif.EvalShape.cached_spec",
    "Verif.EvalShape.cached_exact_partial",
    "Verif.EvalShape.cached_once",
    "Verif.EvalShape.cached_runs",
    "Verif.EvalShape.cached_equal_objects",
    "Verif.EvalShape.cached_weak",
    "Verif.EvalShape.eval_full_spec"
   ],
   "note": "False of the code for the cache: arguments which are equal under == and behave differently (1, 1.0, True) are mixed up (cached_equal_objects), and weakly typed arrays are taken to be strongly typed (cached_weak). cached_spec is what holds in general, cached_exact_partial is the claim without those."
  },
  {
   "property": "C70",
   "status": "partial",
   "theorems": [
    "Verif.ClosureTree.convert_den",
    "Verif.ClosureTree.convert_total",
    "Verif.ClosureTree.rebuild_den",
    "Verif.ClosureTree.den_unique",
    "Verif.ClosureTree.convert_noFn",
    "Verif.ClosureTree.convert_again",
    "Verif.ClosureTree.convert_leaves",
    "Verif.ClosureTree.convert_map",
    "Verif.ClosureTree.convert_empty",
    "Verif.ClosureTree.convert_recursive",
    "Verif.ClosureTree.equal_den_partial",
    "Verif.ClosureTree.equal_defaults",
    "Verif.ClosureTree.equal_lambdas"
   ],
   "note": "That equal pytrees behave the same is false of the code: functions of the same name, module and source compare equal though they have other defaults (equal_defaults) or are two lambdas on one line (equal_lambdas). equal_den_partial has the assumption that those are the same. The other clauses are proved in full."
  },
  {
   "property": "C71",
   "status": "proved",
   "theorems": [
    "Verif.AD.Jac.jacfwd_spec",
    "Verif.AD.Jac.jacrev_spec",
    "Verif.AD.Jac.jac_agree",
    "Verif.AD.Jac.jac_entry",
    "Verif.AD.Jac.hessian_spec",
    "Verif.AD.Jac.hessian_symmetric",
    "Verif.AD.Jac.jacfwd_no_inputs",
    "Verif.AD.Jac.jac_raises",
    "Verif.AD.Jac.jac_outputs"
   ],
   "note": "JAX's two modes of differentiation are parameters which are assumed to find partial derivatives of differentiable functions (trueMode_correct: such a mode exists); a floating-point array is a single real number."
  },
  {
   "property": "C72",
   "status": "proved",
   "theorems": [
    "Verif.NN.Mlp.linear_spec",
    "Verif.NN.Mlp.linear_errors",
    "Verif.NN.Mlp.linear_init",
    "Verif.NN.Mlp.vmapApply_spec",
    "Verif.NN.Mlp.mlp_spec",
    "Verif.NN.Mlp.mlp_depth_zero",
    "Verif.NN.Mlp.mlp_init",
    "Verif.NN.Mlp.mlp_fresh",
    "Verif.NN.Mlp.mlp_first_error",
    "Verif.NN.Mlp.mlp_activation_error"
   ],
   "note": "Real numbers; inputs are scalars and vectors; an activation function takes a number to a number."
  },
  {
   "property": "C73",
   "status": "partial",
   "theorems": [
    "Verif.Callback.callback_spec",
    "Verif.Callback.callback_exact_partial",
    "Verif.Callback.callback_declared",
    "Verif.Callback.none_swapped"
   ],
   "note": "If the output has the structure declared, it is returned (callback_exact_partial). In general that is false: where an array is declared and None is returned, or the other way round, the arrays move to other places (none_swapped). callback_spec describes all calls."
  },
  {
   "property": "C74",
   "status": "proved",
   "theorems": [
    "Verif.Perturb.gradient_exact",
    "Verif.Perturb.perturb_least",
    "Verif.Perturb.perturb_strict",
    "Verif.Perturb.zeros_greatest",
    "Verif.Perturb.stop_gradient_exact"
   ],
   "note": "What JAX finds out when tracing the user's body is a parameter; assumed is that it sees a dependency wherever there is a derivative (Sound), and that its custom rules are run if there is something to record (Traced)."
  },
  {
   "property": "C75",
   "status": "proved",
   "theorems": [
    "Verif.BufferGrad.gradient_exact",
    "Verif.BufferGrad.jvp_exact",
    "Verif.BufferGrad.reverse_exact",
    "Verif.BufferGrad.documented_disciplined",
    "Verif.BufferGrad.twice_wrong",
    "Verif.BufferGrad.overwritten_wrong",
    "Verif.BufferGrad.early_read_wrong"
   ],
   "note": "On one lane; predicates that are not batched are assumed to be true (Live), as the code assumes. The last three theorems show that the restrictions are needed, and that the cotangent of overwritten initial contents is not the gradient (tests/test_while_loop.py sets it to zero before comparing)."
  },
  {
   "property": "C76",
   "status": "proved",
   "theorems": [
    "Verif.NextAfter.next_daz",
    "Verif.NextAfter.next_denormals",
    "Verif.NextAfter.next_zero",
    "Verif.NextAfter.next_zero_skips",
    "Verif.NextAfter.next_special",
    "Verif.NextAfter.prev_daz",
    "Verif.NextAfter.prev_denormals",
    "Verif.NextAfter.prev_zero",
    "Verif.NextAfter.prev_next_daz"
   ],
   "note": "jnp.nextafter is modelled on bit patterns; the specification is in terms of the numbers (in EReal) that the patterns stand for."
  },
  {
   "property": "C77",
   "status": "partial",
   "theorems": [
    "Verif.Filters.is_array_spec",
    "Verif.Filters.is_array_like_spec",
    "Verif.Filters.is_inexact_array_partial",
    "Verif.Filters.is_inexact_array_like_partial",
    "Verif.Filters.numpy_bfloat16",
    "Verif.Filters.inclusions"
   ],
   "note": "Proved, except for NumPy arrays in a dtype that NumPy does not have itself (bfloat16, 8-bit floats), which is_inexact_array does not count as inexact though it does so for JAX arrays (numpy_bfloat16). np.issubdtype and jnp.issubdtype are tables."
  },
  {
   "property": "C78",
   "status": "proved",
   "theorems": [
    "Verif.Remat.filter_checkpoint_spec",
    "Verif.Remat.filter_checkpoint_eq",
    "Verif.Remat.filter_checkpoint_derivatives",
    "Verif.Remat.filter_shard_ok",
    "Verif.Remat.filter_shard_not_prefix",
    "Verif.Remat.filter_shard_error",
    "Verif.Remat.filter_shard_device"
   ],
   "note": "jax.checkpoint and with_sharding_constraint on single arrays are parameters. policy and prevent_cse are not modelled; memory use is not stated."
  },
  {
   "property": "C79",
   "status": "partial",
   "theorems": [
    "Verif.Noinline.noinline_vmap_partial",
    "Verif.Noinline.batchedCall_lanes",
    "Verif.Noinline.Ex.swapaxes_front",
    "Verif.Noinline.Ex.swapaxes_front_fails",
    "Verif.Noinline.Ex.noinline_axis_two"
   ],
   "note": "Proved for the batch axes 0 and 1. _move_to_front exchanges two axes (jnp.swapaxes) instead of moving one (jnp.moveaxis): for any batch axis from 2 on, the lanes have their other axes permuted (swapaxes_front_fails for all arrays; noinline_axis_two: vmap with in_axes=2 of the identity transposes)."
  },
  {
   "property": "C80",
   "status": "proved",
   "theorems": [
    "Verif.Noinline.noinline_derivative",
    "Verif.Noinline.noinline_transposed",
    "Verif.Noinline.noinline_transposed_impl"
   ],
   "note": "jax.jvp (inside filter_jvp, see C59) and jax.linear_transpose are parameters."
  },
  {
   "property": "C81",
   "status": "proved",
   "theorems": [
    "Verif.Checkpoint.backward_cost",
    "Verif.Checkpoint.backward_quadratic",
    "Verif.Checkpoint.halving_reverse",
    "Verif.Checkpoint.offline_cost",
    "Verif.Checkpoint.online_not_similar"
   ],
   "note": "Iterations of the backward loop are counted, each of which calls the body once. The module docstring says that beyond (c + 1) (c + 2) / 2 steps the complexity is similar to that of the offline version; online_not_similar shows that it is not, for a fixed number c >= 2 of checkpoints."
  },
  {
   "property": "C82",
   "status": "proved",
   "theorems": [
    "Verif.Checkpoint.forward_kept"
   ],
   "note": ""
  },
  {
   "property": "C83",
   "status": "partial",
   "theorems": [
    "Verif.Module.init_inherited_partial",
    "Verif.Module.init_own",
    "Verif.Module.init_diamond",
    "Verif.Module.init_mixins"
   ],
   "note": "Proved if modules have at most one other module as a base and only modules are written with an __init__ (mixins without __init__ are not restricted). False otherwise: _has_dataclass_init is taken from the first module in the method resolution order, whose own order need not continue the same way. In init_diamond and init_mixins the class ends up with the __init__ generated for another class, which does not set its fields."
  },
  {
   "property": "C84",
   "status": "partial",
   "theorems": [
    "Verif.Announce.announce_identity",
    "Verif.Announce.announce_lines",
    "Verif.Announce.announce_reverse_partial",
    "Verif.Announce.announce_reverse_fails"
   ],
   "note": "Identity and the exact announcements are proved for all nests of jvp and vmap, eager or under jit. Reverse mode is proved if one array is differentiated. It is false for two or more: the transpose rule takes one primal, JAX passes one for each input of the equation, so there is a TypeError (announce_reverse_fails)."
  },
  {
   "property": "C85",
   "status": "proved",
   "theorems": [
    "Verif.Unvmap.unvmap_all_lanes",
    "Verif.Unvmap.unvmap_any_lanes",
    "Verif.Unvmap.unvmap_max_lanes"
   ],
   "note": "Lanes are defined by slicing the physical array along the batch axes."
  },
  {
   "property": "C86",
   "status": "proved",
   "theorems": [
    "Verif.ScanTrick.scan_trick_interleaves",
    "Verif.ScanTrick.scan_trick_pure"
   ],
   "note": "Exceptions JAX raises if the type of the carry changes are not modelled."
  },
  {
   "property": "C87",
   "status": "proved",
   "theorems": [
    "Verif.NN.embedding_init_iff",
    "Verif.NN.embedding_init_sizes",
    "Verif.NN.embedding_call",
    "Verif.NN.embedding_clamps",
    "Verif.NN.prelu_eq"
   ],
   "note": "What JAX does for scalar indices is part of the model: negative ones count from the end, others are clamped. Tables without rows are not indexed."
  },
  {
   "property": "C88",
   "status": "proved",
   "theorems": [
    "Verif.Ser.file_of_path",
    "Verif.Ser.save_load_path",
    "Verif.Ser.files_closed",
    "Verif.Ser.path_errors",
    "Verif.Ser.save_load_file",
    "Verif.Ser.failed_save_truncates"
   ],
   "note": "failed_save_truncates says in addition that a save which raises has already emptied the file."
  },
  {
   "property": "C89",
   "status": "partial",
   "theorems": [
    "Verif.Vmap.pmap_cached",
    "Verif.Vmap.pmap_cached_exact_partial",
    "Verif.Vmap.pmap_once",
    "Verif.Vmap.PmapToy.pmap_equal_static"
   ],
   "note": "Proved for objects which `==` tells apart (pmap_cached_exact_partial), and in general with the static values of an earlier equal call (pmap_cached). False for objects that are equal but different: after a call with `1`, a call with `True` returns `1` (pmap_equal_static)."
  },
  {
   "property": "C90",
   "status": "proved",
   "theorems": [
    "Verif.Debug.backward_nan_call",
    "Verif.Debug.backward_nan_diff",
    "Verif.Debug.backward_nan_rule",
    "Verif.Debug.backward_nan_shows",
    "Verif.Debug.breakpoint_if_spec",
    "Verif.Debug.assert_dce_spec"
   ],
   "note": "The models of filter_custom_vjp (C49) and error_if (C32) are used. The text that is printed is left out."
  },
  {
   "property": "C91",
   "status": "proved",
   "theorems": [
    "Verif.Module.Bound.method_call",
    "Verif.Module.Bound.method_metadata",
    "Verif.Module.Bound.decorated_call",
    "Verif.Module.Bound.class_access",
    "Verif.Module.Bound.other_access",
    "Verif.Module.Bound.method_leaves",
    "Verif.Module.Bound.method_map",
    "Verif.Module.Bound.decorated_map"
   ],
   "note": "What a decorated function does when called is C27, C29, C31, C48, C78."
  },
  {
   "property": "C92",
   "status": "proved",
   "theorems": [
    "Verif.Enum.Lanes.item_message",
    "Verif.Enum.Lanes.item_compare",
    "Verif.Enum.Lanes.item_promote",
    "Verif.Enum.Lanes.item_where",
    "Verif.Enum.Lanes.item_error_if",
    "Verif.Enum.Lanes.item_valid"
   ],
   "note": "Comparisons and where have one traced operand; see DESIGN.md."
  },
  {
   "property": "C93",
   "status": "proved",
   "theorems": [
    "Verif.Errors.Diff.error_if_diff"
   ],
   "note": "On top of the models of C32 and C49; which message and what is printed is C32."
  },
  {
   "property": "C94",
   "status": "proved",
   "theorems": [
    "Verif.Module.Fields.field_order",
    "Verif.Module.Fields.field_kind",
    "Verif.Module.Fields.field_iff",
    "Verif.Module.Fields.field_agree",
    "Verif.Module.Fields.field_nearest",
    "Verif.Module.Fields.annotations_kept",
    "Verif.Module.Fields.bare_field",
    "Verif.Module.Fields.fields_removed",
    "Verif.Module.Fields.nearest_fails_for_diamonds"
   ],
   "note": "On top of the model of class creation of C33/C34. Defaults, init=False and kw_only of fields are not modelled."
  },
  {
   "property": "C95",
   "status": "partial",
   "theorems": [
    "Verif.Jit.Report.reports_cause_partial",
    "Verif.Jit.Report.reports_last",
    "Verif.Jit.Report.others_pass",
    "Verif.Jit.Report.filters_restored",
    "Verif.Jit.Report.filter_in_place",
    "Verif.Jit.Report.stale_message"
   ],
   "note": "Proved if no other error_if is violated later than the one that stopped the call (reports_cause_partial; reports_last is the general rule). Otherwise false, as the report is made from two global variables: with two violated error_ifs in one run, or an argument whose asynchronous computation outside filter_jit failed, the message can be that of another error_if (stale_message). How JAX runs callbacks is a parameter."
  },
  {
   "property": "C96",
   "status": "proved",
   "theorems": [
    "Verif.NN.Keys.make_once",
    "Verif.NN.Keys.made",
    "Verif.NN.Keys.refused",
    "Verif.NN.Keys.call_once",
    "Verif.NN.Keys.call_draws",
    "Verif.NN.Keys.once_disjoint",
    "Verif.NN.Keys.parts_unrelated",
    "Verif.NN.Keys.transpose_unchecked"
   ],
   "note": "Keys are terms; every draw and split is recorded. transpose_unchecked: unlike Conv, ConvTranspose accepts groups that do not divide in_channels."
  },
  {
   "property": "C97",
   "status": "partial",
   "theorems": [
    "Verif.Module.Warnings.warns_iff",
    "Verif.Module.Warnings.hidden_warned_partial",
    "Verif.Module.Warnings.arguments_searched",
    "Verif.Module.Warnings.no_false_alarm",
    "Verif.Module.Warnings.static_warned",
    "Verif.Module.Warnings.missed",
    "Verif.Module.Warnings.construct_errors"
   ],
   "note": "Proved except for defaults of fields, which are not checked. missed: no warning for a default, for a callable inside a container that is assigned in an __init__ of the user, and for arrays in a static field that are hidden in such a callable."
  },
  {
   "property": "C98",
   "status": "partial",
   "theorems": [
    "Verif.Misc.Container.declared_partial",
    "Verif.Misc.Container.instance_iff",
    "Verif.Misc.Container.inherited_wrong"
   ],
   "note": "Proved for the members that the body itself declares. It is false for inherited ones (inherited_wrong): they keep the number that they had in the base class, which in the derived class means another member."
  },
  {
   "property": "C99",
   "status": "proved",
   "theorems": [
    "Verif.NN.Value.conv_value",
    "Verif.NN.Value.convT_value",
    "Verif.NN.Value.conv_ok_iff",
    "Verif.NN.Value.convT_ok_iff",
    "Verif.NN.Value.convT_circular_ok_iff",
    "Verif.NN.Value.conv_mk_iff",
    "Verif.NN.Value.conv_mk_raises",
    "Verif.NN.Value.convT_mk_iff",
    "Verif.NN.Value.convT_mk_mode",
    "Verif.NN.Value.rank_raises",
    "Verif.NN.Value.lim_raises"
   ],
   "note": "Exact arithmetic. lax.conv_general_dilated, lax.padtype_to_pads and jnp.pad are modelled after their documentation; the documentation of the layers does not give formulas, so that the specification is the usual one. convT_ok_iff is for zero padding; circular padding is covered by convT_value whenever the call returns."
  },
  {
   "property": "C100",
   "status": "partial",
   "theorems": [
    "Verif.Noinline.Output.announced",
    "Verif.Noinline.Output.announced_exact_partial",
    "Verif.Noinline.Output.announced_once",
    "Verif.Noinline.Output.cache_bounded",
    "Verif.Noinline.Output.finish_iff",
    "Verif.Noinline.Output.finish_consistent",
    "Verif.Noinline.Output.compiled_output_partial",
    "Verif.Noinline.Output.compiled_nonarray"
   ],
   "note": "False in two corners, each with a proved description: if the output holds a leaf that is not an array, the call is a RuntimeError under jit (compiled_nonarray, finish_consistent), because the callback returns all leaves and the lowering expects the arrays only; and static arguments that are equal under == share what is announced (announced says so; announced_exact_partial excludes it). What JAX does with outputs of callbacks is modelled after its documentation."
  },
  {
   "property": "C101",
   "status": "partial",
   "theorems": [
    "Verif.Module.Generated.field_spec",
    "Verif.Module.Generated.define_spec",
    "Verif.Module.Generated.call_spec",
    "Verif.Module.Generated.call_returns_iff",
    "Verif.Module.Generated.call_raises",
    "Verif.Module.Generated.call_missing",
    "Verif.Module.Generated.position_or_keyword",
    "Verif.Module.Generated.unflattenable_refused"
   ],
   "note": "False in two corners, which the theorems name: a keyword called cls is refused, because it is the name of the first parameter of the metaclass's __call__; and all arguments are flattened to look for transformed functions, so that an argument with a dictionary whose keys cannot be sorted is a ValueError, even for a static field (unflattenable_refused). dataclasses is modelled after its documentation; InitVar is left out."
  },
  {
   "property": "C102",
   "status": "partial",
   "theorems": [
    "Verif.Module.Annotations.generated_annotations",
    "Verif.Module.Annotations.generated_raises",
    "Verif.Module.Annotations.written_annotations_partial",
    "Verif.Module.Annotations.written_replaced",
    "Verif.Module.Annotations.later_classes_partial",
    "Verif.Module.Annotations.annotate_idem",
    "Verif.Module.Annotations.inherited_changes"
   ],
   "note": "False for __init__s that the user wrote: annotations of parameters that have the name of a field with a converter are replaced (written_replaced), and defining a subclass that adds a converter changes the __init__ of the superclass (inherited_changes). The comment in the code says that only generated ones are changed."
  },
  {
   "property": "C103",
   "status": "partial",
   "theorems": [
    "Verif.PFormat.format_partial",
    "Verif.PFormat.shows_unique",
    "Verif.PFormat.options_lost",
    "Verif.PFormat.partial_not_as_documented"
   ],
   "note": "False inside of jtu.Partial and of functions decorated with custom_jvp or custom_vjp: these are shown by a call of wadler_lindig without any options (options_lost, partial_not_as_documented). wadler_lindig is modelled after its documentation; the layout of the text is not modelled."
  },
  {
   "property": "C104",
   "status": "partial",
   "theorems": [
    "Verif.NN.Named.conv1d_eq",
    "Verif.NN.Named.conv2d_eq",
    "Verif.NN.Named.conv3d_eq",
    "Verif.NN.Named.convT1d_partial",
    "Verif.NN.Named.convT2d_partial",
    "Verif.NN.Named.convT3d_partial",
    "Verif.NN.Named.convT1d_swapped",
    "Verif.NN.Named.convT2d_swapped",
    "Verif.NN.Named.convT3d_swapped",
    "Verif.NN.Named.convT3d_dtype",
    "Verif.NN.Named.convT3d_ignores_dtype",
    "Verif.NN.Named.convT2d_positional",
    "Verif.NN.Named.pool_eq",
    "Verif.NN.Named.avg_value",
    "Verif.NN.Named.max_value",
    "Verif.NN.Named.adaptive_avg_value",
    "Verif.NN.Named.adaptive_max_value",
    "Verif.NN.Named.adaptive_errors",
    "Verif.NN.Named.conv_layer",
    "Verif.NN.Named.convT_layer",
    "Verif.NN.Named.pool_layer",
    "Verif.NN.Named.adaptive_rank"
   ],
   "note": "False for transposed convolutions: ConvTranspose1d/2d/3d have output_padding before padding, ConvTranspose has it after (convT1d_swapped, convT2d_positional); and ConvTranspose3d does not pass its dtype on (convT3d_dtype, convT3d_ignores_dtype)."
  },
  {
   "property": "C105",
   "status": "partial",
   "theorems": [
    "Verif.Module.Initable.init_current",
    "Verif.Module.Initable.post_current",
    "Verif.Module.Initable.during_init",
    "Verif.Module.Initable.finished_frozen",
    "Verif.Module.Initable.copy_frozen",
    "Verif.Module.Initable.all_frozen_partial",
    "Verif.Module.Initable.leaked_copy",
    "Verif.Module.Initable.leaked_failure",
    "Verif.Module.Initable.reused",
    "Verif.Module.Initable.remade",
    "Verif.Module.Initable.cleared"
   ],
   "note": "False for copies made while __init__ runs (tree_map or tree_at on self), and for instances kept although their __init__ raised: they belong to the temporary class and can be assigned for ever (leaked_copy, leaked_failure)."
  },
  {
   "property": "C106",
   "status": "partial",
   "theorems": [
    "Verif.Module.Signature.signature_returns",
    "Verif.Module.Signature.call_iff_partial",
    "Verif.Module.Signature.call_self",
    "Verif.Module.Signature.no_self",
    "Verif.Module.Signature.first_star",
    "Verif.Module.Signature.generated_signature",
    "Verif.Module.Signature.self_keyword",
    "Verif.Module.Signature.cls_keyword",
    "Verif.Module.Signature.star_refused"
   ],
   "note": "Proved if the first parameter of __init__ can be passed by position and no keyword is called cls or like that parameter. False otherwise: a keyword cls, or self with **kwargs, fits the signature but is refused by the call (cls_keyword, self_keyword); with __init__(*args) the signature loses *args (star_refused, first_star); without any parameter for the instance the signature fits calls that cannot be made (no_self)."
  },
  {
   "property": "C107",
   "status": "partial",
   "theorems": [
    "Verif.Misc.Settings.load_spec",
    "Verif.Misc.Settings.breakpoint_same",
    "Verif.Misc.Settings.breakpoint_inlines",
    "Verif.Misc.Settings.lower_partial",
    "Verif.Misc.Settings.lower_breakpoint",
    "Verif.Misc.Settings.unhashable_differs",
    "Verif.Misc.Settings.outer_unhashable",
    "Verif.Misc.Settings.getkey_keys",
    "Verif.Misc.Settings.getkey_reproducible",
    "Verif.Misc.Settings.getkey_seed",
    "Verif.Misc.Settings.getkey_random"
   ],
   "note": "False of lower: with EQX_ON_ERROR=breakpoint what jax.jit returns is a plain function without the attribute lower, so filter_jit(f).lower(...) raises AttributeError for all arguments that fit (lower_breakpoint). Also a nested call with static arguments that cannot be hashed then returns although it raises otherwise (unhashable_differs); if all can be hashed, errors agree too."
  },
  {
   "property": "C108",
   "status": "partial",
   "theorems": [
    "Verif.Module.Forward.bound_same",
    "Verif.Module.Forward.lawful_bind",
    "Verif.Module.Forward.passes_partial",
    "Verif.Module.Forward.jit_passes",
    "Verif.Module.Forward.reserved_refused",
    "Verif.Module.Forward.first_refused",
    "Verif.Module.Forward.jit_moves_first",
    "Verif.Module.Forward.jit_noinline",
    "Verif.Module.Forward.method_iff",
    "Verif.Module.Forward.lower_iff",
    "Verif.Module.Forward.keyword_self",
    "Verif.Module.Forward.keyword_diff_x",
    "Verif.Module.Forward.noinline_keyword"
   ],
   "note": "False of keywords that a wrapper keeps for itself: self for all wrappers that are declared without a / (and for filter_grad, which has one but calls filter_value_and_grad), _diff_x and _nondiff_x for gradients, __dynamic_fn for noinline (reserved_refused, keyword_self, keyword_diff_x); of calls with keywords only, which wrappers that take the first argument by position refuse (first_refused), unless they are in filter_jit, which moves it (jit_moves_first); and of noinlined functions in filter_jit called with keywords only, since the __wrapped__ of noinline has one parameter more (jit_noinline, noinline_keyword). passes_partial is for all other calls."
  },
  {
   "property": "C109",
   "status": "partial",
   "theorems": [
    "Verif.Misc.Options.in_advance_partial",
    "Verif.Misc.Options.merged_get?",
    "Verif.Misc.Options.by_keyword",
    "Verif.Misc.Options.twice",
    "Verif.Misc.Options.jit_iff",
    "Verif.Misc.Options.vmap_iff",
    "Verif.Misc.Options.pmap_iff",
    "Verif.Misc.Options.grad_iff",
    "Verif.Misc.Options.forbidden_refused",
    "Verif.Misc.Options.donate_refused",
    "Verif.Misc.Options.unknown_refused",
    "Verif.Misc.Options.checkpoint_iff",
    "Verif.Misc.Options.maxTraces_iff",
    "Verif.Misc.Options.transpose_iff",
    "Verif.Misc.Options.checked_late",
    "Verif.Misc.Options.max_traces_first",
    "Verif.Misc.Options.donate_argnames"
   ],
   "note": "False of assert_max_traces, whose max_traces must be in the first call: assert_max_traces()(f, max_traces=1) raises TypeError (max_traces_first); in_advance_partial is for all other sequences. donate_argnames is passed on to jax.jit by filter_jit, although donate_argnums is refused (donate_argnames). Wrong options are refused only when the function is there (checked_late)."
  },
  {
   "property": "C110",
   "status": "proved",
   "theorems": [
    "Verif.AD.Training.step",
    "Verif.AD.Training.trained",
    "Verif.AD.Training.last_step",
    "Verif.AD.Training.step_ok"
   ],
   "note": "Assumed: an inexact array plus an update is an inexact array (AddsInexact), updates have the structure of the gradients (Optim.Structural). step_ok also assumes that the optimiser and + do not raise (Total)."
  },
  {
   "property": "C111",
   "status": "proved",
   "theorems": [
    "Verif.Vmap.Ensemble.ensemble",
    "Verif.Vmap.Ensemble.evaluate_same",
    "Verif.Vmap.Ensemble.evaluate_each",
    "Verif.Vmap.Ensemble.scan_layers",
    "Verif.Vmap.Ensemble.scan_no_arrays",
    "Verif.Vmap.Ensemble.ensemble_succeeds"
   ],
   "note": "Assumed: the laws of stacking and slicing (Lawful), functions whose output types depend on input types only (Traceable). jax.lax.scan is modelled as a loop that checks the types of the carry."
  },
  {
   "property": "C112",
   "status": "proved",
   "theorems": [
    "Verif.Recipes.init_linear_weight",
    "Verif.Recipes.init_linear_weight_succeeds",
    "Verif.Recipes.resolve_symmetric",
    "Verif.Recipes.freeze_spec",
    "Verif.Recipes.freeze_trained"
   ],
   "note": "Assumed: no leaf is an empty instance of a subclass of tuple (C05), linear layers are not tuples, the weights are not None, the model contains no Symmetric at first."
  },
  {
   "property": "C113",
   "status": "partial",
   "theorems": [
    "Verif.Enum.Bases.enum_statement",
    "Verif.Enum.Bases.mixin_rejected_partial",
    "Verif.Enum.Bases.mixin_accepted",
    "Verif.Enum.Bases.mixin_child",
    "Verif.Enum.Bases.mixin_hides",
    "Verif.Enum.Bases.enum_warns",
    "Verif.Enum.Bases.enum_warns_again",
    "Verif.Enum.Bases.enum_only"
   ],
   "note": "An ordinary class that inherits from object only is accepted as a base (mixin_accepted), its attributes hide items (mixin_hides), and whether the result can be subclassed depends on the order of the bases (mixin_child). enum_statement says exactly which statements run."
  },
  {
   "property": "C114",
   "status": "proved",
   "theorems": [
    "Verif.Ser.Header.save_load_model",
    "Verif.Ser.Header.save_load_same",
    "Verif.Ser.Header.save_bad_hyperparameters",
    "Verif.Ser.Header.load_model_errors",
    "Verif.Ser.Header.load_model_conforms"
   ],
   "note": "Assumed: the laws of the .npy format (C09). JSON, open and readline are outside of the repository; that the text of the hyperparameters has no newline is part of Survives."
  },
  {
   "property": "C115",
   "status": "proved",
   "theorems": [
    "Verif.FlatLoop.flat_train",
    "Verif.FlatLoop.flat_train_structure",
    "Verif.FlatLoop.flat_train_count",
    "Verif.FlatLoop.flat_train_silent",
    "Verif.FlatLoop.init_apply"
   ],
   "note": "Assumed for the first sentence: steps keep structures (Keeps); flat_train_silent is a step that does not, with as many leaves as before, where the loop over leaves silently differs. filter_jit is left out (C27)."
  },
  {
   "property": "C116",
   "status": "proved",
   "theorems": [
    "Verif.Enum.Doc.enum_doc",
    "Verif.Enum.Doc.enum_doc_names",
    "Verif.Enum.Doc.enum_doc_reserved",
    "Verif.Enum.Doc.enum_doc_own",
    "Verif.Enum.Doc.enum_doc_statement",
    "Verif.Enum.Doc.enum_doc_determines",
    "Verif.Enum.Doc.enum_doc_classes"
   ],
   "note": "All bases are enumerations; messages that are not strings have no method replace."
  },
  {
   "property": "C117",
   "status": "proved",
   "theorems": [
    "Verif.Common.Args.steps_natural",
    "Verif.Common.Args.steps_negative",
    "Verif.Common.Args.steps_zero",
    "Verif.Common.Args.steps_bool"
   ],
   "note": "max_steps of other types is not modelled; square root and logarithm are exact (for rounding see C22, C23)."
  },
  {
   "property": "C118",
   "status": "proved",
   "theorems": [
    "Verif.Vmap.Nest.filter_vmap_traceable",
    "Verif.Vmap.Nest.nest_lanes",
    "Verif.Vmap.Nest.nest_exchange"
   ],
   "note": "in_axes as a dictionary is C30; JAX running the inner map on tracers of the outer one is modelled as running it in every lane."
  },
  {
   "property": "C119",
   "status": "proved",
   "theorems": [
    "Verif.NN.Dtypes.join_lub",
    "Verif.NN.Dtypes.layer_norm_dtype",
    "Verif.NN.Dtypes.group_norm_dtype",
    "Verif.NN.Dtypes.rms_norm_dtype",
    "Verif.NN.Dtypes.attention_weights_dtype",
    "Verif.NN.Dtypes.batch_norm_training",
    "Verif.NN.Dtypes.batch_norm_inference",
    "Verif.NN.Dtypes.linear_dtype",
    "Verif.NN.Dtypes.conv_dtype",
    "Verif.NN.Dtypes.rope_dtype",
    "Verif.NN.Dtypes.prelu_dtype",
    "Verif.NN.Dtypes.spectral_training",
    "Verif.NN.Dtypes.build_dtype",
    "Verif.NN.Dtypes.build_refuses",
    "Verif.NN.Dtypes.cells_built",
    "Verif.NN.Dtypes.cells_dtype",
    "Verif.NN.Dtypes.one_dtype"
   ],
   "note": "JAX's promotion is modelled without float8 and int4; arrays are strongly typed. ConvTranspose3d, which ignores its dtype, is C104."
  },
  {
   "property": "C120",
   "status": "partial",
   "theorems": [
    "Verif.NN.Calls.sequential_outcome",
    "Verif.NN.Calls.sequential_composes_partial",
    "Verif.NN.Calls.prelu_refused",
    "Verif.NN.Calls.norms_interchange"
   ],
   "note": "False for PReLU (prelu_refused); everything else is proved. Shapes are taken to fit, layers of the user are in C38."
  },
  {
   "property": "C121",
   "status": "partial",
   "theorems": [
    "Verif.Errors.Tpu.raising_backend",
    "Verif.Errors.Tpu.squelched_quiet",
    "Verif.Errors.Tpu.squelched_static",
    "Verif.Errors.Tpu.squelched_error_partial",
    "Verif.Errors.Tpu.squelched_no_array",
    "Verif.Errors.Tpu.squelched_bfloat16",
    "Verif.Errors.Tpu.squelched_out_of_range"
   ],
   "note": "False for arrays in bfloat16 and other dtypes that NumPy does not have itself (squelched_bfloat16), and for an index that selects no message (squelched_out_of_range); everything else is proved."
  },
  {
   "property": "C122",
   "status": "partial",
   "theorems": [
    "Verif.Misc.DataLoader.loader_stream",
    "Verif.Misc.DataLoader.run_prefix",
    "Verif.Misc.DataLoader.epoch_batches",
    "Verif.Misc.DataLoader.epoch_complete_partial",
    "Verif.Misc.DataLoader.epoch_incomplete",
    "Verif.Misc.DataLoader.loader_hangs",
    "Verif.Misc.DataLoader.loader_zero",
    "Verif.Misc.DataLoader.rows_together",
    "Verif.Misc.DataLoader.loader_refuses"
   ],
   "note": "False for the loaders with '<' if batches fit exactly (epoch_incomplete); everything else is proved."
  },
  {
   "property": "C123",
   "status": "partial",
   "theorems": [
    "Verif.Vmap.PmapAot.compiled_is_call",
    "Verif.Vmap.PmapAot.compiled_exact_partial",
    "Verif.Vmap.PmapAot.compiled_kwargs",
    "Verif.Vmap.PmapAot.compiled_refuses",
    "Verif.Vmap.PmapAot.compiled_ignores_static"
   ],
   "note": "compiled_is_call is the claim for arguments that are equal but for values of arrays; other static arguments are ignored (compiled_ignores_static), and equal but different ones share entries of the cache as in C89."
  },
  {
   "property": "C124",
   "status": "proved",
   "theorems": [
    "Verif.Attention.Order.keys_unordered",
    "Verif.Attention.Order.queries_separate",
    "Verif.Attention.Order.self_attention_equivariant",
    "Verif.Attention.Order.decoding"
   ],
   "note": "Arithmetic is over the reals, with any exponential for the first three and one that underflows for the last."
  },
  {
   "property": "C125",
   "status": "proved",
   "theorems": [
    "Verif.NN.Shift.circular_moved",
    "Verif.NN.Shift.circular_equivariant",
    "Verif.NN.Shift.circular_transposed",
    "Verif.NN.Shift.valid_patch"
   ],
   "note": "Exact arithmetic, in any commutative semiring; lax.conv_general_dilated and jnp.pad are modelled after their documentation (C44, C99)."
  },
  {
   "property": "C126",
   "status": "proved",
   "theorems": [
    "Verif.NN.Remade.same_structure",
    "Verif.NN.Remade.equal_iff",
    "Verif.NN.Remade.with_state",
    "Verif.NN.Remade.layers"
   ],
   "note": "What each __init__ creates is modelled for Linear, WeightNorm, BatchNorm, SpectralNorm, Shared and any module built of such; arrays are given by arguments and key, hence the same in both calls. tree_equal with zero tolerances."
  },
  {
   "property": "C127",
   "status": "proved",
   "theorems": [
    "Verif.NN.PoolShift.pool_each",
    "Verif.NN.PoolShift.pool_monotone",
    "Verif.NN.PoolShift.pool_channels",
    "Verif.NN.PoolShift.pool_patch",
    "Verif.NN.PoolShift.pool_twice",
    "Verif.NN.PoolShift.pool_twice_gaps"
   ],
   "note": "Elements of any type; maximum of a linear order, so no NaN, with init a least element as -inf is. effPad in pool_monotone is the padding of a call (with ceil mode)."
  },
  {
   "property": "C128",
   "status": "partial",
   "theorems": [
    "Verif.NN.Drop.flags",
    "Verif.NN.Drop.values",
    "Verif.NN.Drop.extremes",
    "Verif.NN.Drop.mean",
    "Verif.NN.Drop.linear",
    "Verif.NN.Drop.gradient_partial",
    "Verif.NN.Drop.gradient_one"
   ],
   "note": "gradient_partial leaves out p = 1, for which the statement is false (gradient_one): where(mask, x / q, 0) divides a zero cotangent by q = 0. Real arithmetic with an extra value for infinities and NaN; p a number or an array without dimensions; bernoulli(key, q, shape) is uniform(key, shape) < q."
  },
  {
   "property": "C129",
   "status": "proved",
   "theorems": [
    "Verif.NN.Agree.avgpool_is_conv",
    "Verif.NN.Agree.conv_one_is_linear",
    "Verif.NN.Agree.adaptive_max_is_pool",
    "Verif.NN.Agree.adaptive_avg_is_pool"
   ],
   "note": "Exact arithmetic: elements of a field (real numbers for Linear), or of a linear order with least element init for maxima."
  },
  {
   "property": "C130",
   "status": "proved",
   "theorems": [
    "Verif.Docs.remove_args",
    "Verif.Docs.remove_args_twice",
    "Verif.Docs.documented_calls",
    "Verif.Docs.doc_repr_calls"
   ],
   "note": "Parameters, calls and inspect.Signature as in C106."
  },
  {
   "property": "C131",
   "status": "partial",
   "theorems": [
    "Verif.CompileCache.fn_names",
    "Verif.CompileCache.cached_right",
    "Verif.CompileCache.cached_once",
    "Verif.CompileCache.cached_apart",
    "Verif.CompileCache.delete_entries_partial",
    "Verif.CompileCache.delete_wrapped"
   ],
   "note": "delete removes the entries of the innermost function, while entries are made for the function as given: for a functools.wraps wrapper it is false that its entries go (delete_wrapped)."
  },
  {
   "property": "C132",
   "status": "proved",
   "theorems": [
    "Verif.Norm.Agree.layer_is_rms",
    "Verif.Norm.Agree.rms_of_centred",
    "Verif.Norm.Agree.one_group_is_layer",
    "Verif.Norm.Agree.groups_are_layers"
   ],
   "note": "Real numbers, as in C63."
  },
  {
   "property": "C133",
   "status": "proved",
   "theorems": [
    "Verif.NN.LinearAgree.embedding_is_linear",
    "Verif.NN.LinearAgree.linear_after_linear",
    "Verif.NN.LinearAgree.linear_determined",
    "Verif.NN.LinearAgree.identity_mlp_is_linear"
   ],
   "note": "Real numbers, as for Linear and MLP."
  }
 ]
}