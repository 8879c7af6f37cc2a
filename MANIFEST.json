{"claims": [
{"property": "C01", "status": "proved", "theorems": ["Verif.C01_enters_function", "Verif.C01_waits_for_function", "Verif.C01_cases", "Verif.C01_yielded", "Verif.C01_returned", "Verif.C01_returned_rules"], "note": ""},
{"property": "C02", "status": "proved", "theorems": ["Verif.C02_construction_enters_nothing", "Verif.C02_first_call_enters", "Verif.C02_not_before_first_call"], "note": ""},
{"property": "C03", "status": "proved", "theorems": ["Verif.C03_entered_at_most_once", "Verif.C03_ends_at_most_once", "Verif.C03_never_after_end"], "note": ""},
{"property": "C04", "status": "proved", "theorems": ["Verif.C04_last_pushed"], "note": ""},
{"property": "C05", "status": "proved", "theorems": ["Verif.C05_resuming_value"], "note": ""},
{"property": "C06", "status": "proved", "theorems": ["Verif.C06_alternation", "Verif.C06_push_hands_over", "Verif.C06_between_pushes"], "note": ""},
{"property": "C07", "status": "proved", "theorems": ["Verif.C07_round", "Verif.C07_range_for", "Verif.C07_empty"], "note": "The loop is described program-independently (SpecLoop: Looping/LoopedTo); the body may do anything that does not concern the coroutine. Both ways to end; hypothesis: no copy of T threw while the coroutine held a value."},
{"property": "C08", "status": "proved", "theorems": ["Verif.C08_owner", "Verif.C08_empty", "Verif.C08_true_has_value"], "note": ""},
{"property": "C09", "status": "proved", "theorems": ["Verif.C09_negation", "Verif.C09_opposite", "Verif.C09_owner", "Verif.C09_empty", "Verif.C09_inside"], "note": ""},
{"property": "C10", "status": "proved", "theorems": ["Verif.C10_permanent"], "note": ""},
{"property": "C11", "status": "proved", "theorems": ["Verif.C11_end_returns_to_resumer", "Verif.C11_call_throws", "Verif.C11_call_throws_rules", "Verif.C11_rethrown_once"], "note": ""},
{"property": "C12", "status": "proved", "theorems": ["Verif.C12_constructor_throws", "Verif.C12_constructor_throws_rules"], "note": ""},
{"property": "C13", "status": "proved", "theorems": ["Verif.C13_locals_destroyed", "Verif.C13_locals_destroyed_rules"], "note": "for every program (or it crashes); for programs obeying the documented rules without exception"},
{"property": "C14", "status": "proved", "theorems": ["Verif.C14_nested", "Verif.C14_nested_rules"], "note": "for every program (or it crashes); for programs obeying the documented rules without exception, and then nothing but the coroutine and those nested in it is destroyed"},
{"property": "C15", "status": "proved", "theorems": ["Verif.C15_dealloc_at_most_once", "Verif.C15_not_used_afterwards", "Verif.C15_dealloc_when_empty", "Verif.C15_status"], "note": ""},
{"property": "C16", "status": "partial", "theorems": ["Verif.C16_partial", "Verif.C16_all_returned", "Verif.C16_refuted", "Verif.C15_status"], "note": "false of the code when copying the callable throws (C16_refuted); proved for every coroutine that was created"},
{"property": "C17", "status": "partial", "theorems": ["Verif.C17_balance", "Verif.C17_all_destroyed", "Verif.C17_partial", "Verif.C17_refuted_throwing_copy", "Verif.C17_refuted_read", "Verif.C17_slot"], "note": "The statement is false of the code: pull_coroutine control_block::set destroys the stored object and keeps bvalid when the new copy throws, so a later destruction destroys it twice and a later get() reads it (C17_refuted_throwing_copy, C17_refuted_read). C17_partial proves it for executions in which no copy of a pushed value throws while the coroutine holds another one and no stored value is pushed onto itself; what happens otherwise is C59 and C44."},
{"property": "C18", "status": "proved", "theorems": ["Verif.C18_at_most_once", "Verif.C18_destroyed_when_ended", "Verif.C18_destroyed_when_gone", "Verif.C18_alive_while_running", "Verif.C18_unentered", "Verif.C18_status"], "note": ""},
{"property": "C19", "status": "proved", "theorems": ["Verif.C19_move_construction", "Verif.C19_source_false"], "note": ""},
{"property": "C20", "status": "partial", "theorems": ["Verif.C20_partial", "Verif.C20_swaps", "Verif.C20_not_released", "Verif.C20_refuted"], "note": "The documented statement is false of the code: operator=(&&) swaps, so the old coroutine of the target stays alive in the source (C20_swaps and C20_not_released for every program, C20_refuted gives a program). C20_partial proves it for a target that is not-a-coroutine."},
{"property": "C21", "status": "proved", "theorems": ["Verif.C21_moves", "Verif.C21_same_effect"], "note": ""},
{"property": "C22", "status": "proved", "theorems": ["Verif.C22_stack_untouched", "Verif.C22_resumed", "Verif.C22_unwound", "Verif.C22_resumed_rules"], "note": ""},
{"property": "C23", "status": "proved", "theorems": ["Verif.C23_every_transfer", "Verif.C23_yield_to_last_resumer", "Verif.C23_resume_to_last_yield", "Verif.C23_pull_transfers", "Verif.C23_transfers"], "note": ""},
{"property": "C24", "status": "proved", "theorems": ["Verif.C24_running", "Verif.C24_held_once", "Verif.C24_continuations_live", "Verif.C24_not_twice"], "note": ""},
{"property": "C25", "status": "proved", "theorems": ["Verif.C25_step", "Verif.C25_call", "Verif.C25_untouched"], "note": "A step concerns one coroutine; every other coroutine's blocks, fiber, frames, objects and callable are the same afterwards; over executions that do not concern c, everything of c is the same."},
{"property": "C26", "status": "proved", "theorems": ["Verif.C26_begin", "Verif.C26_next", "Verif.C26_next_rules", "Verif.C34_deref", "Verif.C26_begin_owner", "Verif.C26_begin_empty"], "note": "Pull iterator: begin() and ++ yield a non-end iterator exactly when the object is then true; *it after that is get()."},
{"property": "C27", "status": "partial", "theorems": ["Verif.C27_partial", "Verif.C27_push_begin", "Verif.C27_after_throw", "Verif.C27_refuted", "Verif.C27_put_rules_partial"], "note": "The documented statement is false of the code: a push iterator from begin() is never end(), a second (stale) pull iterator stays non-end, and an iterator is unchanged by a ++ that throws. Proved: holds for pull begin()/++ (C26) and for a push iterator after `*it = a`; C27_refuted gives the concrete counterexample."},
{"property": "C28", "status": "proved", "theorems": ["Verif.C28_inside", "Verif.C28_never_false"], "note": ""},
{"property": "C29", "status": "proved", "theorems": ["Verif.C29_placed", "Verif.C29_placed_plain", "Verif.C29_too_small", "Verif.C29_members"], "note": ""},
{"property": "C30", "status": "partial", "theorems": ["Verif.C30_partial", "Verif.C30_misaligned", "Verif.C30_refuted"], "note": "False of the code for over-aligned types: the block is only 64-byte aligned (C30_misaligned, C30_refuted). C30_partial proves it for every alignment up to 64."},
{"property": "C31", "status": "proved", "theorems": ["Verif.C31_set_flag", "Verif.C31_other_bits", "Verif.C31_distinct", "Verif.C31_table", "Verif.C31_machine"], "note": ""},
{"property": "C32", "status": "proved", "theorems": ["Verif.C32_no_undefined_behaviour", "Verif.C32_obeying_programs", "Verif.C32_main_not_unwound", "Verif.C32_calls_do_not_crash"], "note": ""},
{"property": "C33", "status": "proved", "theorems": ["Verif.C33_not_a_coroutine_pull", "Verif.C33_not_a_coroutine_push", "Verif.C33_running_pull", "Verif.C33_running_push", "Verif.C33_completed_pull", "Verif.C33_completed_push", "Verif.C33_end_iterator"], "note": ""},
{"property": "C34", "status": "proved", "theorems": ["Verif.C34_no_switch", "Verif.C34_moved_out", "Verif.C34_deref", "Verif.C34_no_switch_owner"], "note": ""},
{"property": "C35", "status": "proved", "theorems": ["Verif.C35_identity", "Verif.C35_no_objects"], "note": ""},
{"property": "C36", "status": "proved", "theorems": ["Verif.C36_nothing_stored", "Verif.C36_validity", "Verif.C06_alternation"], "note": ""},
{"property": "C37", "status": "proved", "theorems": ["Verif.C37_delivers", "Verif.C37_source", "Verif.C37_source_rules"], "note": ""},
{"property": "C38", "status": "proved", "theorems": ["Verif.C38_completed", "Verif.C38_never_entered", "Verif.C38_rules"], "note": ""},
{"property": "C39", "status": "proved", "theorems": ["Verif.C39_entry_check_never_skips"], "note": ""},
{"property": "C40", "status": "partial", "theorems": ["Verif.Fringe.C40_copy", "Verif.Fringe.C40_equal_partial", "Verif.Fringe.C40_equal_prefix", "Verif.Fringe.C40_equal_differ", "Verif.Fringe.C40_equal_overrun", "Verif.Fringe.C40_equal_refuted", "Verif.Fringe.C40_equal_refuted_ub"], "note": "Reading a tree gives its in-order sequence: proved for all trees (C40_copy). The std::equal half is proved for fringes of equal length (C40_equal_partial) and is false otherwise: the three-iterator std::equal answers true on a proper prefix and dereferences an end iterator (UB) when the second fringe ends first (C40_equal_overrun). The four cases are exhaustive; refutations are concrete."},
{"property": "C41", "status": "partial", "theorems": ["Verif.Parser.C41_output", "Verif.Parser.C41_inversion", "Verif.Parser.C41_language_partial", "Verif.Parser.C41_language_refuted"], "note": "For every input: the output is one line per byte of the longest viable prefix of the input (independent grammar spec), in order, then success or parser_error (C41_output); equal to the parser called without a coroutine (C41_inversion). 'Exactly the words of the documented grammar are accepted' is false of the code (P ---> E '\\0' is not enforced, \"1)\" is accepted, C41_language_refuted); what holds is C41_language_partial."},
{"property": "C42", "status": "proved", "theorems": ["Verif.C42_lazy", "Verif.C42_exact", "Verif.C42_destroy"], "note": "Number of values pushed = number of transfers of control to the generator while it is suspended and has not ended; destroying it then returns, gives the stack back, and pushes nothing more."},
{"property": "C43", "status": "partial", "theorems": ["Verif.C43_same_step_partial", "Verif.C43_same_runs_partial", "Verif.C43_same_states_partial", "Verif.Callable.C43_callable_partial", "Verif.Callable.C43_refuted"], "note": "All runs of all programs are the same in both variants, given the function; but the variant without generic lambdas moves from a function object that was given by its name (C43_refuted)."},
{"property": "C44", "status": "partial", "theorems": ["Verif.C44_partial", "Verif.C44_undefined", "Verif.C44_refuted"], "note": "The statement is false of the code: set() destroys the stored object before it copies from the argument, so pushing the stored object itself is undefined behaviour, in every state (C44_undefined) and in a concrete program (C44_refuted). C44_partial: pushing a copy works."},
{"property": "C45", "status": "proved", "theorems": ["Verif.C45_slot_order", "Verif.C45_slot_order_rules"], "note": ""},
{"property": "C46", "status": "partial", "theorems": ["Verif.C46_partial", "Verif.C46_copy_fails_leaks", "Verif.C46_refuted"], "note": "The statement is false of the code: when copying the callable throws after the stack was allocated, the stack is leaked (C46_refuted gives a program, C46_copy_fails_leaks proves it for every program). C46_partial proves the case of a failing stack allocation."},
{"property": "C47", "status": "proved", "theorems": ["Verif.Fib.C47_output", "Verif.Fib.C47_no_overflow"], "note": "Number of rounds is a parameter."},
{"property": "C48", "status": "proved", "theorems": ["Verif.Layout.C48_layout", "Verif.Layout.C48_zero"], "note": "The line break after a full line is printed only when the next word arrives; FinalEOL prints the last one when the writer is destroyed."},
{"property": "C49", "status": "proved", "theorems": ["Verif.Doc.C49_fold", "Verif.Doc.C49_prints"], "note": ""},
{"property": "C50", "status": "proved", "theorems": ["Verif.OutIt.C50_stops", "Verif.OutIt.C50_copy", "Verif.OutIt.C50_overrun"], "note": "C50_copy and C50_overrun together cover every input list."},
{"property": "C51", "status": "proved", "theorems": ["Verif.C51_step", "Verif.C51_call", "Verif.C51_destroy", "Verif.C51_destroy_simple"], "note": "C51_step and C51_call for every program; C51_destroy for programs obeying the documented rules."},
{"property": "C52", "status": "proved", "theorems": ["Verif.C52_order", "Verif.Teardown_unique"], "note": ""},
{"property": "C53", "status": "partial", "theorems": ["Verif.Callable.C53_called", "Verif.Callable.C53_rvalue", "Verif.Callable.C53_lvalue_partial", "Verif.Callable.C53_robbed", "Verif.Callable.C53_refuted", "Verif.Callable.C53_accepted"], "note": "False of the code without generic lambdas (C++11): the wrapper moves from an object that was given by its name (C53_refuted). Proved: the right function is called in all cases; an object given by name is kept with generic lambdas, or if it is const."},
{"property": "C54", "status": "partial", "theorems": ["Verif.C54_get_partial", "Verif.C54_refuted", "Verif.C54_get_refuted", "Verif.C23_pull_transfers"], "note": "False of the code: a coroutine whose function has ended is not not-a-coroutine, but resuming it is undefined (C54_refuted), and get() never throws; it returns the old value (C54_get_refuted). Proved: get() is defined and returns a value that was pushed."},
{"property": "C55", "status": "proved", "theorems": ["Verif.C55_refines", "Verif.C55_contract", "Verif.C55_defined", "Verif.C55_exact", "Verif.C55_complete", "Verif.C55_same_end", "Verif.C55_end", "Verif.C55_same_terminate", "Verif.C55_same_divergence", "Verif.C55_ends_meaningful"], "note": "The specification machine is Verif.Coro (SpecCo.lean)."},
{"property": "C56", "status": "proved", "theorems": ["Verif.C56_terminates", "Verif.C56_call", "Verif.C56_amortised", "Verif.C56_infinitely_often"], "note": "Steps are those of the model: one per frame popped, context switched or library function called. User destructors are one step."},
{"property": "C57", "status": "proved", "theorems": ["Verif.C57_chain", "Verif.C57_pipeline", "Verif.C57_words"], "note": "The work a stage does on one item is one step of the program; stages do not call the library except to pull and to push."},
{"property": "C58", "status": "proved", "theorems": ["Verif.C58_out_chain", "Verif.C58_symmetry", "Verif.C58_pipeline", "Verif.C58_layout"], "note": "The work of a stage or of the writer on one item is one step of the program; the writer's local counters are kept in memory. setw and cout are a padding function and a list of characters."},
{"property": "C59", "status": "proved", "theorems": ["Verif.C59_copy_throws", "Verif.C59_for_good", "Verif.C59_get", "Verif.C59_deref", "Verif.C59_push", "Verif.C59_destroy", "Verif.C59_never_returned", "Verif.C59_only_way"], "note": "spoiled (SpecValue.lean) is defined on the history of calls alone. Destroying: for a suspended coroutine destroyed through its owning object; pushing: through a push end that exists."},
{"property": "C60", "status": "proved", "theorems": ["Verif.C60_bound", "Verif.C60_gone", "Verif.C60_scopes", "Verif.C60_steady", "Verif.C60_total"], "note": "Depth is counted in activation records of the functions modelled; inlined or helper functions below them (boost::context, the compiler) are not counted."},
{"property": "C61", "status": "proved", "theorems": ["Verif.C61_which", "Verif.C61_real", "Verif.C61_end", "Verif.C61_false", "Verif.C61_otherwise", "Verif.C61_same", "Verif.C61_meaningful", "Verif.C61_placement", "Verif.C61_not_caught"], "note": "The library with assertions is modelled in Assert.lean on top of the machine. A failing assertion ends the program (the default of BOOST_ASSERT)."},
{"property": "C62", "status": "proved", "theorems": ["Verif.C62_meaningful", "Verif.C62_forth", "Verif.C62_back", "Verif.C62_same_end", "Verif.C62_same_terminate", "Verif.C62_same_divergence"], "note": "dropValues and IgnoresValues in SpecErase.lean. Proved on the specification machine of C55 and carried over to the library by C55."},
{"property": "C63", "status": "proved", "theorems": ["Verif.C63_meaningful", "Verif.C63_forth", "Verif.C63_back", "Verif.C63_same_end", "Verif.C63_same_end_back", "Verif.C63_same_terminate", "Verif.C63_same_terminate_back", "Verif.C63_same_divergence", "Verif.C63_nested"], "note": "Inside.prog in SpecInside.lean: labels, coroutine and object numbers are shifted by one because the model numbers them in order of creation. Proved in lock-step on the specification machine of C55 and carried over to the library by C55."},
{"property": "C64", "status": "proved", "theorems": ["Verif.C64_noexcept_calls", "Verif.C64_immediate", "Verif.C64_destructor_not_interrupted"], "note": "Op.declaredNoexcept in PropsNoexcept.lean lists the functions. The move of the value out of T get() is assumed not to throw (DESIGN.md section 5); if it did, get() being noexcept, the program would end."},
{"property": "C65", "status": "proved", "theorems": ["Verif.Segm.C65_output", "Verif.Segm.C65_depth", "Verif.Segm.C65_deepest"], "note": "The size of a stack and its overflow are not modelled: the theorems say how many activations a stack has to hold, not whether it does."},
{"property": "C66", "status": "proved", "theorems": ["Verif.C66_call_stack", "Verif.C66_balance", "Verif.C66_one_transfer", "Verif.C66_needs_rules"], "note": "callStack in SpecBracket.lean reads the order off the history."},
{"property": "C67", "status": "proved", "theorems": ["Verif.C67_history", "Verif.C67_no_more", "Verif.C67_no_less", "Verif.Perf.C67_benchmark", "Verif.Perf.C67_benchmark_ends"], "note": "The specification machine SpecCo.lean counts as transfers: entering and leaving a new coroutine (a push coroutine too: its constructor enters the context once, which only sets up its control block), resuming and yielding, entering and leaving a coroutine that is destroyed. Time is not modelled; with 0 jobs performance.cpp:37 divides by zero."},
{"property": "C68", "status": "proved", "theorems": ["Verif.Overload.C68_object", "Verif.Overload.C68_function", "Verif.Overload.C68_synthesized", "Verif.Overload.C68_implicit", "Verif.Overload.C68_assign", "Verif.Overload.C68_push", "Verif.Overload.C68_push_ref", "Verif.Overload.C68_guard_needed", "Verif.Overload.C68_guard_needed_derived"], "note": "About Overload.lean, a model of C++ overload resolution for these declarations. boost::context::detail::disable_overload is not in /repo; it is taken to test std::is_base_of on the decayed type. Whether the chosen constructor template then compiles (the argument must be callable) is not part of it."},
{"property": "C69", "status": "proved", "theorems": ["Verif.C69_generator", "Verif.C69_values", "Verif.C69_consumers"], "note": "The function on its own is SpecGen.lean: what it does next must not depend on shared memory (it may write there) and it uses no other coroutine. Hypothesis: while the function runs, the argument object is still the one it got. Example: an endless generator with two consumers."},
{"property": "C70", "status": "proved", "theorems": ["Verif.C70_sink", "Verif.C70_producers"], "note": "The function on its own is SpecSink.lean: what it does next must not depend on shared memory and it uses no other coroutine. Hypotheses: the start is a point where the value pushed last has not been taken; while the function runs, the argument object is still the one it got. Example: a function that adds up the values with an iterator and throws the sum, under two producers."},
{"property": "C71", "status": "proved", "theorems": ["Verif.Robin.C71_schedule", "Verif.Robin.C71_only", "Verif.Robin.C71_all"], "note": "The program is ExRobin.lean (not in the repository; the documentation says such programs can be written). Tasks do not throw and do not touch shared memory."},
{"property": "C72", "status": "proved", "theorems": ["Verif.Serve.C72_plan", "Verif.Serve.C72_only", "Verif.Serve.C72_independent"], "note": "The program is ExServe.lean (not in the repository). Tasks do not throw and do not touch shared memory."},
{"property": "C73", "status": "proved", "theorems": ["Verif.Crew.C73_plan", "Verif.Crew.C73_only", "Verif.Crew.C73_independent", "Verif.Crew.C73_isolated"], "note": "The program is ExCrew.lean (not in the repository). Tasks do not touch shared memory and do not catch exceptions themselves."},
{"property": "C74", "status": "proved", "theorems": ["Verif.Events.C74_dispatch", "Verif.Events.C74_only", "Verif.Events.C74_independent"], "note": "The program is ExEvents.lean (not in the repository). Handlers write only the notes, read each event once with get(), and do not catch exceptions themselves."},
{"property": "C75", "status": "proved", "theorems": ["Verif.Sessions.C75_serve", "Verif.Sessions.C75_only", "Verif.Sessions.C75_independent", "Verif.Sessions.C75_released", "Verif.Sessions.C75_moves"], "note": "The program is ExSessions.lean (not in the repository). Sessions write only the notes, and do not catch exceptions themselves; destructors do not throw and call no library function (as everywhere in the model)."},
{"property": "C76", "status": "proved", "theorems": ["Verif.Cursors.C76_serve", "Verif.Cursors.C76_only", "Verif.Cursors.C76_independent", "Verif.Cursors.C76_moves", "Verif.Cursors.C76_twice"], "note": "The program is ExCursors.lean (not in the repository). The functions of the cursors do not read or write memory and do not catch exceptions; destructors do nothing (C75 has destructors that write to memory). Assignment exchanges the two coroutines, as the code does; that the documentation says otherwise is C20."}
]}
