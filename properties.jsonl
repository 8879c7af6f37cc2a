{"id": "C01", "title": "A pull coroutine starts eagerly", "statement": "Constructing a pull_type enters the coroutine-function before the constructor returns, and the constructor only returns once the function has yielded, returned or thrown; the object is valid exactly when the function yielded.", "quantifier": "all programs, all coroutine-functions, all points at which a pull_type is constructed", "why_tests_cant": "the claim is about every function body, including ones that recurse, create further coroutines or throw before the first yield", "anchors": ["include/boost/coroutine2/detail/pull_control_block_cc.ipp: pull_coroutine<T>::control_block::control_block", "include/boost/coroutine2/detail/pull_coroutine.ipp: pull_coroutine(StackAllocator&&,Fn&&)"]}
{"id": "C02", "title": "A push coroutine starts lazily", "statement": "Constructing a push_type never enters its coroutine-function; the function is entered by the first call of operator(). A push_type that is never called never enters its function, however it is destroyed.", "quantifier": "all programs and histories", "why_tests_cant": "absence of an effect over every history cannot be sampled", "anchors": ["include/boost/coroutine2/detail/push_control_block_cc.ipp: push_coroutine<T>::control_block::control_block", "include/boost/coroutine2/detail/push_coroutine.ipp"]}
{"id": "C03", "title": "The coroutine-function is entered at most once", "statement": "For every coroutine, in every history, its coroutine-function is called at most once, and never again after it has ended.", "quantifier": "all programs, all histories, every coroutine", "why_tests_cant": "quantifies over unbounded histories of resumes, moves and destructions", "anchors": ["include/boost/coroutine2/detail/pull_control_block_cc.ipp", "include/boost/coroutine2/detail/push_control_block_cc.ipp"]}
{"id": "C04", "title": "get() on a pull_type returns the last value the function pushed", "statement": "Whenever get() is called on a pull coroutine holding a value, and get() has not been called since that value was pushed, it returns exactly the value passed to the most recent push by the coroutine-function.", "quantifier": "all programs, all value types, all histories", "why_tests_cant": "must hold for every interleaving of pushes, resumes, gets and moves", "anchors": ["include/boost/coroutine2/detail/pull_control_block_cc.ipp: set,get", "include/boost/coroutine2/detail/pull_coroutine.ipp: get"]}
{"id": "C05", "title": "get() inside a push coroutine returns the value of the call that resumed it", "statement": "Inside the function of a push coroutine, get() returns exactly the value given to the operator() call that most recently transferred control to it (first get since that call).", "quantifier": "all programs, all value types, all histories", "why_tests_cant": "must hold for every interleaving", "anchors": ["include/boost/coroutine2/detail/push_control_block_cc.ipp: resume", "include/boost/coroutine2/detail/pull_control_block_cc.ipp: set,get"]}
{"id": "C06", "title": "Strict alternation: no value is overwritten before the consumer ran", "statement": "Control transfers over one coroutine strictly alternate between its two ends, starting with the owner's end: between two consecutive pushes the consuming side has been given control exactly once; no push is lost or duplicated.", "quantifier": "all programs, all histories, every coroutine", "why_tests_cant": "quantifies over unbounded histories", "anchors": ["include/boost/coroutine2/detail/pull_control_block_cc.ipp: resume", "include/boost/coroutine2/detail/push_control_block_cc.ipp: resume"]}
{"id": "C07", "title": "Range-for over a pull coroutine sees every pushed value exactly once, in order", "statement": "Iterating begin()..end() over a pull coroutine whose function pushes x1..xn and then returns executes the loop body exactly for x1..xn in that order and then ends; if the function throws after xn the loop body still saw x1..xn and the exception leaves the loop.", "quantifier": "all sequences x1..xn of any length, any recursion depth of the producing function, both ways to end", "why_tests_cant": "the list of values and the recursion depth are unbounded", "anchors": ["include/boost/coroutine2/detail/pull_coroutine.hpp: iterator, begin, end"]}
{"id": "C08", "title": "operator bool is exact", "statement": "operator bool of an owning coroutine object is true exactly when the object is not a moved-from/empty object and the coroutine-function has neither returned nor thrown; an owning pull_type of values or references always holds a pushed value, and get() yields one unless a copy of a pushed value has thrown earlier while another one was held (see C17, C59).", "quantifier": "all programs, all reachable states, pull and push, value, reference and void", "why_tests_cant": "must hold in every reachable state", "anchors": ["include/boost/coroutine2/detail/pull_coroutine.ipp: operator bool", "include/boost/coroutine2/detail/push_coroutine.ipp: operator bool", "include/boost/coroutine2/detail/pull_control_block_cc.ipp: valid", "include/boost/coroutine2/detail/push_control_block_cc.ipp: valid"]}
{"id": "C09", "title": "operator! is the negation of operator bool", "statement": "operator! returns true exactly when operator bool returns false, and neither changes any observable state.", "quantifier": "all programs, all reachable states, all coroutine objects", "why_tests_cant": "must hold in every reachable state", "anchors": ["include/boost/coroutine2/detail/pull_coroutine.ipp: operator!", "include/boost/coroutine2/detail/push_coroutine.ipp: operator!"]}
{"id": "C10", "title": "Completion is permanent", "statement": "Once the function of a coroutine has ended, operator bool of the object referring to it is false for ever, whatever operations (moves included) follow.", "quantifier": "all programs, all continuations of a history", "why_tests_cant": "ranges over all futures", "anchors": ["include/boost/coroutine2/detail/pull_control_block_cc.ipp: valid", "include/boost/coroutine2/detail/push_control_block_cc.ipp: valid"]}
{"id": "C11", "title": "An exception leaving the function is thrown by the call that resumed it", "statement": "If the coroutine-function exits with exception e, then the constructor/operator() call that most recently transferred control into the coroutine throws exactly e, in the execution context of that call, and no other call throws it; the coroutine is complete afterwards.", "quantifier": "all programs, exceptions, resuming contexts", "why_tests_cant": "the resuming context can be any coroutine at any depth", "anchors": ["include/boost/coroutine2/detail/pull_control_block_cc.ipp: resume, control_block lambda catch(...)", "include/boost/coroutine2/detail/push_control_block_cc.ipp: resume"]}
{"id": "C12", "title": "An exception before the first yield leaves no coroutine behind", "statement": "If the coroutine-function of a pull_type throws before its first yield, the constructor throws that exception, no object exists, the coroutine is unwound and its stack has been returned to the allocator exactly once before the exception propagates.", "quantifier": "all programs and exceptions", "why_tests_cant": "must hold for all bodies and all construction sites", "anchors": ["include/boost/coroutine2/detail/pull_control_block_cc.ipp: control_block ctor rethrow"]}
{"id": "C13", "title": "Destroying an unfinished coroutine destroys its locals in reverse order", "statement": "Destroying the object of a suspended, unfinished coroutine runs the destructor of every live local object of its function exactly once, in reverse order of construction, before the destructor returns; no other code of the function runs.", "quantifier": "all programs, all stack contents, all suspension points and depths", "why_tests_cant": "stack depth and contents are unbounded", "anchors": ["include/boost/coroutine2/detail/pull_control_block_cc.ipp: destroy, deallocate", "include/boost/coroutine2/detail/push_control_block_cc.ipp: destroy, deallocate"]}
{"id": "C14", "title": "Unwinding always completes, including nested coroutines", "statement": "Destroying a coroutine whose function owns further unfinished coroutines as locals (to any depth) destroys those too; the whole unwinding terminates and control returns to the destructor call, unless the program breaks a documented rule.", "quantifier": "all programs, nesting depths, stack contents", "why_tests_cant": "nesting is unbounded and termination is not testable", "anchors": ["include/boost/coroutine2/detail/pull_control_block_cc.ipp: destroy", "include/boost/coroutine2/detail/push_control_block_cc.ipp: destroy"]}
{"id": "C15", "title": "Every stack is deallocated at most once and never while in use", "statement": "For every stack obtained from the allocator, deallocate is called at most once, only after the coroutine-function's frames are gone, and control never enters a deallocated stack.", "quantifier": "all programs (even ones that use counterpart objects across coroutines), all histories", "why_tests_cant": "must hold for every schedule of control transfers", "anchors": ["include/boost/coroutine2/detail/create_control_block.ipp", "include/boost/coroutine2/detail/pull_control_block_cc.ipp: destroy", "include/boost/coroutine2/detail/push_control_block_cc.ipp: destroy"]}
{"id": "C16", "title": "No stack leaks", "statement": "At any time at which the main context runs user code, the stacks that are allocated and not yet deallocated are exactly those of coroutines referred to by an existing owning coroutine object; hence when all objects are gone all stacks are returned.", "quantifier": "all programs obeying the documented rules, all histories (including fn-copy failures)", "why_tests_cant": "quantifies over unbounded histories and all exits", "anchors": ["include/boost/coroutine2/detail/create_control_block.ipp: create_control_block", "include/boost/coroutine2/detail/pull_coroutine.ipp", "include/boost/coroutine2/detail/push_coroutine.ipp"]}
{"id": "C17", "title": "Transferred objects are constructed and destroyed in balance", "statement": "Each T object the library constructs to transfer a value is destroyed exactly once, at the latest when the coroutine is destroyed; it is never destroyed twice and never read after destruction.", "quantifier": "all programs, all value types (including types whose copy constructor throws), all histories", "why_tests_cant": "lifetime balance over unbounded histories and throwing constructors", "anchors": ["include/boost/coroutine2/detail/pull_control_block_cc.ipp: set, ~control_block"]}
{"id": "C18", "title": "The function object is destroyed exactly once", "statement": "The payload of the callable passed to the constructor is destroyed exactly once: when the function ends (before completion is observable) if it was entered, otherwise when the coroutine is destroyed.", "quantifier": "all programs and histories", "why_tests_cant": "quantifies over all exits (return, throw, unwinding, never started)", "anchors": ["include/boost/coroutine2/detail/pull_control_block_cc.ipp: lambda, auto fn = std::move(fn_)", "include/boost/coroutine2/detail/push_control_block_cc.ipp"]}
{"id": "C19", "title": "Move construction transfers the coroutine", "statement": "After move construction the new object refers to the source's coroutine, the source is not-a-coroutine (false), no context switch happens and no coroutine state changes.", "quantifier": "all programs, all reachable states, all objects", "why_tests_cant": "must hold in every state, incl. while suspended mid-recursion", "anchors": ["include/boost/coroutine2/detail/pull_coroutine.ipp: pull_coroutine(pull_coroutine&&)", "include/boost/coroutine2/detail/push_coroutine.ipp: push_coroutine(push_coroutine&&)"]}
{"id": "C20", "title": "Move assignment releases the target's old coroutine", "statement": "(documented) Move assignment destroys the coroutine previously held by the target and leaves the source not-a-coroutine.", "quantifier": "all programs, all reachable states", "why_tests_cant": "documented effect, must hold in every state", "anchors": ["include/boost/coroutine2/detail/pull_coroutine.hpp: operator=(pull_coroutine&&)", "include/boost/coroutine2/detail/push_coroutine.hpp: operator=(push_coroutine&&)", "doc/asymmetric.qbk"]}
{"id": "C21", "title": "Moving objects does not disturb the coroutine", "statement": "Any sequence of move constructions/assignments of coroutine objects, from any context, leaves every coroutine's execution state, transferred value, completion and pending exception unchanged; later calls through the new object behave as calls through the old one would have.", "quantifier": "all programs, all move sequences", "why_tests_cant": "unbounded sequences of moves at arbitrary points", "anchors": ["include/boost/coroutine2/detail/pull_coroutine.hpp", "include/boost/coroutine2/detail/push_coroutine.hpp", "include/boost/coroutine2/detail/pull_coroutine.ipp", "include/boost/coroutine2/detail/push_coroutine.ipp"]}
{"id": "C22", "title": "Local state survives suspension", "statement": "While a coroutine is suspended nothing changes its stack: when it is next given control (resumed or unwound) its call frames, live locals and handlers are exactly those at suspension.", "quantifier": "all programs, all histories between suspension and resumption, all depths", "why_tests_cant": "unbounded interleavings and depths", "anchors": ["include/boost/coroutine2/detail/pull_control_block_cc.ipp: resume", "include/boost/coroutine2/detail/push_control_block_cc.ipp: resume"]}
{"id": "C23", "title": "Yield returns to the most recent resumer", "statement": "A yield transfers control to the context that most recently resumed (or constructed) the coroutine through its object, not to its creator; a resume transfers control to the point that most recently yielded.", "quantifier": "all programs, any number of coroutines, any resuming contexts", "why_tests_cant": "unbounded sets of contexts and histories", "anchors": ["include/boost/coroutine2/detail/pull_control_block_cc.ipp: resume", "include/boost/coroutine2/detail/push_control_block_cc.ipp: resume"]}
{"id": "C24", "title": "Exactly one context runs; suspended contexts are owned exactly once", "statement": "At every moment exactly one execution context runs; every other live context is suspended and is held by exactly one continuation, so no coroutine can be resumed twice or be resumed while running.", "quantifier": "all programs, all reachable states", "why_tests_cant": "global invariant over all schedules", "anchors": ["include/boost/coroutine2/detail/pull_control_block_cc.ipp", "include/boost/coroutine2/detail/push_control_block_cc.ipp"]}
{"id": "C25", "title": "Coroutines do not interfere", "statement": "An operation on one coroutine leaves the transferred value, completion state, pending exception and stack of every other coroutine unchanged.", "quantifier": "all programs, all pairs of coroutines, all operations", "why_tests_cant": "pairs and histories unbounded", "anchors": ["include/boost/coroutine2/detail/pull_control_block_cc.ipp", "include/boost/coroutine2/detail/push_control_block_cc.ipp"]}
{"id": "C26", "title": "pull iterators track the coroutine", "statement": "begin() equals end() exactly when operator bool is false; after ++ returns normally the iterator equals end() exactly when operator bool is false, and otherwise dereferencing yields the value pushed last without a context switch and without changing it.", "quantifier": "all programs, all reachable states, all iterators", "why_tests_cant": "must hold in every state", "anchors": ["include/boost/coroutine2/detail/pull_coroutine.hpp: iterator"]}
{"id": "C27", "title": "An iterator equals end() whenever the coroutine is false", "statement": "(documented) An iterator obtained from begin() compares equal to end() whenever operator bool of the coroutine returns false, for pull and push coroutines.", "quantifier": "all programs, all reachable states, all iterators", "why_tests_cant": "documented effect over all histories", "anchors": ["include/boost/coroutine2/detail/pull_coroutine.hpp: iterator", "include/boost/coroutine2/detail/push_coroutine.hpp: iterator", "doc/asymmetric.qbk"]}
{"id": "C28", "title": "The counterpart object is always true inside the function", "statement": "Inside the coroutine-function the coroutine object passed as argument (not moved from) always converts to true, so loops conditioned on it only end by unwinding.", "quantifier": "all programs, all states in which the function runs", "why_tests_cant": "ranges over all histories", "anchors": ["include/boost/coroutine2/detail/pull_control_block_cc.ipp: valid", "include/boost/coroutine2/detail/push_control_block_cc.ipp: valid"]}
{"id": "C29", "title": "The control block is placed inside the stack", "statement": "The control block is placed 64-byte aligned and completely inside the allocated stack, the assertion on std::align cannot fail, and the size handed to the context is exactly the space below it.", "quantifier": "all stack addresses and sizes, all control block sizes that fit", "why_tests_cant": "ranges over all 64-bit addresses and sizes", "anchors": ["include/boost/coroutine2/detail/create_control_block.ipp"]}
{"id": "C30", "title": "The control block is aligned for every T", "statement": "The storage for the transferred T is suitably aligned for every object type T.", "quantifier": "all types T (all alignments), all stack addresses", "why_tests_cant": "ranges over all alignments and addresses", "anchors": ["include/boost/coroutine2/detail/create_control_block.ipp: func_alignment", "include/boost/coroutine2/detail/pull_control_block_cc.hpp: storage"]}
{"id": "C31", "title": "State flags are independent", "statement": "Setting the complete or destroy flag never changes another flag, testing a flag sees exactly whether it was set, and the flag set is idempotent, for every combination of flags.", "quantifier": "all 32-bit flag words", "why_tests_cant": "ranges over all words", "anchors": ["include/boost/coroutine2/detail/state.hpp"]}
{"id": "C32", "title": "Documented rules imply absence of undefined behaviour", "statement": "A program that only calls operator()/get on valid, not currently running coroutine objects (or, inside the function, on its argument), does not destroy running coroutines, does not swallow the unwinding exception and whose value types do not throw on copy, never triggers undefined behaviour inside the library.", "quantifier": "all programs obeying the rules, all histories", "why_tests_cant": "absence of UB over all histories", "anchors": ["doc/asymmetric.qbk", "doc/coroutine.qbk", "include/boost/coroutine2/detail/pull_control_block_cc.ipp", "include/boost/coroutine2/detail/push_control_block_cc.ipp"]}
{"id": "C33", "title": "The preconditions are necessary", "statement": "Calling operator() on an object whose function has ended, on a moved-from object, or on a coroutine that is currently running (with an argument of the coroutine's type, when pushing) always leads to undefined behaviour.", "quantifier": "all reachable states with such an object", "why_tests_cant": "must hold in every such state", "anchors": ["include/boost/coroutine2/detail/pull_control_block_cc.ipp: resume", "include/boost/coroutine2/detail/push_control_block_cc.ipp: resume", "doc/coroutine.qbk: context switch"]}
{"id": "C34", "title": "get() does not switch, throw or complete", "statement": "get() never transfers control, throws or changes validity; it moves the value out: a second get() before the next switch yields the moved-from value (equal to the first for types whose move is a copy), whereas dereferencing an iterator leaves it intact.", "quantifier": "all reachable states and value types", "why_tests_cant": "must hold in every state", "anchors": ["include/boost/coroutine2/detail/pull_coroutine.ipp: get"]}
{"id": "C35", "title": "Reference coroutines transfer identity", "statement": "For coroutine<T&>, get() returns the very reference that was pushed, any number of times, and the library constructs and destroys no T.", "quantifier": "all programs and references", "why_tests_cant": "all histories", "anchors": ["include/boost/coroutine2/detail/pull_control_block_cc.ipp: pull_coroutine<T&>::control_block::set,get"]}
{"id": "C36", "title": "Void coroutines", "statement": "For coroutine<void> validity depends only on termination, no value is stored, and control transfer obeys the same alternation.", "quantifier": "all programs", "why_tests_cant": "all histories", "anchors": ["include/boost/coroutine2/detail/pull_control_block_cc.ipp: pull_coroutine<void>", "include/boost/coroutine2/detail/push_control_block_cc.ipp: push_coroutine<void>"]}
{"id": "C37", "title": "Pushing an lvalue copies, pushing an rvalue moves", "statement": "operator()(T const&) leaves the source unchanged; operator()(T&&) leaves it in the moved-from state; both deliver the original value.", "quantifier": "all values and value types", "why_tests_cant": "all values", "anchors": ["include/boost/coroutine2/detail/push_control_block_cc.ipp: resume(T const&), resume(T&&)", "include/boost/coroutine2/detail/pull_control_block_cc.ipp: set"]}
{"id": "C38", "title": "Destroying a completed or never-entered coroutine runs no function code", "statement": "Destroying a coroutine whose function has ended, or a push coroutine that was never called, runs no code of the function and no local destructor of it, and returns the stack.", "quantifier": "all programs and histories", "why_tests_cant": "all histories", "anchors": ["include/boost/coroutine2/detail/pull_control_block_cc.ipp: destroy", "include/boost/coroutine2/detail/push_control_block_cc.ipp: destroy"]}
{"id": "C39", "title": "The entry check never skips the function", "statement": "The function is entered on every first transfer of control: the internal check that would skip it never fires.", "quantifier": "all programs and histories", "why_tests_cant": "reachability over all histories", "anchors": ["include/boost/coroutine2/detail/pull_control_block_cc.ipp: if (none == (state & destroy))", "include/boost/coroutine2/detail/push_control_block_cc.ipp"]}
{"id": "C40", "title": "same_fringe compares in-order sequences", "statement": "In example/same_fringe.cpp, reading a tree through the coroutine yields its in-order sequence for every tree, and std::equal over two readers returns whether the sequences are equal.", "quantifier": "all pairs of binary trees", "why_tests_cant": "trees are unbounded", "anchors": ["example/same_fringe.cpp: traverse"]}
{"id": "C41", "title": "parser example inverts control faithfully", "statement": "In example/parser.cpp the characters pulled are exactly the callbacks of the recursive-descent parser on the input, in order, and a parse error surfaces as parser_error at the loop after all characters accepted before it; exactly the words of the documented grammar are accepted.", "quantifier": "all input strings", "why_tests_cant": "inputs unbounded", "anchors": ["example/parser.cpp: Parser"]}
{"id": "C42", "title": "Infinite generators can be consumed lazily", "statement": "For a coroutine-function that never returns (e.g. while(true) push), pulling n values runs it only up to its n-th push and destroying the object then terminates it.", "quantifier": "all n, all infinite generators", "why_tests_cant": "n unbounded", "anchors": ["performance/performance.cpp: fn", "example/fibonacci.cpp"]}
{"id": "C43", "title": "Both compile-time code paths behave alike", "statement": "The generic-lambda and the wrap() code paths, and the one-step and two-step final jump, have identical observable behaviour.", "quantifier": "all programs, both configurations", "why_tests_cant": "all histories", "anchors": ["include/boost/coroutine2/detail/pull_control_block_cc.ipp: BOOST_NO_CXX14_GENERIC_LAMBDAS", "include/boost/coroutine2/detail/push_control_block_cc.ipp", "include/boost/coroutine2/detail/wrap.hpp"]}
{"id": "C44", "title": "Pushing the currently stored value is safe", "statement": "Pushing a reference to the value currently held by the coroutine (e.g. obtained through an iterator) transfers that value.", "quantifier": "all programs and value types", "why_tests_cant": "all histories", "anchors": ["include/boost/coroutine2/detail/pull_control_block_cc.ipp: set(T const&)"]}
{"id": "C45", "title": "The transfer slot is released before the locals", "statement": "When a pull coroutine is destroyed the pending transferred value is destroyed before any local of its function; for a push coroutine it is destroyed after all locals.", "quantifier": "all programs and histories", "why_tests_cant": "all stack contents", "anchors": ["include/boost/coroutine2/detail/pull_control_block_cc.ipp: destroy, ~control_block"]}
{"id": "C46", "title": "Resources are conserved by failed construction", "statement": "If allocating the stack, copying the function object or the function itself fails during construction, the constructor throws and no stack remains allocated.", "quantifier": "all failure points and exceptions", "why_tests_cant": "all crash points", "anchors": ["include/boost/coroutine2/detail/create_control_block.ipp"]}
{"id": "C47", "title": "fibonacci.cpp prints the Fibonacci numbers", "statement": "The example program with n rounds of its loop prints fib 1, fib 2, \u2026, fib (n+2) in order and then ends; for the shipped constant no intermediate value overflows a 32-bit int.", "quantifier": "all loop counts n, all programs of this shape", "why_tests_cant": "one run shows one n", "anchors": ["example/fibonacci.cpp"]}
{"id": "C48", "title": "layout.cpp prints the words in lines of num", "statement": "For every list of words and every num > 0 the program prints the words in order, a line break between groups of num, then Done; the object FinalEOL in the coroutine's frame is alive until the push coroutine is destroyed and is then destroyed (printing the last line break) exactly if at least one word was pushed. For num = 0 and at least one word the program prints line breaks forever.", "quantifier": "all word lists, all num", "why_tests_cant": "infinitely many inputs; divergence cannot be tested", "anchors": ["example/layout.cpp"]}
{"id": "C49", "title": "A push coroutine consumes exactly the given sequence", "statement": "For each of the consumers (while loop, range-for) and feeders (calls, std::copy through begin(push)) of the documentation, every sequence is consumed entirely, in order, each value when it is given; then everything is destroyed and the program ends.", "quantifier": "all sequences, all effects of the consumer, all value types", "why_tests_cant": "all sequences and effects", "anchors": ["doc/asymmetric.qbk", "include/boost/coroutine2/detail/push_coroutine.hpp: iterator"]}
{"id": "C50", "title": "The output iterator becomes end when the consumer stops", "statement": "test_output_iterator for any limit: the loop stops when the consumer returns, and vec holds 1 \u2026 limit-1. An algorithm that does not compare its output iterator (std::copy) is fine if only the last value stops the consumer and is undefined behaviour otherwise.", "quantifier": "all limits, all input lists", "why_tests_cant": "undefined behaviour cannot be observed by tests", "anchors": ["test/test_coroutine.cpp: test_output_iterator", "include/boost/coroutine2/detail/push_coroutine.hpp: iterator"]}
{"id": "C51", "title": "The library changes user memory only by running destructors", "statement": "Memory of user code is changed by user code and by the destructors of its local objects only: every other step (resumptions, transfers of values, stack unwinding, deallocation) changes it exactly as the destructors run in this step do; after a coroutine has been destroyed, memory is as the destructors of its live locals and of those of nested coroutines left it.", "quantifier": "all programs, all reachable states, all destructors", "why_tests_cant": "a stray write or a missing, repeated or reordered destructor need not be visible in a test", "anchors": ["include/boost/coroutine2/detail/pull_control_block_cc.ipp", "include/boost/coroutine2/detail/push_control_block_cc.ipp", "doc/asymmetric.qbk: Stack unwinding"]}
{"id": "C52", "title": "Nested coroutines are torn down in scope order", "statement": "Destroying a coroutine destroys the live locals of its function and of the coroutines nested in it, to any depth, in the order in which the scopes end: the locals of a nested coroutine are destroyed exactly where its object is, after the locals of the outer function constructed later and before those constructed earlier. This order is determined by the state.", "quantifier": "all programs obeying the documented rules, all nesting depths", "why_tests_cant": "unboundedly many nestings and interleavings", "anchors": ["include/boost/coroutine2/detail/pull_control_block_cc.ipp: destroy, deallocate", "include/boost/coroutine2/detail/push_control_block_cc.ipp: destroy, deallocate", "include/boost/coroutine2/detail/pull_coroutine.ipp: ~pull_coroutine", "include/boost/coroutine2/detail/push_coroutine.ipp: ~push_coroutine"]}
{"id": "C53", "title": "The function object given to a constructor", "statement": "The object that is called has the value of the object given to the constructor. An object given by its name is copied and left unchanged; an object given with std::move is not copied and need not be copyable. The same in both variants of the code (with and without generic lambdas).", "quantifier": "all function object types, states, value categories, both variants", "why_tests_cant": "the tests use one copyable type whose move is a copy; the C++11 variant is rarely built", "anchors": ["include/boost/coroutine2/detail/wrap.hpp", "include/boost/coroutine2/detail/pull_control_block_cc.ipp: constructor", "include/boost/coroutine2/detail/push_control_block_cc.ipp: constructor", "include/boost/coroutine2/detail/create_control_block.ipp"]}
{"id": "C54", "title": "The documented preconditions of pull_type are sufficient", "statement": "(documented) operator() and get() of a pull_type have defined behaviour whenever the object is not not-a-coroutine, and get() throws invalid_result if the function has not transferred a value.", "quantifier": "all programs, all objects", "why_tests_cant": "undefined behaviour cannot be observed by tests", "anchors": ["doc/asymmetric.qbk: 471-492", "include/boost/coroutine2/detail/pull_coroutine.ipp: operator(), get"]}
{"id": "C55", "title": "The library implements asymmetric coroutines", "statement": "Consider the textbook machine for asymmetric coroutines: a coroutine is a function with its own stack; resuming passes control to it, yielding passes control back to the resumer; one value is in transfer; an exception leaving the function is thrown by the operation that resumed it; destroying a suspended coroutine unwinds its stack. Every program this machine executes without getting stuck runs with the library without undefined behaviour, with the same sequence of observable events, the same memory at every point of user code, and the same end (normal end, uncaught exception, or no end), and holds the stack, the function object and the value of a coroutine exactly as long as the machine has that coroutine, its function, its value; and the machine gets stuck only for programs that break a documented rule or would not compile.", "quantifier": "all programs, all executions, finite and infinite", "why_tests_cant": "equivalence of two systems over all programs and all, also infinite, executions", "anchors": ["include/boost/coroutine2/detail/pull_control_block_cc.ipp", "include/boost/coroutine2/detail/push_control_block_cc.ipp", "include/boost/coroutine2/detail/pull_coroutine.ipp", "include/boost/coroutine2/detail/push_coroutine.ipp", "include/boost/coroutine2/detail/pull_coroutine.hpp: iterator", "include/boost/coroutine2/detail/push_coroutine.hpp: iterator", "doc/asymmetric.qbk"]}
{"id": "C56", "title": "The library always gets back to user code", "statement": "No operation hangs inside the library. From any state, however coroutines are nested, the library runs user code again, or the program stops, after a number of steps bounded by what lies on the stacks; in a program with a meaning (C55) every operation leads back to user code or to a regular end of the program; a program that runs for ever runs user code again and again; and over every run the library takes at most twelve steps per step of user code, so construction, resumption and destruction cost amortised constant time apart from the user's own destructors.", "quantifier": "all programs, all reachable states, all executions, finite and infinite", "why_tests_cant": "a liveness property: tests cannot tell a hang from a long run, nor bound the cost for all nestings and all stack contents", "anchors": ["include/boost/coroutine2/detail/pull_control_block_cc.ipp:34-151", "include/boost/coroutine2/detail/push_control_block_cc.ipp:33-153", "include/boost/coroutine2/detail/pull_coroutine.ipp:43-96", "include/boost/coroutine2/detail/push_coroutine.ipp:36-86"]}
{"id": "C57", "title": "Chained coroutines behave as nested loops", "statement": "In a chain of pull coroutines, each consuming the one before it in a range-for loop (a reader, any number of stages with any side effects, a consuming loop in main), the program does exactly what the same computation written as nested loops without coroutines does: the same effects on memory in the same order, one item at a time; when the consumer leaves its loop early nothing more is computed and everything is unwound; when a stage or the consumer throws, that very exception leaves main with the same effects done before it. The chain always ends. If the stages only compute, the chain is the composition of the stages; the documentation's chain prints the words of any text in order.", "quantifier": "all inputs, all numbers of stages, all stage functions (with memory effects, any number of outputs per item, exceptions), all consumers (going on, leaving, throwing)", "why_tests_cant": "tests run one chain on one text; the claim is about every chain, every length and every point at which it may be left", "anchors": ["doc/motivation.qbk:440-539", "include/boost/coroutine2/detail/pull_coroutine.hpp:70-130", "include/boost/coroutine2/detail/pull_control_block_cc.ipp:44-185"]}
{"id": "C58", "title": "Chains with push coroutines; a stage works the same on either side", "statement": "A loop in main over a chain of pull coroutines that passes its items on into a chain of push coroutines (stage functions as before, at the end a writer with a local object) does exactly what the same computation written as nested loops does, the writer innermost: the same effects in the same order, one item at a time, down to the writer before the next item is computed. The push coroutine functions are entered at the first item that reaches them; an exception of any push stage or of the writer comes out of the push operations, through the stages above it, and leaves main. The writer's local object is destroyed exactly once if the writer has got an item, by its exception or by unwinding at the end, and not at all otherwise. Because of the symmetry of the API, using the same stage functions as pull coroutines before the loop or as push coroutines after it gives the same result, whatever they do. Both layout programs of the documentation print the same page: the words of the text, num to a line, last line finished.", "quantifier": "all inputs, all numbers of stages before and after the loop, all stage functions with memory effects and exceptions, all loop bodies (going on, leaving, throwing), all writers, all destructors; all texts, line lengths and widths for the documentation's programs", "why_tests_cant": "tests run one chain on one text; the claim is about every chain, every length, every exception in any of the coroutines and every point at which it may be left", "anchors": ["doc/motivation.qbk:496-565", "include/boost/coroutine2/detail/push_control_block_cc.ipp:43-153", "include/boost/coroutine2/detail/push_coroutine.ipp:36-86", "include/boost/coroutine2/detail/pull_coroutine.hpp:70-130"]}
{"id": "C59", "title": "A copy that throws while a value is stored breaks the coroutine for good, and nothing else does", "statement": "If copying a pushed value throws while the coroutine holds an earlier value, the exception leaves the push in the pusher and control is not transferred; from then on the coroutine is spoiled, for good: every later get() and every dereferenced iterator reads a destroyed object, every further push destroys it a second time, whatever is pushed, and so does the destruction of the coroutine, whose stack therefore is never given back. If the coroutine holds no value, a throwing copy does no harm. And nothing else has this effect: a transferred object is destroyed twice, or read after its destruction, only in executions in which some coroutine was spoiled in this way, or by pushing the stored object itself.", "quantifier": "all programs, all reachable states, all kinds of arguments, both kinds of coroutine", "why_tests_cant": "a double destruction is undefined behaviour and may go unnoticed in a test; that nothing else leads to it is a statement about all executions", "anchors": ["include/boost/coroutine2/detail/pull_control_block_cc.ipp:128-173", "include/boost/coroutine2/detail/pull_control_block_cc.ipp:175-179", "include/boost/coroutine2/detail/push_control_block_cc.ipp:131-153"]}
{"id": "C60", "title": "The library takes up a bounded amount of every stack", "statement": "In every reachable state of every program, on the stack of every context, the activation records that belong to library calls are at most three deep and are the innermost ones; while a context runs user code there are none on its stack. Only a context's own block entries and exits, function calls and returns, and exceptions that pass through it change what user code has open on its stack. So when a context runs user code at two moments between which it has entered and left no block, its stack is exactly the same, however often control was passed to and from coroutines in between, whatever these did; and all stacks together hold what user code has open plus at most three records per context that waits in a library call.", "quantifier": "all programs, all reachable states, all contexts, executions of any length", "why_tests_cant": "a stack that grows by one record per switch overflows only after very many switches, and a fixed-size stack that overflows is silent memory corruption; the bound is over executions of every length", "anchors": ["include/boost/coroutine2/detail/pull_control_block_cc.ipp:144-151", "include/boost/coroutine2/detail/push_control_block_cc.ipp:131-153", "include/boost/coroutine2/detail/pull_coroutine.hpp:82-87", "include/boost/coroutine2/detail/push_coroutine.hpp:86-92"]}
{"id": "C61", "title": "Assertions fail only on real errors, and never in a program that keeps to the rules", "statement": "Compiled with assertions, a program that keeps to the documented rules runs exactly as it does without. An assertion of the iterators fails only where the same call, compiled without assertions, has undefined behaviour before any other user code runs: an end iterator is incremented or assigned through, or an iterator is incremented whose object is not-a-coroutine, has ended, or has got no value yet. Incrementing or assigning through an end iterator, and incrementing an iterator whose object is not-a-coroutine or has ended, are always caught; using operator() itself on an ended coroutine is not. The assertion about the placement of the control block never fails, whatever the stack size, so it does not detect a stack that is too small.", "quantifier": "all programs, all reachable states, all calls, executions of any length; all stack contexts and function sizes", "why_tests_cant": "tests run programs that keep to the rules in one build type; that the two builds agree on all of them, and that no assertion condemns a legal call, is about all programs", "anchors": ["include/boost/coroutine2/detail/pull_coroutine.hpp:74-87", "include/boost/coroutine2/detail/pull_coroutine.hpp:185-198", "include/boost/coroutine2/detail/push_coroutine.hpp:86-92", "include/boost/coroutine2/detail/push_coroutine.hpp:169-175", "include/boost/coroutine2/detail/create_control_block.ipp:45"]}
{"id": "C62", "title": "coroutine<void> is coroutine<T> without the values", "statement": "Take any program the documentation gives a meaning and that never reads the values it transfers, and replace coroutine<T> and coroutine<T&> by coroutine<void>, dropping the arguments of operator(). The new program has a meaning too. Whenever user code runs in one of the two programs, the other gets to the same place in the same function with the same memory, the same coroutine objects and the same events in the same order, except for the transfers of values. They return together, are left by an exception together, and run for ever together, with the same memory and events. In particular validity of an object never depends on whether values are transferred.", "quantifier": "all programs with a meaning that do not read values; all reachable states; executions of any length, infinite ones included", "why_tests_cant": "the specialisations are separate copies of the code with differences of their own (stored value, two-step exit); tests exercise each on a few programs, the agreement is over all programs", "anchors": ["include/boost/coroutine2/coroutine.hpp:24-28", "include/boost/coroutine2/detail/pull_coroutine.hpp:249-289", "include/boost/coroutine2/detail/push_coroutine.hpp:195-234", "include/boost/coroutine2/detail/pull_control_block_cc.hpp:97-121", "include/boost/coroutine2/detail/push_control_block_cc.hpp:75-97"]}
{"id": "C63", "title": "A program can be run inside a coroutine, to any depth", "statement": "Take any program, and the program whose main creates a coroutine that does what the first one does. The second has a meaning iff the first has. Every state of the first has a counterpart in the second: the same code at the same place one coroutine higher, the same memory, coroutine objects and events; and the other way round whenever code of the first program runs. They return together with the same memory and events, the wrapping coroutine being entered first and finishing last. An exception that leaves main of the first leaves the coroutine-function of the second, is thrown by the constructor in main, and leaves main. They run for ever together. By repetition this holds for d coroutines, one inside the other, for every d: nothing depends on being called from main.", "quantifier": "all programs with a meaning; all reachable states; executions of any length; every depth d", "why_tests_cant": "nesting depth and program are unbounded; tests nest two or three coroutines in one particular program", "anchors": ["include/boost/coroutine2/detail/pull_control_block_cc.ipp: pull_coroutine<void>::control_block::control_block, resume, destroy", "include/boost/coroutine2/detail/push_control_block_cc.ipp: push_coroutine<T>::control_block::resume", "include/boost/coroutine2/detail/pull_coroutine.ipp: constructors", "doc/asymmetric.qbk:15-60", "test/test_coroutine.cpp:590-648"]}
{"id": "C64", "title": "What is declared noexcept does not throw", "statement": "While a call to get(), operator bool, operator!, a move constructor, a move assignment, a destructor, an iterator constructor or the pull iterator's operator* is in progress, no exception propagates in the caller's context: neither one of the user's, although a destructor switches to another stack and unwinds it, nor forced_unwind, although the caller may itself be a coroutine. When the call is over it has returned to its caller. All of these but destructors return without giving up control. A context inside the destructor of a coroutine object, however the destructor came to run (called, end of scope, return, unwinding, inside a constructor), is never unwound.", "quantifier": "all programs, whether they keep the rules or not; all reachable states; executions of any length", "why_tests_cant": "the tests never destroy a coroutine whose stack is being unwound while its owner is itself suspended or unwound; a violation ends the process by std::terminate in one particular interleaving", "anchors": ["include/boost/coroutine2/detail/pull_coroutine.hpp:50-68, 99-130", "include/boost/coroutine2/detail/push_coroutine.hpp:48-67, 80-108", "include/boost/coroutine2/detail/pull_control_block_cc.ipp: destroy, deallocate, get, valid", "include/boost/coroutine2/detail/push_control_block_cc.ipp: destroy, deallocate, valid"]}
{"id": "C65", "title": "A coroutine recurses on its own stack, to any depth", "statement": "The example segmented.cpp, with any depth n of the recursion in place of 384 and any text printed before: the program ends, having printed the first lines, then 'n. iteration' down to '1. iteration', then 'main: done'; the coroutine's function has been entered once and has returned. In every reachable state the calls that have not returned are all on the coroutine's stack, none on main's, and there are at most n+1 of them; there is a reachable state in which there are n+1 of them, so the stack given by the stack allocator has to hold n+1 activations of bar.", "quantifier": "all integers n (negative too), all first lines, all reachable states", "why_tests_cant": "the example runs one depth, and its output does not show on which stack the calls were", "anchors": ["example/segmented.cpp:14-48", "include/boost/coroutine2/detail/pull_control_block_cc.ipp: constructor"]}
{"id": "C66", "title": "Control is passed like calls and returns", "statement": "In a program that keeps the rules, the transfers of control that have happened, over all coroutines together, are in the order of calls and returns: control enters a coroutine that is not waiting for anybody (through the object that owns it, or because it is destroyed), the one that ran waits, and whatever leaves the coroutine (a yield, the end of its function, an exception, the end of unwinding) gives control to the one that entered it last. Main is at the bottom, nobody waits twice, the context on top is the one that runs. When main runs, coroutines have been left as often as entered. In any program a step transfers control once if the running context changes and not at all if it does not. Without the rules this is false (a function that yields in the name of another coroutine).", "quantifier": "all programs, all reachable states, executions of any length, any number and nesting of coroutines", "why_tests_cant": "the tests nest coroutines two deep at most and do not observe who runs after an exception or unwinding in the middle of a nest", "anchors": ["include/boost/coroutine2/detail/pull_control_block_cc.ipp: resume, constructor, destroy", "include/boost/coroutine2/detail/push_control_block_cc.ipp: resume, constructor, destroy", "doc/asymmetric.qbk:50-60, 217-219, 260-274"]}
{"id": "C67", "title": "The library switches contexts no more often than necessary", "statement": "For every program that has a meaning, the library transfers control exactly as often as the specification of asymmetric coroutines does, at corresponding states; the number is the number of transfers in the history. In the benchmark performance.cpp, with any number of jobs, control is transferred exactly 2*jobs times between the two readings of the clock, which is what the benchmark divides by; the benchmark ends, and the endless function it runs has been entered once and has neither returned nor thrown.", "quantifier": "all programs with a meaning, runs of any length; all numbers of jobs", "why_tests_cant": "the tests do not count context switches; the benchmark assumes the number", "anchors": ["performance/performance.cpp:23-41, 83-90", "include/boost/coroutine2/detail/pull_control_block_cc.ipp: resume", "include/boost/coroutine2/detail/push_control_block_cc.ipp: resume"]}
{"id": "C68", "title": "Which constructor, assignment and operator() a call means", "statement": "Overload resolution picks, for an argument of any type and value category: the move constructor for an expiring (non-const rvalue) object of the coroutine class or of a class derived from it; the deleted copy constructor (ill-formed) for any other object of these classes; the private constructor for a pointer to the control block, so that making the counterpart object inside the library never starts another coroutine, and users cannot call it; the constructor that starts a coroutine for everything else, and only in direct initialisation: no implicit conversion ever starts a coroutine, a function cannot be assigned. Pushing an expiring object moves from it, pushing any other copies it, pushing something convertible moves from the converted temporary; to a push_coroutine<T&> only a non-const object with a name can be pushed. Without disable_overload a coroutine object that has a name, and every object of a derived class, would be taken for the function.", "quantifier": "all classes (pull/push, every value type), all argument types with any base classes and conversions, const or not, lvalue or rvalue", "why_tests_cant": "the tests move coroutine objects and pass functions, but never a derived class, a const object, a convertible object; a wrong choice is a matter of compilation, not of a run", "anchors": ["include/boost/coroutine2/detail/disable_overload.hpp:24-25", "include/boost/coroutine2/detail/pull_coroutine.hpp:37-60, 148-171, 259-280", "include/boost/coroutine2/detail/push_coroutine.hpp:37-63, 122-146, 205-227", "include/boost/coroutine2/detail/pull_control_block_cc.ipp:53, 82", "include/boost/coroutine2/detail/push_control_block_cc.ipp:52, 83"]}
{"id": "C69", "title": "What a generator yields does not depend on its consumer", "statement": "The function of a pull coroutine that only uses its own variables and pushes through its argument yields, in every program, exactly the values it yields when it is run on its own as a plain sequential program, in the same order, up to the point it has been driven to; if it comes to its end, it ends the way it ends on its own (return, or the same exception). Who resumes it, when, how often, from which function, what happens in between, how many other coroutines exist, and whether it is destroyed early makes no difference. Hence of two consumers of the same function one has seen a prefix of what the other one has seen.", "quantifier": "all programs that keep the rules, all generator functions (with scopes, calls, try blocks, exceptions, unbounded loops), all consumers, all points in time", "why_tests_cant": "a test resumes a generator in one particular pattern; the independence of the pattern is a statement about all of them", "anchors": ["include/boost/coroutine2/detail/push_control_block_cc.ipp:131-162", "include/boost/coroutine2/detail/pull_control_block_cc.ipp:43-112", "include/boost/coroutine2/detail/pull_control_block_cc.ipp:144-186", "include/boost/coroutine2/detail/push_coroutine.ipp:63-80", "doc/asymmetric.qbk:10-24, 50-60"]}
{"id": "C70", "title": "What the function of a push coroutine does depends only on the values pushed to it", "statement": "The function of a push coroutine that only uses its own variables and takes values through its argument (get() and calls, or begin(), ++ and * of iterators) goes, in every program, exactly the way it goes when it is run on its own as a plain sequential program to which the pushed values are given one after the other: it takes exactly the values pushed, in order, none lost, none twice; whenever it runs it is at the point it has reached on its own with the same scopes and calls open; if it comes to its end, it ends the way it ends on its own. Who pushes, when, from which function, by operator() or output iterator, what happens in between, how many other coroutines exist and whether it is destroyed early makes no difference. Hence if two producers push the same values, the function ends in the same way and after the same number of values.", "quantifier": "all programs that keep the rules, all consumer functions (with scopes, calls, try blocks, exceptions, unbounded loops), all producers, all value sequences, all points in time", "why_tests_cant": "a test pushes in one particular pattern; the independence of the pattern and of everything else in the program is a statement about all of them", "anchors": ["include/boost/coroutine2/detail/push_control_block_cc.ipp:43-154", "include/boost/coroutine2/detail/pull_control_block_cc.ipp:144-186", "include/boost/coroutine2/detail/pull_coroutine.ipp:74-100", "include/boost/coroutine2/detail/pull_coroutine.hpp:70-135", "include/boost/coroutine2/detail/push_coroutine.ipp:63-80", "doc/asymmetric.qbk:62-76"]}
{"id": "C71", "title": "Quasi parallelism: a round-robin scheduler over any number of coroutines", "statement": "A main function makes a pull coroutine for every task of a list, then reads one value of each in turn (begin(), *it, ++it), destroying the coroutine of a task that has ended, until none is left. For every list of tasks (functions that hand over values, call other functions that do so, and have local objects) this program comes to its end without undefined behaviour and without an exception, and what it has read is the first value of every task that has one, in the order of the tasks, then the second value of every task that has two, and so on. Nothing a task says is lost or read twice.", "quantifier": "all lists of tasks of any length, all tasks, all value types", "why_tests_cant": "a test schedules a few tasks; that every task goes on where it was left, in whatever function it was, however many others were resumed, made or destroyed in between is a statement about unboundedly many", "anchors": ["include/boost/coroutine2/detail/pull_coroutine.ipp:43-90", "include/boost/coroutine2/detail/pull_coroutine.hpp:70-135", "include/boost/coroutine2/detail/pull_control_block_cc.ipp:70-221", "include/boost/coroutine2/detail/push_coroutine.ipp:63-68", "doc/intro.qbk:45-46"]}
{"id": "C72", "title": "What a task hands over does not depend on the order in which the tasks are resumed", "statement": "A main function makes a pull coroutine for every task of a list, then gives them turns according to any plan (a list of task numbers), reading one value per turn, and then destroys all coroutines, also those that are suspended in the middle of a function called by their function. Whatever the tasks and the plan are, the program comes to its end without undefined behaviour and without an exception, the values are read in the order of the plan, and a task that was given n turns has handed over exactly the first n values it hands over when it runs on its own, or all if it has fewer. This depends neither on the other tasks nor on their turns.", "quantifier": "all lists of tasks, all plans of any length, all value types", "why_tests_cant": "a test runs one plan; independence of the plan is a statement about all of them", "anchors": ["include/boost/coroutine2/detail/pull_coroutine.ipp:43-90", "include/boost/coroutine2/detail/pull_coroutine.hpp:70-135", "include/boost/coroutine2/detail/pull_control_block_cc.ipp:70-221", "include/boost/coroutine2/detail/push_coroutine.ipp:63-68", "doc/intro.qbk:45-46"]}
{"id": "C73", "title": "A task that fails does not disturb the others", "statement": "A main function makes a pull coroutine for every task of a list, gives them turns according to any plan, and destroys all coroutines; tasks may throw at any place, also in a function they have called and with local objects alive. Main catches what comes out of a constructor and out of ++it, and notes it. Whatever the tasks and the plan are, the program comes to its end without undefined behaviour and without an exception leaving main. What is noted about a task that was given n turns are the first n values it hands over when it runs on its own and, if it has no more than n, the exception it ends with, once, and nothing after it. This depends neither on the other tasks, nor on whether they fail, nor on their turns.", "quantifier": "all lists of tasks, all plans of any length, all value and exception types", "why_tests_cant": "a test makes a few tasks fail at a few places; that a failure anywhere leaves every other coroutine untouched is a statement about all tasks and plans", "anchors": ["include/boost/coroutine2/detail/pull_coroutine.ipp:43-90", "include/boost/coroutine2/detail/pull_coroutine.hpp:70-135", "include/boost/coroutine2/detail/pull_control_block_cc.ipp:70-221", "doc/asymmetric.qbk:233-237"]}
{"id": "C74", "title": "An event loop over push coroutines is an event loop over callbacks", "statement": "A main function makes a push coroutine for every handler of a list, then gives each event of a list to the handler it is for if the coroutine of that handler still tests true, catches and notes what a handler throws, and at last destroys all coroutines. A handler is a function that asks for one event after the other; between two events it may go on, call a function that asks for the next event with a local object alive (so its call stack may become arbitrarily deep), return, or throw. Whatever the handlers and the events are, the program comes to its end without undefined behaviour and without an exception leaving main, and what it has noted is exactly what an event loop notes that calls callbacks and keeps the state of each handler in a table. What is noted about one handler depends only on its first state and on the events for it, not on the other handlers or on how the events lie among each other; an event for a handler that has returned or thrown does not reach it.", "quantifier": "all handlers (any state type, any reaction function), any number of them, all lists of events, all value and exception types", "why_tests_cant": "a test runs a few handlers on a few event lists; that the inversion of control loses, repeats or misdirects no event is a statement about all of them", "anchors": ["include/boost/coroutine2/detail/push_coroutine.ipp:37-80", "include/boost/coroutine2/detail/push_control_block_cc.ipp:70-212", "include/boost/coroutine2/detail/pull_coroutine.ipp:74-96", "doc/motivation.qbk:17-75", "doc/asymmetric.qbk:122-128"]}
{"id": "C75", "title": "Sessions that are opened, served, moved and closed at any time", "statement": "A main function runs any list of commands: make a push coroutine (a session), give a session an event if it has not ended, move the coroutine object of a session to another address, destroy the coroutine of a session; at last it destroys all that are left. A session asks for one event after the other and may in between call functions that hold a local object whose destructor writes to memory, return, or throw. Whatever the sessions and the commands are, the program comes to its end without undefined behaviour and without an exception leaving main, and the notes taken by main, by the sessions and by the destructors are exactly those of a program that calls callbacks and keeps the states of the sessions and the objects they hold in a table. What is noted about a session depends only on its first state and the commands for it; every session releases each object it has constructed exactly once, in reverse order, at the moment it returns, throws or is destroyed; leaving out any of the moves changes nothing.", "quantifier": "all sessions (any state type, any reaction function), all lists of commands of any length, all value and exception types", "why_tests_cant": "a test tries a few interleavings of construction, use, move and destruction; that none of them disturbs another coroutine or misses a destructor is a statement about all of them", "anchors": ["include/boost/coroutine2/detail/push_coroutine.ipp:37-80", "include/boost/coroutine2/detail/push_control_block_cc.ipp:33-212", "include/boost/coroutine2/detail/pull_coroutine.ipp:74-96", "doc/motivation.qbk:17-75", "doc/asymmetric.qbk:260-274"]}
{"id": "C76", "title": "Cursors that are opened, advanced, moved, exchanged and closed at any time", "statement": "A main function runs any list of commands: make a pull coroutine (a cursor) over a function that hands over values, calls functions that do so too, holds local objects, returns or throws; read the next value of a cursor through an iterator; move the coroutine object of a cursor to another address; assign one cursor to another by move assignment; destroy a cursor; at last it destroys all that are left. Whatever the functions and the commands are, the program comes to its end without undefined behaviour and without an exception leaving main, and the values and exceptions noted are exactly those of a program that keeps, in a table, the list of the values to come of each cursor and the exception after them; move assignment exchanges two entries of the table. What is noted about a cursor that takes no part in an assignment depends only on its function and on how often it is advanced before it is closed; leaving out any of the moves changes nothing; the same assignment done twice, also of a cursor to itself, changes nothing.", "quantifier": "all functions of the cursors, all lists of commands of any length, all value and exception types", "why_tests_cant": "a test tries a few interleavings of construction, use, move, assignment and destruction; that none of them loses a value or disturbs another coroutine is a statement about all of them", "anchors": ["include/boost/coroutine2/detail/pull_coroutine.ipp:43-96", "include/boost/coroutine2/detail/pull_coroutine.hpp:57-60", "include/boost/coroutine2/detail/pull_coroutine.hpp:66-140", "include/boost/coroutine2/detail/pull_control_block_cc.ipp:33-200", "doc/asymmetric.qbk:16-80", "doc/asymmetric.qbk:233-237"]}
