# Formal model of boostorg/coroutine2 in Lean 4

`properties.jsonl` lists the properties in English, `MANIFEST.json` says which theorems settle each, `lean/Verif` is the model and the
proofs, `seeded/LOG.jsonl` records deliberate errors put into copies of the model and which theorems noticed them.

In that log `theorems_failed` are statements from which `False` was derived in the edited copy (there all proofs are replaced by `sorry`, so that
only the statements count); other theorems may fail too, they were not tried.  `proofs_broken`, present for some entries only, are the first lemmas that
stop compiling when the real proofs are rebuilt up to `Rel2.lean` (an empty list: none up to there); entries without it were not rebuilt in this way.  Earlier versions of the log
claimed of every edit of `Machine.lean` that `step_rel` stops compiling; that had not been measured and is withdrawn.

## 1. What is modelled

`/repo` is a header-only library; its run-time logic is in `include/boost/coroutine2/detail/`.

| file in /repo | model |
|---|---|
| `detail/pull_control_block_cc.{hpp,ipp}`, `detail/push_control_block_cc.{hpp,ipp}` (all three specialisations `T`, `T&`, `void`; both the generic-lambda and the `wrap()` variant of the entry function) | `Machine.lean` |
| `detail/pull_coroutine.{hpp,ipp}`, `detail/push_coroutine.{hpp,ipp}`: constructors, destructor, move, `operator()`, `operator bool`, `operator!`, `get`, input and output iterators, `begin`/`end` | `Machine.lean` (`apiStep` and the functions it calls) |
| `detail/create_control_block.ipp` | failure behaviour in `Machine.lean` (`mkOp`), address arithmetic in `Alloc.lean` |
| `detail/wrap.hpp`, `detail/decay_copy.hpp`, `detail/disable_overload.hpp` | adapt types; `wrap` is covered by the machine's compile-time switch (C43) and by `Callable.lean`, `disable_overload` by `Overload.lean` (C68) |
| `boost::context::detail::forced_unwind` (Boost.Context, thrown by `~fiber`) | `Exn.forced` |
| `detail/state.hpp` | `Flags.lean` (32-bit words) |
| layout of `struct control_block` | `Alloc.lean` |
| `example/same_fringe.cpp`, `example/parser.cpp`, `example/fibonacci.cpp`, `example/layout.cpp`, `example/segmented.cpp`, `performance/performance.cpp` | `ExFringe.lean`, `ExParser.lean`, `ExFib.lean`, `ExLayout.lean`, `ExSegm.lean`, `ExPerf.lean`: programs of the machine |
| `doc/asymmetric.qbk` (push examples, lines 200-210, 356-365), `test/test_coroutine.cpp` (`test_output_iterator`, 576-603) | `ExDoc.lean`, `ExOutIt.lean`: programs of the machine |

The model is a small-step abstract machine (`Machine.lean`), a total computable function `step`:

* every execution context (main is 0, coroutine `k` has context `k`) has a stack of frames and a *base*: the library lambda at the bottom of
  a coroutine's stack, with its program counter;
* both control blocks of a coroutine - the owner's `⟨k, .own⟩` and the one of the counterpart the function is given, `⟨k, .syn⟩` - are records
  with the fields of the C++ structs (`other`, `state`, `except`, `bvalid`, `storage`) and a lifetime (`unborn`, `alive`, `dead`, `freed`).
  The `c` members (`boost::context::fiber`) of all blocks live in one map `fib`, so that ownership of continuations is visible;
* coroutine objects are records `{type, T, cb_}` at addresses chosen by a counter;
* user code (main and every coroutine-function) is an arbitrary coalgebra `code : L → G → Act`, for arbitrary types `L` (program points
  with local data) and `G` (shared memory).  It covers every deterministic program: infinite loops, recursion (`call`/`ret`), RAII locals,
  `try`/`catch`, `throw`, heap and local coroutine objects, any number of coroutines, and calls of any API function from any context on
  any object;
* undefined behaviour is an explicit outcome `Out.ub reason`, never assumed away; `Out.ill` marks calls that do not compile in C++;
  `Out.imp` marks situations that cannot occur (proved unreachable);
* every observable happening (control transfer, construction and destruction of values, callables, stacks, local objects, entry to and end of
  a function, exception) appends an event to the history `log`.

The specifications (`Spec*.lean`) speak about the history, about calls (`Calls`, `CallRuns`, `Returned`, `Threw`) and about objects
(`Refers`, `Owns`), not about the machinery of the proofs.  `Rules.lean` states what the documentation demands of a program (`Rules`);
`ReachOk`/`Obeys` are reachability under these rules.

## 2. How it is proved

`Rel.lean`/`Rel2.lean` give an exact relational description of `step` (`step_rel`); `Core.lean`, `Preserve*.lean` prove the main invariant `Inv`
(scheduling: each continuation is held in exactly one place and waits where its frames say; control blocks; objects) by induction over
all executions of all programs.  Further invariants on top of it: `LifeInv` (stack, callable, entry/end of the function),
`JumpInv`/`HeldInv`/`BackInv` (history of transfers), `SlotInv`/`OwnerInv`/`TransferInv`/`SetThrowInv` (transferred values),
`ObjInv`/`Shape` (local objects and stacks), `Disc` (programs that follow the rules).  `Unwind.lean`/`Destroy.lean` prove by induction on the
sizes of the stacks that destroying a coroutine runs to its end.  `Produce.lean` proves that a coroutine-function that, run alone, pushes
`x1 … xn` delivers exactly these to its consumer.  `Consume.lean` is the counterpart for push coroutines: a function that, run alone, takes a
value and asks for the next one (or ends) does the same when it is fed by its owner.

| id | status | how |
|----|---|-----|
| C01, C02, C03, C39 | proved | `enter`/`fin` events tied to the base of each context; runs of the constructor |
| C04, C05, C34, C35, C36, C37 | proved | transfer slot = replay of the history (`lastPushed`, `gotSince`) |
| C06, C22, C23, C24 | proved | history of transfers of one coroutine alternates; each continuation is held once; frames of a waiting context are untouched; a resuming call does transfer control (`C23_transfers`) |
| C07, C42 | proved | range-for over any producer: induction on the produced list; laziness, for infinite producers too |
| C08, C09, C10, C28 | proved | `operator bool` = object not empty and no `fin` event |
| C11, C12 | proved | exception of the function reaches the caller that resumed it, once |
| C13, C14, C38, C45 | proved | unwinding terminates, destroys the locals in LIFO order, nested coroutines too and no others, then returns |
| C15, C18 | proved | life cycle invariant; state and history agree (`C15_status`, `C18_status`) |
| C16, C46 | partial, refuted | leak when copying the callable throws (`C16_refuted`, `C46_copy_fails_leaks`); everything else proved |
| C17 | partial, refuted | throwing copy of a pushed value: double destruction (`C17_refuted_*`); proved if no copy throws while a value is held (exactly the missing case: C59) |
| C19, C21 | proved | step theorems on moves; sequences of moves |
| C20 | partial, refuted | move assignment swaps, it does not destroy the target's coroutine |
| C25 | proved | frame theorem: only what is reachable from the running coroutine changes |
| C26 | proved | pull iterators |
| C27 | partial, refuted | push `begin()` is never `end()`; stale copies; `++` that throws |
| C29 | proved | 64-bit arithmetic; `C29_too_small`: the size is not checked by the code |
| C30 | partial, refuted | storage misaligned for `alignof(T) > 64` |
| C31 | proved | `BitVec`; and the flags of the control blocks in every reachable state (`C31_machine`) |
| C32 | proved | no undefined behaviour for programs that follow the rules |
| C33 | proved | breaking a rule is undefined behaviour, call by call |
| C40 | partial, refuted | same_fringe: three-iterator `std::equal` gives wrong answers or reads behind the end for fringes of different lengths |
| C41 | partial, refuted | parser: `P → E '\0'` is not enforced |
| C43 | partial, refuted | both variants of the final jump have the same runs; but see C53 |
| C47, C48 | proved | fibonacci, layout: outputs for every parameter; layout with 0 columns does not end |
| C49, C50 | proved | feeding a push coroutine by calls or through its iterator; a consumer that stops by itself |
| C51, C52 | proved | memory after any library step is determined by the destructors run; their order follows the scopes, nested coroutines included (`Order` in `Unwind.lean`, `Teardown` in `SpecObj.lean`) |
| C53 | partial, refuted | `Callable.lean`: value categories; in C++11 an object given by its name is moved from |
| C54 | partial, refuted | documented preconditions of `pull_type` do not suffice for `operator()`; `get()` never throws `invalid_result` |
| C55 | proved | refinement: the library model and the specification machine `SpecCo.lean` simulate each other (below) |
| C56 | proved | a potential (`work`, `Work.lean`): every library step lowers it, a step of user code adds at most 12 |
| C57 | proved | A chain of coroutines of any length (`ExChain.lean`) ends as nested loops without coroutines do (`SpecChain.lean`): same memory, same exception. Proved on the specification machine by induction over the stages and a well-founded order on what they still have to pass on, transferred to the library by C55. |
| C58 | proved | The same with push coroutines after the loop (stages and a writer with a local object): nested loops, writer innermost (`written`, `flush` in `SpecChain.lean`). Stages can be moved from one side of the loop to the other. Proved by induction over the push coroutines (`OutRun.lean`), construction, loop and destruction in `ChainEnd.lean`. |
| C59 | proved | A copy that throws while a value is stored spoils the coroutine for good: every later `get()`, iterator, push and the destruction are undefined, its stack is never returned; and nothing else has this effect. `spoiled` (history only) in `SpecValue.lean`, the invariant in `Spoil.lean`. |
| C60 | proved | The library's activation records on any stack are at most three, innermost, and gone when user code runs; a context that enters and leaves no block has the same stack however many switches it makes. Vocabulary in `SpecStack.lean`. |
| C61 | proved | With assertions on (`Assert.lean`), rule-keeping programs run exactly as without; a failing assertion marks a call that is undefined without assertions; which errors are caught and which are not. |
| C62 | proved | A meaningful program that never reads values and the same program with `coroutine<void>` (`dropValues`, `SpecErase.lean`) pass through the same states and end in the same way. |
| C63 | proved | A program run inside a coroutine (`Inside.prog`, `SpecInside.lean`), and to any depth of nesting, passes through the corresponding states and ends as it does in `main`. |
| C64 | proved | For every program: no exception, `forced_unwind` included, propagates in a context that is inside a function declared `noexcept`. |
| C65 | proved | `segmented.cpp` with any recursion depth: its output, and that at most (and at some time exactly) n+1 calls are open, all of them on the coroutine's stack. |
| C66 | proved | The transfers of control, over all coroutines, are in the order of calls and returns; balanced when main runs; refuted for programs that break the rules. |
| C67 | proved | The library switches exactly as often as the specification machine; `performance.cpp` switches exactly 2·jobs times while the clock runs. |
| C68 | proved | Overload resolution for constructors, assignment and `operator()`, by cases on the argument's type and value category; `disable_overload` is shown to be necessary. |
| C69 | proved | A sequential semantics of the generator on its own (`SpecGen.lean`); invariant on the specification machine, with a frame lemma for the steps of all others; carried over by C55. |
| C70 | proved | A sequential semantics of the consumer on its own, with the values as input (`SpecSink.lean`); invariant on the specification machine with the frame lemma of C69 (somebody else either leaves the coroutine alone or pushes one value to it); carried over by C55. |
| C71 | proved | A scheduler over any number of coroutines (`ExRobin.lean`) executed with the lemmas of C40 (`Produce.lean`): what a coroutine has left to say (`Has`) is kept while others are made, run and destroyed. Specification: columns of a table (`SpecRobin.lean`). |
| C72 | proved | As C71 with an arbitrary plan (`ExServe.lean`); specification `serve` and, for one task alone, `take` (`SpecServe.lean`). |
| C73 | proved | As C72 with tasks that throw (`ExCrew.lean`): the scheduler catches at the constructor and at `++it`. Specification for one task alone: `report` (`SpecCrew.lean`). |
| C74 | proved | The push-side dual of C72/C73: an event loop whose handlers are push coroutines (`ExEvents.lean`). Specification: a loop over callbacks with a table of states (`dispatch`), and one handler alone (`account`), both in `SpecEvents.lean`. |
| C75 | proved | C74 with coroutines that are made, moved and destroyed at any time, and with destructors that write to memory (`ExSessions.lean`). Specification: a loop over callbacks with a table of states and held objects (`serve`), one session alone (`account`), and stack discipline (`Bracketed`), all in `SpecSessions.lean`. |
| C76 | proved | C73 with coroutines that are made, moved, assigned and destroyed at any time (`ExCursors.lean`). Specification: a table of the values to come (`serve`), and one cursor alone (`report`, `turns`), in `SpecCursors.lean` and `SpecCrew.lean`. |
| C44 | partial, refuted | pushing the value the coroutine holds destroys it before it is copied |

Properties that are false of the code are kept, refuted by a theorem with a concrete witness, and accompanied by a `_partial` theorem that says
what does hold.

C55 is the summary of the other properties.  `SpecCo.lean` is a second, independent machine: functions with stacks, a stack of active functions, one
value in transfer; no control blocks, fibers, flags or pointers.  It is stuck where the documentation forbids what the program does.
`SimCo.lean` … `SimTop.lean` prove that each step of the library model is one step of this machine, or one of at most two steps in a row that
change nothing (`Step.sim`), that the machine not being stuck implies the rules (`rules_of_notStuck`), and that programs end alike
(`out_match`).  From these: same events, same memory, same end, for all programs (`PropsRefine.lean`); `C55_exact` says that the machine is the
exact contract.  `Agree` also compares what the library holds: stacks, function objects and values exist exactly as long as the machine says.

`TestSuite.lean` runs the library's own tests on the model and on the specification machine (validation of both, not proofs): all checks come out as the tests expect.

## 3. Findings about the code

1. `control_block::destroy()` sets `state |= destroy` after calling its own destructor: a write to an object whose lifetime has ended
   (pull_control_block_cc.ipp:34-42, push_control_block_cc.ipp:33-41).  The test of that flag in the entry lambda is dead code (C39).
2. `create_control_block` allocates the stack before the callable is copied into it; if that copy throws the stack is never returned (C46).
3. `set()` destroys the old value before it constructs the new one and leaves `bvalid` set if that throws (C17); the argument may be the old
   value itself (C44).
4. Move assignment swaps (C20), contrary to the documentation.
5. Iterators: C27.  `T get()` moves the value out, a second `get()` returns a moved-from value (C34_moved_out).
6. No check that the control block fits on the stack (C29_too_small), alignment is at most 64 (C30).
7. Examples: same_fringe compares with the three-iterator `std::equal` (C40); parser accepts `1)` (C41), cannot tell EOF from the byte 0xFF,
   and passes negative `char`s to `isspace`/`isdigit`.
   layout prints the line break of a full line only when the next word arrives, the last one (`FinalEOL`) comes after "Done"; its
   `if ( ! in) return` is never taken; with 0 columns it prints line breaks forever (C48).
8. `std::copy` into a push coroutine whose function returns before the last value is undefined behaviour (C50_overrun).
9. `wrapper( Fn1 &&, Fn2 && fn2) : fn2_( std::move( fn2) )` (wrap.hpp:36-39, used if there are no generic lambdas): `Fn2` is a parameter of
   the class, so for an lvalue the constructor moves from the caller's function object (C53_refuted); even one that cannot be copied is accepted.
10. The documentation lets `operator()` be called on a completed pull coroutine (undefined) and says that `get()` throws (it does not): C54.
11. `has_result_()` (pull_coroutine.ipp:39, 108) uses a member `t` that does not exist; it is never instantiated.
12. The counterpart object of a coroutine can be used by another context; the library then works, but destroying coroutines may unwind the
   context that used it, even main (`C32_main_not_unwound` shows that this does not happen to programs that follow the rules).

## 4. Trusted base

* The kernel of Lean 4.33.0.
* Axioms: no theorem of the manifest depends on anything but `propext`, `Classical.choice`, `Quot.sound` (checked with `#print axioms`).
  Only on `propext`: C30_refuted, Teardown_unique, C68_object, C68_synthesized, C68_guard_needed, C68_guard_needed_derived.  On `propext` and `Quot.sound`: C16_refuted, C17_refuted_throwing_copy, C17_refuted_read, C20_refuted,
  C21_same_effect, C27_refuted, C29_placed_plain, C30_misaligned, C31_set_flag, C31_other_bits, C31_distinct, C31_table,
  C33_not_a_coroutine_pull, C33_not_a_coroutine_push, C33_end_iterator, C44_refuted, Fib.C47_no_overflow, C55_ends_meaningful, C68_function, C68_push_ref, Robin.C71_all, and C53 except C53_refuted, which depends on no axiom.  All others of the manifest on all three.
* The reading of the C++ sources into `Machine.lean`, `Flags.lean`, `Alloc.lean`, `Callable.lean`, `Overload.lean`, and the example programs `Ex*.lean` (each definition
  cites file and lines).
* Boost.Context (not in `/repo`), assumed to behave as documented, marked `[ctx]` in the model: a `fiber` is a move-only one-shot
  continuation; `resume()` of an empty one is undefined; `resume()` switches and hands the suspended caller's fiber to the resumed side;
  `~fiber` of a non-empty fiber throws `forced_unwind` on top of the suspended context and returns when that context's entry function has
  caught it; when the function of a context ends, its stack goes back to the allocator, on the context it jumps to, which then sees an
  empty fiber.

## 5. Simplifications and what is not modelled

* The destructor of a user object has an arbitrary effect on memory (`Prog.dtor`), but it ends, does not throw, and calls no function of the
  library.  Destructors of coroutine objects are modelled in full.
* A handler `catch (...)`/`catch (forced_unwind const&)` runs no user code on `forced_unwind`: it rethrows, or swallows, which is undefined
  (`Out.ub absorbedUnwind`).
  A handler that cleans up and rethrows can be written as a local object whose destructor does the cleaning up.
* Assertions are off (`NDEBUG`) in the machine; `Assert.lean` runs the machine with assertions on (C61).
* Moving the callable from the fiber's record into the local `fn` does not throw (it happens inside the library's `try`: a move that throws is
  a function that throws at once).
* Moving the value out of `T get()` does not throw (were it to throw, `get()` being `noexcept`, the program would end).
* `*it = x` on a push iterator takes its argument by value, so it never is the stored object.
* User code holds object addresses as plain numbers, so model programs may also name objects they were never given; theorems cover them.
* Pointer arithmetic in `Alloc.lean` wraps modulo 2^64.
* `std::isspace`/`std::isdigit` answer "no" for bytes ≥ 0x80.
* Not modelled: register/ABI-level switching, threads, `std::uncaught_exceptions` bookkeeping, segmented stacks, stack overflow, the typedefs
  that select stack allocators (`fixedsize_stack.hpp`, `pooled_fixedsize_stack.hpp`, `protected_fixedsize_stack.hpp`,
  `segmented_stack.hpp`), clocks and processor binding in `performance/`.
