import Verif.Code
import Verif.SpecCo

/-!
# The library's own test suite, run on the model

Validation of the model, not proofs of properties: every function of test/test_coroutine.cpp (except `test_bind`, which makes the same calls as `test_complete`, the callables of
`test_move`, see C46, and `test_output_iterator`, see C50) as a program, run on the model with both variants of the final jump, and on the specification machine of C55.  The first component of memory
is the global `value1`; each `BOOST_CHECK` appends the value it checks to the second.  Strings, pointers and tuples are numbers.  Nothing
here models library code.
-/
namespace Verif.Test
open Code

abbrev C := Code (Nat × List Nat) Nat Nat

/-- `~X() { value1 = 0; }` (test_coroutine.cpp:36); a `moved-from` value is 0 (test_coroutine.cpp:104-106) -/
abbrev P (generic : Bool) : Prog C (Nat × List Nat) Nat Nat := prog (fun _ => 0) generic (fun _ g => (0, g.2))

/-- the program ends normally after at most 400 steps, having checked `xs`; on the specification machine (SpecCo.lean), too -/
def ok (c : C) (xs : List Nat) : Bool :=
  [true, false].all fun gen => match run (P gen) 400 (init c (0, [])) with
    | .done s => s.g.2 == xs && (match Coro.run (P gen) 400 (Coro.init c (0, [])) with | .done a => a.g.2 == xs | _ => false)
    | _ => false

/-- `BOOST_CHECK_EQUAL( …, n)` -/
def note (n : Nat) (l : C) : C := write (fun g => (g.1, g.2 ++ [n])) l
/-- `BOOST_CHECK_EQUAL( …, value1)` -/
def note1 (l : C) : C := write (fun g => (g.1, g.2 ++ [g.1])) l
/-- `value1 = n` -/
def set1 (n : Nat) (l : C) : C := write (fun g => (n, g.2)) l
/-- `++value1` -/
def inc1 (l : C) : C := write (fun g => (g.1 + 1, g.2)) l
/-- `BOOST_CHECK( coro)` -/
def chk (h : Nat) (l : C) : C := op (.valid h) fun | .bool true => note 1 l | _ => note 0 l
/-- `BOOST_CHECK( ! coro)` -/
def chkNot (h : Nat) (l : C) : C := op (.bang h) fun | .bool true => note 1 l | _ => note 0 l
/-- `X x;` (test_coroutine.cpp:35) -/
def newX (l : C) : C := obj 0 (set1 7 l)
/-- a local coroutine object -/
def local_ (kd : Kind) (va : Var) (fn : Nat → C) (k : Nat → C) : C := mk kd va fn fun h => guard h (k h)
/-- `c()` on a `push_coroutine< void >` -/
def yield (h : Nat) (l : C) : C := op (.push h .unit) fun _ => l
/-- `while ( c) body`, at most `n` rounds -/
def whileV : Nat → Nat → (C → C) → C → C
  | 0, _, _, _ => throw 99
  | n + 1, h, body, l => op (.valid h) fun | .bool true => body (whileV n h body l) | _ => l
/-- `for ( auto i : coro) body` (from the iterator on), at most `n` rounds -/
def forIt : Nat → Option Nat → (Nat → C → C) → C → C
  | 0, _, _, _ => throw 99
  | _, none, _, l => l
  | n + 1, some i, body, l => op (.itDeref (some i)) fun
    | .val v => body v (op (.itNext (some i)) fun | .it j => forIt n j body l | _ => throw 98)
    | _ => throw 97
def forRange (n h : Nat) (body : Nat → C → C) (l : C) : C := op (.itBegin h) fun | .it i => forIt n i body l | _ => throw 98

/-- test_coroutine.cpp:126-127 -/
def f2 : Nat → C := fun _ => inc1 ret
/-- test_coroutine.cpp:129-134 -/
def f3 : Nat → C := fun c => inc1 (yield c (inc1 ret))
/-- test_coroutine.cpp:136-140 -/
def f4 : Nat → C := fun c => push c 3 (push c 7 ret)
/-- test_coroutine.cpp:150-151, 153-154, 166-167, 172-176, 228-232 -/
def f6 : Nat → C := fun c => get c fun v => set1 v ret
/-- test_coroutine.cpp:156-164, with numbers and `x + y` computed by the sender -/
def f8 : Nat → C := fun c => get c fun v => set1 v (resume c (get c fun v => set1 v ret))
/-- test_coroutine.cpp:189-195 -/
def f12 : Nat → C := fun c => set1 7 (newX (resume c (resume c (leave ret))))
/-- test_coroutine.cpp:197-204 -/
def f16 : Nat → C := fun c => pushAll c [1, 2, 3, 4, 5] ret
/-- test_coroutine.cpp:216-217 -/
def f20 : Nat → C := fun _ => ret
/-- test_coroutine.cpp:219-226 -/
def f21 : Nat → C := fun c => whileV 20 c (fun l => get c fun v => set1 v (resume c l)) ret

/-- test_coroutine.cpp:236-250 -/
def move1 : C := local_ .pull .val f20 fun c1 => local_ .pull .val f16 fun c2 => chkNot c1 (chk c2 (get c2 fun v => note v (resume c2 (get c2 fun v =>
  note v (op (.moveAssign c1 c2) fun _ => chk c1 (chkNot c2 (resume c1 (get c1 fun v => note v (chkNot c2 (leave (leave ret)))))))))))
example : ok move1 [1, 1, 1, 2, 1, 1, 3, 1] = true := by decide +kernel

/-- test_coroutine.cpp:272-281: `coro( std::move( mv) )`, then `mv.i`; f22 is f6 -/
def move2 : C := local_ .push .val f6 fun h => op (.push h (.move 7)) fun | .val v => note1 (note v (leave ret)) | _ => throw 96
example : ok move2 [7, 0] = true := by decide +kernel

/-- test_coroutine.cpp:284-291 -/
def complete : C := local_ .pull .void f2 fun h => chkNot h (note1 (leave ret))
example : ok complete [1, 1] = true := by decide +kernel

/-- test_coroutine.cpp:302-312 -/
def jump : C := local_ .pull .void f3 fun h => chk h (note1 (resume h (chkNot h (note1 (leave ret)))))
example : ok jump [1, 1, 1, 2] = true := by decide +kernel

/-- test_coroutine.cpp:314-326; 328-340 is the same with strings -/
def resultInt : C := local_ .pull .val f4 fun h => chk h (get h fun v => chk h (note v (resume h (get h fun v =>
  chk h (note v (resume h (chkNot h (leave ret))))))))
example : ok resultInt [1, 1, 3, 1, 7, 1] = true := by decide +kernel

/-- test_coroutine.cpp:342-351; 353-362, 380-390, 392-402, 435-450 are the same with other types -/
def argInt : C := local_ .push .val f6 fun h => chk h (push h 3 (chkNot h (note1 (leave ret))))
example : ok argInt [1, 1, 3] = true := by decide +kernel

/-- test_coroutine.cpp:364-378 -/
def fp : C := local_ .push .val f8 fun h => chk h (push h 1049 (chk h (note1 (set1 0 (push h 429 (chkNot h (note1 (leave ret))))))))
example : ok fp [1, 1, 1049, 1, 429] = true := by decide +kernel

/-- test_coroutine.cpp:404-415; 417-427 is the same with `const` -/
def ref : C := local_ .push .ref f6 fun h => chk h (push h 3 (chkNot h (note1 (leave ret))))
example : ok ref [1, 1, 3] = true := by decide +kernel

/-- test_coroutine.cpp:429-433 -/
def noResult : C := local_ .pull .val f20 fun h => chkNot h (leave ret)
example : ok noResult [1] = true := by decide +kernel

/-- test_coroutine.cpp:454-465 -/
def unwind1 : C := local_ .push .void f12 fun h => chk h (note1 (yield h (chk h (note1 (yield h (note1 (leave (note1 ret))))))))
example : ok unwind1 [1, 0, 1, 7, 7, 0] = true := by decide +kernel

/-- test_coroutine.cpp:466-472: never called -/
def unwind2 : C := local_ .push .void (fun _ => set1 9 ret) fun _ => leave (note1 ret)
example : ok unwind2 [0] = true := by decide +kernel

/-- test_coroutine.cpp:473-483 -/
def unwind3 : C := note1 (mk .pull .void (fun c => newX (yield c (leave ret))) fun h => note1 (op (.destroy h) fun _ => note1 ret))
example : ok unwind3 [0, 7, 0] = true := by decide +kernel

/-- test_coroutine.cpp:484-495 -/
def unwind4 : C := note1 (mk .push .void (fun c => newX (resume c (leave ret))) fun h => yield h (note1 (op (.destroy h) fun _ => note1 ret)))
example : ok unwind4 [0, 7, 0] = true := by decide +kernel

/-- test_coroutine.cpp:498-516 -/
def exceptions : C := tryc (fun e => note e ret)
  (local_ .push .void (fun _ => throw 42) fun h => chk h (yield h (chkNot h (note 0 (leave (endTry ret))))))
example : ok exceptions [1, 42] = true := by decide +kernel

/-- test_coroutine.cpp:520-534, 535-546 -/
def input1 : C := local_ .pull .val f16 fun h => forRange 20 h (fun v l => note v l) (leave ret)
example : ok input1 [1, 2, 3, 4, 5] = true := by decide +kernel

/-- test_coroutine.cpp:547-573 -/
def input2 : C := local_ .pull .ref (fun c => pushAll c [11, 12, 13] ret) fun h => forRange 20 h (fun v l => note v l) (leave ret)
example : ok input2 [11, 12, 13] = true := by decide +kernel

/-- `f21` (test_coroutine.cpp:219-226), which no test uses: fed with 3, 4, then destroyed -/
def loopIn : C := local_ .push .val f21 fun h => push h 3 (note1 (push h 4 (note1 (chk h (leave (note1 ret))))))
example : ok loopIn [3, 4, 1, 4] = true := by decide +kernel

/-- test_coroutine.cpp:605-647.  The parent coroutine creates the child, main resumes it.  The child is never deleted. -/
def chaining : C :=
  local_ .pull .void (fun y => note 1 (mk .pull .void (fun y => note 2 (yield y (note 2 (yield y (note 2 (yield y (note 2 (yield y (note 2
    (yield y (note 2 ret))))))))))) fun child => set1 child (yield y (note 1 ret)))) fun _ =>
  read fun g => whileV 20 g.1 (fun l => resume g.1 l) (leave ret)
example : ok chaining [1, 2, 2, 2, 2, 2, 2] = true := by decide +kernel

end Verif.Test
