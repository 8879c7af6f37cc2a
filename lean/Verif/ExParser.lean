import Verif.SpecParser
import Verif.Machine

/-!
# The example `parser.cpp`, as a program of the model

The input is a parameter (the example parses "1+1", parser.cpp:101).  Memory: `Src` is what the coroutine-function works on (the stream and
the member `next` of `Parser`), `Mem` is what main has printed.
-/
namespace Verif.Parser

/-- `is` (what is left to be read, parser.cpp:32, 101) and `Parser::next` (31). -/
structure Src where
  next : Byte
  inp : List Byte

/-- `parser_error`, the only exception of the program (parser.cpp:16-21). -/
inductive Err
  | parser_error
  deriving DecidableEq

/-- A line written by main (parser.cpp:113, 115, 118). -/
inductive Line
  | parsed (c : Byte)
  | done
  | exception (e : Err)
  deriving DecidableEq

/-- What main has written and its return value (`some true` is EXIT_SUCCESS, parser.cpp:116, 120). -/
structure Mem where
  out : List Line := []
  exit : Option Bool := none

/-- `std::isspace` in the C locale (used in parser.cpp:43); bytes ≥ 0x80 are classified as "no".  (With a signed `char`, calling it for the
bytes 0x80…0xFE is undefined behaviour according to the C standard; common implementations answer "no".) -/
def isspace (c : Byte) : Bool := c == 32 || (9 ≤ c && c ≤ 13)

/-- `std::isdigit` (used in parser.cpp:76), bytes ≥ 0x80 as for `isspace`. -/
def isdigit (c : Byte) : Bool := 48 ≤ c && c ≤ 57

/-- `next=pull()` (parser.cpp:35-37, 41): the next byte; at the end of the stream `is.get()` is EOF, converted to the char 0xFF. -/
def Src.pull : Src → Src
  | ⟨_, []⟩ => ⟨255, []⟩
  | ⟨_, c :: r⟩ => ⟨c, r⟩

/-- Where the parser's callback `cb` (parser.cpp:33) goes: to the counterpart object `yield` of the coroutine (106-108), or, for the
comparison in C41, directly to the output. -/
inductive Cb
  | yield (h : Nat)
  | direct

/-- Program points of example/parser.cpp. -/
inductive Pt
  | lam (h : Nat)         -- the lambda passed to the constructor: `Parser p(is, …)` (104-108)
  | init (k : Cb)         -- the constructor of Parser: `next()` (47-49)
  | run (k : Cb)          -- `p.run()` (109, 51-52)
  | runE (k : Cb)         -- `E();` (53)
  | scan                  -- `next=pull();` (41)
  | scanTest              -- `while(isspace(next))` (43)
  | e (k : Cb)            -- `E()`: `T();` (57-58)
  | eLoop (k : Cb)        -- `while (next=='+'||next=='-') { cb(next);` (59-60)
  | eScan (k : Cb)        -- `scan();` (61)
  | eT (k : Cb)           -- `T();` (62)
  | t (k : Cb)            -- `T()`: `S();` (66-67)
  | tLoop (k : Cb)        -- `while (next=='*'||next=='/') { cb(next);` (68-69)
  | tScan (k : Cb)        -- `scan();` (70)
  | tS (k : Cb)           -- `S();` (71)
  | s (k : Cb)            -- `S()`: the three cases (75-81, 91-93)
  | sScan                 -- `scan();` at the end of S (78, 86)
  | sOpen (k : Cb)        -- `scan();` after '(' (82)
  | sE (k : Cb)           -- `E();` (83)
  | sClose (k : Cb)       -- `if (next==')') { cb(next);` … (84-88)
  | cb (k : Cb) (c : Byte)      -- the callback (106-108)
  | done                  -- a function returns
  | main                  -- `try {` (100)
  | mk                    -- `coro_t::pull_type seq(…)` (103)
  | scope (h : Nat)       -- `seq` is a local from here on (103-110)
  | begin_ (h : Nat)      -- `for(char c:seq)`: `begin(seq)` (112)
  | loop (it : Option Nat)      -- `it != end`, `c = *it` (112)
  | print (h : Nat) (c : Byte)  -- `printf("Parsed: %c\n",c);` (113)
  | next (h : Nat)        -- `++it` (112)
  | success               -- `std::cout << "\nDone"; return EXIT_SUCCESS;` (115-116)
  | caught (e : Err)      -- the handler, and `return EXIT_FAILURE` (117-120)
  | plain                 -- not in the example: main without a coroutine, for the comparison in C41
  | plainP                -- … `Parser p(is, …)`
  | stop                  -- end of main

variable {E : Type}

/-- A constructor gives an object (pull.ipp:43-59). -/
def onHandle (k : Nat → Pt) : Res Byte → Pt
  | .handle h => k h
  | _ => .stop
/-- `begin()` and `++` give an iterator (pull_coroutine.hpp:70-130). -/
def onIt (k : Option Nat → Pt) : Res Byte → Pt
  | .it i => k i
  | _ => .stop
/-- `*it` gives a value (pull_coroutine.hpp:123-125). -/
def onVal (k : Byte → Pt) : Res Byte → Pt
  | .val v => k v
  | _ => .stop

/-- The code (parser.cpp:30-121; the lines are at the constructors of `Pt`).  The lambda that is the callback is a function call with its own
frame; copying the `std::function` and the streams' internals are not modelled.  `plain` and `plainP` are not in the example: they use the
same `Parser` without a coroutine. -/
def code : Pt → Src × Mem → Act Pt (Src × Mem) Byte Err
  | .lam h, _ => .newObj 0 (.init (.yield h))
  | .init k, (a, m) => .tau ({ a with next := 0 }, m) (.run k)
  | .run k, _ => .call .scan (.runE k)
  | .runE k, _ => .call (.e k) .done
  | .scan, (a, m) => .tau (a.pull, m) .scanTest
  | .scanTest, (a, m) => if isspace a.next then .tau (a, m) .scan else .ret
  | .e k, _ => .call (.t k) (.eLoop k)
  | .eLoop k, (a, _) => if a.next = byte '+' ∨ a.next = byte '-' then .call (.cb k a.next) (.eScan k) else .ret
  | .eScan k, _ => .call .scan (.eT k)
  | .eT k, _ => .call (.t k) (.eLoop k)
  | .t k, _ => .call (.s k) (.tLoop k)
  | .tLoop k, (a, _) => if a.next = byte '*' ∨ a.next = byte '/' then .call (.cb k a.next) (.tScan k) else .ret
  | .tScan k, _ => .call .scan (.tS k)
  | .tS k, _ => .call (.s k) (.tLoop k)
  | .s k, (a, _) =>
    if isdigit a.next then .call (.cb k a.next) .sScan
    else if a.next = byte '(' then .call (.cb k a.next) (.sOpen k)
    else .throw .parser_error
  | .sScan, _ => .call .scan .done
  | .sOpen k, _ => .call .scan (.sE k)
  | .sE k, _ => .call (.e k) (.sClose k)
  | .sClose k, (a, _) => if a.next = byte ')' then .call (.cb k a.next) .sScan else .throw .parser_error
  | .cb (.yield h) c, _ => .api (.push h (.copy c)) fun _ => .done
  | .cb .direct c, (a, m) => .tau (a, { m with out := m.out ++ [.parsed c] }) .done
  | .done, _ => .ret
  | .main, _ => .try_ false .caught .mk
  | .mk, _ => .api (.mk .pull .val .ok .lam) <| onHandle .scope
  | .scope h, _ => .guard h (.begin_ h)
  | .begin_ h, _ => .api (.itBegin h) <| onIt .loop
  | .loop none, g => .tau g .success
  | .loop (some h), _ => .api (.itDeref (some h)) <| onVal (.print h)
  | .print h c, (a, m) => .tau (a, { m with out := m.out ++ [.parsed c] }) (.next h)
  | .next h, _ => .api (.itNext (some h)) <| onIt .loop
  | .success, (a, m) => .tau (a, { out := m.out ++ [.done], exit := some true }) .done
  | .caught e, (a, m) => .tau (a, { out := m.out ++ [.exception e], exit := some false }) .done
  | .plain, _ => .try_ false .caught .plainP
  | .plainP, _ => .call (.init .direct) .success
  | .stop, _ => .ret

/-- The program (example/parser.cpp). -/
def prog (mv : Byte → Byte) (gl : Bool) : Prog Pt (Src × Mem) Byte Err where
  code := code
  mv := mv
  genericLambda := gl

end Verif.Parser
