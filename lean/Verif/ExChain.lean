import Verif.Machine

/-!
# Chained coroutines (doc/motivation.qbk:440-565), as a program of the model

A chain: a reader, any number of stages, each a pull coroutine whose function consumes the coroutine before it, and a loop in main that consumes
the last one.  Optionally the loop passes its items on, into a chain of push coroutines: any number of stages, the same functions, and a writer
at the end (541-565).  What the reader reads, what the stages, the loop and the writer do with an item, and the numbers of stages are parameters;
`Chain.words`, `Chain.laid` and `Chain.filtered` below are the chains of the documentation.  The work a stage does on one item
(doc/motivation.qbk:459-478, 484, 491) is one step of the program.
-/
namespace Verif.Chain

/-- What a stage does with an item: it may read and write memory, then it passes on any number of values, or throws
(doc/motivation.qbk:458-478, 483-486, 490-493). -/
abbrev Stage (V G E : Type) := V → G → G × Except E (List V)

/-- What the consumer does with an item: it may write memory; then it goes on, leaves the loop, or throws (doc/motivation.qbk:536-538). -/
inductive Then (E : Type)
  | goOn
  | leave
  | throw (e : E)

/-- A chain (doc/motivation.qbk:532-538, 544-550, 556-564). -/
structure Spec (V G E : Type) where
  input : List V                         -- what `readlines` gets from the stream (447-451)
  stages : List (Stage V G E)            -- pull coroutines, in the order of construction
  consume : V → G → G × Then E
  writer : Option (V → G → G × Option E) := none   -- what `layout` does with an item (508-514); it may throw
  outs : List (Stage V G E) := []        -- push coroutines, in the order of construction, after the writer (558-561)
  eol : G → G := fun g => g              -- the destructor of the writer's local `FinalEOL eol` (496-500, 504)

variable {V G E : Type}

/-- Program points.  `k`: number of the stage, the reader is stage 0; `src`: address of the coroutine object a stage reads from; `sink`: address
of the object it writes to (doc/motivation.qbk:447-494, 532-538). -/
inductive Pt (V E : Type)
  | make (k src : Nat)                           -- main: construct stage `k` (532-535)
  | keep (k h : Nat)                             -- it is a local of main
  | begin (k src sink : Nat)                     -- a stage: `begin(source)` of the range-for (458, 483, 490)
  | test (k sink : Nat) (it : Option Nat)        -- `it != end(source)`
  | item (k src sink : Nat) (v : V)              -- the body of the loop
  | out (k src sink : Nat) (ys : List V)         -- `sink(token)` (450, 467, 474, 476, 485, 492), or `++it`
  | fail (e : E)                                 -- an exception is thrown
  | cBegin (src : Nat) (dst : Option Nat)        -- main: `begin(tracer)` (536); `dst`: the push coroutine the loop passes its items on to
  | cTest (dst it : Option Nat)
  | cItem (src : Nat) (dst : Option Nat) (v : V) -- the body of the loop (537)
  | cPush (src dst : Nat) (v : V)                -- `writer(token)`, `filter(token)` (549, 563)
  | cNext (src : Nat) (dst : Option Nat)         -- `++it`
  | wMake (src : Nat)                            -- main: construct the writer (547, 558)
  | wKeep (src h : Nat)
  | oMake (i src dst : Nat)                      -- main: construct push stage `i`, bound to `dst` (561)
  | oKeep (i src h : Nat)
  | wEnter (src : Nat)                           -- the writer: `FinalEOL eol` (504)
  | wTest (src : Nat)                            -- `if (!source) return` (510)
  | wGet (src : Nat)                             -- `source.get()` (512)
  | wItem (src : Nat) (v : V)                    -- what is done with the item (512, 516-517)
  | wNext (src : Nat)                            -- `source()` (514)
  | stop                                         -- return; in main: the coroutines are destroyed in reverse order (539)

/-- A constructor gives an object (pull.ipp:43-59). -/
def onHandle (k : Nat → Pt V E) : Res V → Pt V E
  | .handle h => k h
  | _ => .stop
/-- `begin()` and `++` give an iterator (pull_coroutine.hpp:70-130). -/
def onIt (k : Option Nat → Pt V E) : Res V → Pt V E
  | .it i => k i
  | _ => .stop
/-- `*it` gives a value (pull_coroutine.hpp:123-125). -/
def onVal (k : V → Pt V E) : Res V → Pt V E
  | .val v => k v
  | _ => .stop

/-- `operator!` gives a truth value (pull.ipp:86-90). -/
def onBool (k : Bool → Pt V E) : Res V → Pt V E
  | .bool b => k b
  | _ => .stop

/-- What stage `k` does with an item: stages 1, …, n are pull coroutines, n + 1 is the writer, n + 2, … are push coroutines
(doc/motivation.qbk:532-535, 556-561). -/
def Spec.fn (C : Spec V G E) (k : Nat) : Option (Stage V G E) :=
  if k ≤ C.stages.length then C.stages[k - 1]? else C.outs[k - (C.stages.length + 2)]?

/-- The function of stage `k` (doc/motivation.qbk:447, 453, 482, 489; bound to its source by `std::bind`, 532-535). -/
def body (C : Spec V G E) (k src sink : Nat) : Pt V E :=
  if k = 0 then .out 0 src sink C.input else .begin k src sink

/-- The code (doc/motivation.qbk:447-519, 532-565); range-for as [stmt.ranged] spells it out. -/
def code (C : Spec V G E) : Pt V E → G → Act (Pt V E) G V E
  | .make k src, g =>
    if k ≤ C.stages.length then .api (.mk .pull .val .ok (body C k src)) (onHandle (.keep k))
    else if C.writer.isSome then .tau g (.wMake src) else .tau g (.cBegin src none)
  | .keep k h, _ => .guard h (.make (k + 1) h)
  | .begin k src sink, _ => .api (.itBegin src) (onIt (.test k sink))
  | .test k sink (some src), _ => .api (.itDeref (some src)) (onVal (.item k src sink))
  | .test _ _ none, g => .tau g .stop
  | .item k src sink v, g =>
    match C.fn k with
    | some f =>
      match f v g with
      | (g', .ok ys) => .tau g' (.out k src sink ys)
      | (g', .error e) => .tau g' (.fail e)
    | none => .ret
  | .out k src sink (y :: ys), _ => .api (.push sink (.copy y)) fun _ => .out k src sink ys
  | .out k src sink [], g => if k = 0 then .tau g .stop else .api (.itNext (some src)) (onIt (.test k sink))
  | .fail e, _ => .throw e
  | .cBegin src dst, _ => .api (.itBegin src) (onIt (.cTest dst))
  | .cTest dst (some src), _ => .api (.itDeref (some src)) (onVal (.cItem src dst))
  | .cTest _ none, g => .tau g .stop
  | .cItem src dst v, g =>
    match C.consume v g, dst with
    | (g', .goOn), none => .tau g' (.cNext src none)
    | (g', .goOn), some d => .tau g' (.cPush src d v)
    | (g', .leave), _ => .tau g' .stop
    | (g', .throw e), _ => .tau g' (.fail e)
  | .cPush src dst v, _ => .api (.push dst (.copy v)) fun _ => .cNext src (some dst)
  | .cNext src dst, _ => .api (.itNext (some src)) (onIt (.cTest dst))
  | .stop, _ => .ret
  | .wMake src, _ => .api (.mk .push .val .ok .wEnter) (onHandle (.wKeep src))
  | .wKeep src h, _ => .guard h (.oMake 0 src h)
  | .oMake i src dst, g =>
    if i < C.outs.length then .api (.mk .push .val .ok fun source => .begin (C.stages.length + 2 + i) source dst) (onHandle (.oKeep i src))
    else .tau g (.cBegin src (some dst))
  | .oKeep i src h, _ => .guard h (.oMake (i + 1) src h)
  | .wEnter src, _ => .newObj 0 (.wTest src)
  | .wTest src, _ => .api (.bang src) (onBool fun b => if b then .stop else .wGet src)
  | .wGet src, _ => .api (.get src) (onVal (.wItem src))
  | .wItem src v, g =>
    match C.writer with
    | some w =>
      match w v g with
      | (g', none) => .tau g' (.wNext src)
      | (g', some e) => .tau g' (.fail e)
    | none => .ret
  | .wNext src, _ => .api (.resume src) fun _ => .wTest src

/-- The program (doc/motivation.qbk:529-565). -/
def prog (C : Spec V G E) (mv : V → V) (gl : Bool) : Prog (Pt V E) G V E where
  code := code C
  mv := mv
  genericLambda := gl
  dtor := fun _ => C.eol

/-! ## The chain of the documentation -/

/-- State of the tokenizer: outside quotes, inside quotes, inside a word (doc/motivation.qbk:459-478). -/
inductive Mode
  | plain
  | quote (token : List Char)
  | word (token : List Char)

/-- `std::isspace` (doc/motivation.qbk:469), "C" locale. -/
def isSpace (c : Char) : Bool := c == ' ' || (9 ≤ c.toNat && c.toNat ≤ 13)
/-- `std::isalpha` (doc/motivation.qbk:471-473, 484), "C" locale. -/
def isAlpha (c : Char) : Bool := (65 ≤ c.toNat && c.toNat ≤ 90) || (97 ≤ c.toNat && c.toNat ≤ 122)

/-- A character outside quotes and words: the tokens it completes, the new state (doc/motivation.qbk:461-477). -/
def start (c : Char) : List (List Char) × Mode :=
  if c = '"' then ([], .quote [])
  else if isSpace c then ([], .plain)
  else if isAlpha c then ([], .word [c])
  else ([[c]], .plain)

/-- The tokens of a line, from a given state on (doc/motivation.qbk:459-478). -/
def scan : Mode → List Char → List (List Char)
  | .plain, [] => []
  | .quote tok, [] => [tok.reverse]
  | .word tok, [] => [tok.reverse]
  | .plain, c :: cs => (start c).1 ++ scan (start c).2 cs
  | .quote tok, c :: cs => if c = '"' then tok.reverse :: scan .plain cs else scan (.quote (c :: tok)) cs
  | .word tok, c :: cs =>
    if isAlpha c then scan (.word (c :: tok)) cs else tok.reverse :: ((start c).1 ++ scan (start c).2 cs)

/-- `tokenize` (doc/motivation.qbk:453-480). -/
def tokenize : Stage (List Char) G E := fun line g => (g, .ok (scan .plain line))
/-- `only_words` (doc/motivation.qbk:482-487). -/
def onlyWords : Stage (List Char) G E := fun token g =>
  (g, .ok (match token with | c :: _ => if isAlpha c then [token] else [] | [] => []))
/-- `trace` (doc/motivation.qbk:489-494): memory is the list of what has been printed. -/
def trace : Stage (List Char) (List (List Char)) E := fun token g => (g ++ [token], .ok [token])

/-- The chain of doc/motivation.qbk:529-539. -/
def words (lines : List (List Char)) : Spec (List Char) (List (List Char)) E where
  input := lines
  stages := [tokenize, onlyWords, trace]
  consume := fun _ g => (g, .goOn)          -- "just iterate"

/-- What `layout` prints and where it is in a line: the text printed so far, and `i` (doc/motivation.qbk:508). -/
abbrev Page := List Char × Nat

/-- `std::setw(width)` (doc/motivation.qbk:512): filled up with spaces on the left. -/
def padded (width : Nat) (token : List Char) : List Char := List.replicate (width - token.length) ' ' ++ token

/-- `layout` (doc/motivation.qbk:502-519), what is done with one item.  The line break after `num` items (517) is printed when `source()` (514)
of the last of them returns, that is, when the next item has arrived; local variable `i` is kept in memory. -/
def layout (num width : Nat) (token : List Char) (p : Page) : Page × Option E :=
  let p := if p.2 = num then (p.1 ++ ['\n'], 0) else p
  ((p.1 ++ padded width token, p.2 + 1), none)

/-- `~FinalEOL` (doc/motivation.qbk:496-500). -/
def finalEOL (p : Page) : Page := (p.1 ++ ['\n'], p.2)

/-- The chain of doc/motivation.qbk:541-551. -/
def laid (lines : List (List Char)) (num width : Nat) : Spec (List Char) Page E where
  input := lines
  stages := [tokenize, onlyWords]
  consume := fun _ g => (g, .goOn)
  writer := some (layout num width)
  eol := finalEOL

/-- The chain of doc/motivation.qbk:553-565. -/
def filtered (lines : List (List Char)) (num width : Nat) : Spec (List Char) Page E where
  input := lines
  stages := [tokenize]
  consume := fun _ g => (g, .goOn)
  writer := some (layout num width)
  outs := [onlyWords]
  eol := finalEOL

end Verif.Chain
