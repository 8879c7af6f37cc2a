import Verif.ExChain

/-!
# What a chain is expected to do: nested loops

Part of the specification.  Nothing here models library code: no coroutines at all.
-/
namespace Verif.Chain
variable {V G E : Type}

/-- How (a part of) a program ends: memory; with `error`: all loops are left, by `break`/`return` (`none`) or by an exception. -/
abbrev Run (G E : Type) := Except (G × Option E) G

/-- `for (v : vs) body(v);` -/
def each (body : V → G → Run G E) : List V → G → Run G E
  | [], g => .ok g
  | v :: vs, g => (body v g).bind (each body vs)

/-- a stage, written as an ordinary loop around `rest`: `for (y : f(v)) rest(y);` -/
def through (f : Stage V G E) (rest : V → G → Run G E) (v : V) (g : G) : Run G E :=
  match f v g with
  | (g', .ok ys) => each rest ys g'
  | (g', .error e) => .error (g', some e)

/-- all stages, one inside the other -/
def nested : List (Stage V G E) → (V → G → Run G E) → V → G → Run G E
  | [], c => c
  | f :: fs, c => through f (nested fs c)

/-- the consumer -/
def last (consume : V → G → G × Then E) (v : V) (g : G) : Run G E :=
  match consume v g with
  | (g', .goOn) => .ok g'
  | (g', .leave) => .error (g', none)
  | (g', .throw e) => .error (g', some e)

/-- The chain without coroutines: `for (x : input) for (y : stage1(x)) for (z : stage2(y)) … consume(z);` -/
def loops (C : Spec V G E) (g : G) : Run G E := each (nested C.stages (last C.consume)) C.input g

/-! ## with a writer -/

/-- What is kept apart from memory: has the writer got an item yet? -/
abbrev Begun := Bool

variable {S : Type}

/-- a stage does not change it -/
def lift (f : Stage V G E) : Stage V (G × S) E := fun v x => ((( f v x.1).1, x.2), (f v x.1).2)

/-- the writer -/
def write (w : V → G → G × Option E) (v : V) (x : G × Begun) : Run (G × Begun) E :=
  match w v x.1 with
  | (g', none) => .ok (g', true)
  | (g', some e) => .error ((g', true), some e)

/-- the body of the loop in main: it passes its items on to `rest` -/
def onward (consume : V → G → G × Then E) (rest : V → G × Begun → Run (G × Begun) E) (v : V) (x : G × Begun) : Run (G × Begun) E :=
  match consume v x.1 with
  | (g', .goOn) => rest v (g', x.2)
  | (g', .leave) => .error ((g', x.2), none)
  | (g', .throw e) => .error ((g', x.2), some e)

/-- At the end the writer finishes its output, if it has begun. -/
def flush (C : Spec V G E) (x : G × Begun) : G := if x.2 then C.eol x.1 else x.1

def flushed (C : Spec V G E) : Run (G × Begun) E → Run G E
  | .ok x => .ok (flush C x)
  | .error (x, o) => .error (flush C x, o)

/-- The loops, all stages one inside the other, the writer innermost: `for (x : input) for (y : stage1(x)) … { consume(z); for (u : out1(z)) … write(u); }`;
the push stages: last constructed first. -/
def written (C : Spec V G E) (w : V → G → G × Option E) (g : G) : Run G E :=
  flushed C (each (nested (C.stages.map lift) (onward C.consume (nested (C.outs.reverse.map lift) (write w)))) C.input (g, false))

end Verif.Chain
