/-!
# Specification vocabulary for C74: an event loop and its handlers

A handler is described as it would be written without coroutines: a callback with a state of its own.
-/
namespace Verif.Events

/-- What a handler does after an event. -/
inductive React (Q E : Type)
  | again (q : Q)            -- it waits for the next event
  | deep (o : Nat) (q : Q)   -- it calls a function, which has the local object `o` and waits for the next event
  | quit                     -- it returns
  | fail (e : E)             -- it throws

/-- What is noted about a handler. -/
inductive Note (V E : Type)
  | heard (v : V)    -- the handler got the event
  | failed (e : E)   -- the handler has thrown
  | lost (v : V)     -- there was an event for a handler that has ended
  deriving DecidableEq

/-- What is to be noted about a handler in the state `q` for which there are the events `vs`. -/
def account {Q V E : Type} (δ : Q → V → React Q E) (q : Q) : List V → List (Note V E)
  | [] => []
  | v :: vs => .heard v :: match δ q v with
    | .again q' | .deep _ q' => account δ q' vs
    | .quit => vs.map .lost
    | .fail e => .failed e :: vs.map .lost

/-- All events: `st` are the states of the handlers, `none` for one that has ended.  Events for handlers that do not exist are skipped. -/
def dispatch {Q V E : Type} (δ : Q → V → React Q E) : List (Nat × V) → List (Option Q) → List (Nat × Note V E)
  | [], _ => []
  | (j, v) :: es, st =>
    match st[j]? with
    | none => dispatch δ es st
    | some none => (j, .lost v) :: dispatch δ es st
    | some (some q) => (j, .heard v) :: match δ q v with
      | .again q' | .deep _ q' => dispatch δ es (st.set j (some q'))
      | .quit => dispatch δ es (st.set j none)
      | .fail e => (j, .failed e) :: dispatch δ es (st.set j none)

/-- What has been noted about handler `j`, and the events for it. -/
def about {A : Type} (j : Nat) (out : List (Nat × A)) : List A := out.filterMap fun p => if p.1 = j then some p.2 else none

end Verif.Events
