import Verif.SpecEvents

/-!
# Specification vocabulary for C75: sessions that are opened, served, moved and closed at any time

A session is described as it would be written without coroutines: a callback with a state of its own and a list of the objects it holds.
-/
namespace Verif.Sessions
open Events (React)

/-- What happens to the sessions. -/
inductive Cmd (Q V : Type)
  | open_ (q : Q)           -- a new session; they are numbered in the order in which they are opened
  | send (j : Nat) (v : V)  -- an event for session `j`
  | move (j : Nat)          -- the coroutine object of session `j` is moved to another address
  | close (j : Nat)         -- session `j` is closed

/-- What is noted about a session. -/
inductive Note (V E : Type)
  | heard (v : V)    -- it got the event
  | held (o : Nat)   -- it has constructed the local object `o`
  | freed (o : Nat)  -- the destructor of its local object `o` has run
  | failed (e : E)   -- it has thrown
  | lost (v : V)     -- there was an event for it after it had ended
  deriving DecidableEq

/-- What happens to one session. -/
inductive Say (V : Type)
  | event (v : V)
  | close
  deriving DecidableEq

/-- What is to be noted about a session in the state `q` that holds the objects `os`, the youngest first; at last it is closed. -/
def account {Q V E : Type} (δ : Q → V → React Q E) (q : Q) (os : List Nat) : List (Say V) → List (Note V E)
  | [] => os.map .freed
  | .close :: cs => os.map .freed ++ over cs
  | .event v :: cs => .heard v :: match δ q v with
    | .again q' => account δ q' os cs
    | .deep o q' => .held o :: account δ q' (o :: os) cs
    | .quit => os.map .freed ++ over cs
    | .fail e => os.map .freed ++ .failed e :: over cs
where
  /-- … that has ended -/
  over : List (Say V) → List (Note V E)
    | [] => []
    | .close :: cs => over cs
    | .event v :: cs => .lost v :: over cs

/-- The objects of the sessions that have not ended are released, one session after the other. -/
def finale {Q V E : Type} (i : Nat) : List (Option (Q × List Nat)) → List (Nat × Note V E)
  | [] => []
  | none :: st => finale (i + 1) st
  | some (_, os) :: st => os.map (fun o => (i, .freed o)) ++ finale (i + 1) st

/-- All commands: `st` are the states of the sessions, `none` for one that has ended. -/
def serve {Q V E : Type} (δ : Q → V → React Q E) : List (Cmd Q V) → List (Option (Q × List Nat)) → List (Nat × Note V E)
  | [], st => finale 0 st
  | .open_ q :: cs, st => serve δ cs (st ++ [some (q, [])])
  | .move _ :: cs, st => serve δ cs st
  | .close j :: cs, st =>
    match st[j]? with
    | some (some (_, os)) => os.map (fun o => (j, .freed o)) ++ serve δ cs (st.set j none)
    | _ => serve δ cs st
  | .send j v :: cs, st =>
    match st[j]? with
    | none => serve δ cs st
    | some none => (j, .lost v) :: serve δ cs st
    | some (some (q, os)) => (j, .heard v) :: match δ q v with
      | .again q' => serve δ cs (st.set j (some (q', os)))
      | .deep o q' => (j, .held o) :: serve δ cs (st.set j (some (q', o :: os)))
      | .quit => os.map (fun o => (j, .freed o)) ++ serve δ cs (st.set j none)
      | .fail e => os.map (fun o => (j, .freed o)) ++ (j, .failed e) :: serve δ cs (st.set j none)

/-- What the commands say to session `j`. -/
def mine {Q V : Type} (j : Nat) : List (Cmd Q V) → List (Say V)
  | [] => []
  | .send i v :: cs => if i = j then .event v :: mine j cs else mine j cs
  | .close i :: cs => if i = j then .close :: mine j cs else mine j cs
  | _ :: cs => mine j cs

/-- How many sessions are opened. -/
def opened {Q V : Type} : List (Cmd Q V) → Nat
  | [] => 0
  | .open_ _ :: cs => opened cs + 1
  | _ :: cs => opened cs

/-- Objects are released in the reverse order of their construction, each once, and none is left: `os` are those that are held. -/
def Bracketed {V E : Type} (os : List Nat) : List (Note V E) → Prop
  | [] => os = []
  | .held o :: ns => Bracketed (o :: os) ns
  | .freed o :: ns => ∃ os', os = o :: os' ∧ Bracketed os' ns
  | _ :: ns => Bracketed os ns

end Verif.Sessions
