/-!
# `state_t`: the flag word of a control block

Model of `/repo/include/boost/coroutine2/detail/state.hpp`.
-/
namespace Verif

/-- `enum class state_t : unsigned int` — state.hpp:25-30.  `unsigned int` is modelled as 32 bits. -/
abbrev StateT := BitVec 32

namespace StateT

/-- `none = 0` — state.hpp:26 -/
def none : StateT := 0#32
/-- `complete = 1 << 1` — state.hpp:27 -/
def complete : StateT := 1#32 <<< 1
/-- `unwind = 1 << 2` — state.hpp:28 -/
def unwind : StateT := 1#32 <<< 2
/-- `destroy = 1 << 3` — state.hpp:29 -/
def destroy : StateT := 1#32 <<< 3

/-- `operator&` — state.hpp:33-38 -/
def and (l r : StateT) : StateT := l &&& r
/-- `operator|` — state.hpp:40-45 -/
def or (l r : StateT) : StateT := l ||| r
/-- `operator^` — state.hpp:47-52 -/
def xor (l r : StateT) : StateT := l ^^^ r
/-- `operator~` — state.hpp:54-58 -/
def not (l : StateT) : StateT := ~~~l
/-- `operator|=` — state.hpp:67-72 (the returned reference is the new value of `l`) -/
def orAssign (l r : StateT) : StateT := or l r
/-- `operator&=` — state.hpp:60-65 -/
def andAssign (l r : StateT) : StateT := and l r
/-- `operator^=` — state.hpp:74-79 -/
def xorAssign (l r : StateT) : StateT := xor l r

/-- The idiom `state_t::none != ( state & f)` (pull_control_block_cc.ipp:139, 184 and throughout). -/
def has (s f : StateT) : Bool := and s f != none

end StateT
end Verif
