/-!
# Placement of the control block on the coroutine's stack

Model of `/repo/include/boost/coroutine2/detail/create_control_block.ipp` and of the memory layout of
`struct control_block` (`pull_control_block_cc.hpp:27-33`, `push_control_block_cc.hpp:26-31`).

Addresses and `std::size_t` are natural numbers below `2^64`; subtraction wraps around, as `std::size_t` does.  (For pointers
wrapping below address 0 is undefined behaviour in C++; the model follows the flat 64-bit machine and lets them wrap.)
-/
namespace Verif

/-- Number of different addresses; `std::size_t` counts modulo this. -/
def addrs : Nat := 2 ^ 64

/-- `a - b` in `std::size_t` / on `char *` addresses (used in create_control_block.ipp:35, 36, 41, 47). -/
def subSz (a b : Nat) : Nat := (a + (addrs - b % addrs)) % addrs

/-- Smallest multiple of `al` not below `x`: what `std::align` looks for (create_control_block.ipp:44), and how a compiler places
a member of alignment `al`. -/
def roundUp (al x : Nat) : Nat := (x + al - 1) / al * al

/-- `boost::context::stack_context`: `sp` is the address just above the stack, `size` its size in bytes
(used in create_control_block.ipp:32-47). `[ctx]` -/
structure StackCtx where
  sp : Nat
  size : Nat

/-- The stack occupies the addresses from `bottom` up to `sp`. -/
def StackCtx.bottom (c : StackCtx) : Nat := c.sp - c.size

/-- `std::align( al, size, ptr, space)` (create_control_block.ipp:44): the first address `≥ ptr` that is a multiple of `al`, if
`size` bytes from there on still lie within the `space` bytes at `ptr`; otherwise null. -/
def stdAlign (al size ptr space : Nat) : Option Nat :=
  if roundUp al ptr + size ≤ ptr + space then some (roundUp al ptr) else none

/-- What `create_control_block` hands to `context::preallocated( sp, size, sctx)` (create_control_block.ipp:50): where the control
block is constructed, and the size of the stack left to the fiber. -/
structure Placed where
  sp : Nat
  size : Nat
  deriving DecidableEq

/-- The usual branch, create_control_block.ipp:38-47; `fs` is `func_size = sizeof( ControlBlock)`, `func_alignment = 64`.
`none`: the assertion `nullptr != sp` (line 45) fails. -/
def placeAligned (c : StackCtx) (fs : Nat) : Option Placed :=
  (stdAlign 64 fs (subSz (subSz c.sp fs) 64) (fs + 64)).map fun p => { sp := p, size := subSz c.size (subSz c.sp p) }

/-- The branch for compilers without `constexpr` or `std::align`, create_control_block.ipp:35-36. -/
def placePlain (c : StackCtx) (fs : Nat) : Placed :=
  { sp := subSz c.sp fs, size := subSz c.size fs }

/-- Size and alignment of a type. -/
structure Ty where
  size : Nat
  align : Nat

/-- Offsets of the members of a struct, each at the first suitably aligned offset not below `off` (the layout every C++ ABI uses for
such structs), and the offset behind the last member. -/
def offsets : Nat → List Ty → List Nat × Nat
  | off, [] => ([], off)
  | off, t :: ts =>
    let o := roundUp t.align off
    let r := offsets (o + t.size) ts
    (o :: r.1, r.2)

/-- `alignof` of a struct: the largest alignment of a member. -/
def structAlign (ts : List Ty) : Nat := ts.foldr (fun t a => max t.align a) 1

/-- `sizeof` of a struct. -/
def structSize (ts : List Ty) : Nat := roundUp (structAlign ts) (offsets 0 ts).2

/-- Members of `pull_coroutine< T >::control_block`: `c`, `other`, `state`, `except`, `bvalid`, `storage`
(pull_control_block_cc.hpp:28-33) with the sizes of a 64-bit platform; `boost::context::fiber` and `std::exception_ptr` are one
pointer each `[ctx]`. -/
def pullMembers (t : Ty) : List Ty := [⟨8, 8⟩, ⟨8, 8⟩, ⟨4, 4⟩, ⟨8, 8⟩, ⟨1, 1⟩, t]

/-- Members of `push_coroutine< T >::control_block`: `c`, `other`, `state`, `except` (push_control_block_cc.hpp:27-30). -/
def pushMembers : List Ty := [⟨8, 8⟩, ⟨8, 8⟩, ⟨4, 4⟩, ⟨8, 8⟩]

/-- Offset of `storage` in `pull_coroutine< T >::control_block` (pull_control_block_cc.hpp:33). -/
def storageOffset (t : Ty) : Nat := (offsets 0 (pullMembers t)).1.getLastD 0

/-- Address of `storage` in a control block at address `cb`. -/
def storageAt (t : Ty) (cb : Nat) : Nat := cb + storageOffset t

end Verif
