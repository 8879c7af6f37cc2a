/-!
# Specification vocabulary for C47: the Fibonacci numbers
-/
namespace Verif.Fib

/-- The Fibonacci numbers. -/
def fib : Nat → Nat
  | 0 => 0
  | 1 => 1
  | n + 2 => fib n + fib (n + 1)

end Verif.Fib
