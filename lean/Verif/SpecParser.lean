/-!
# The grammar documented in example/parser.cpp

`parser.cpp:23-29`:

    P ---> E '\0'
    E ---> T {('+'|'-') T}
    T ---> S {('*'|'/') S}
    S ---> digit | '(' E ')'

as sets of words over bytes, and what a reader of that comment expects of white space (it does not count, parser.cpp:39-44) and of a
predictive parser (it accepts the longest beginning of the input that can still become a word).
-/
namespace Verif.Parser

/-- A `char`, as a byte. -/
abbrev Byte := UInt8

/-- the byte of an ASCII character -/
def byte (c : Char) : Byte := c.toNat.toUInt8

/-- the bytes of an ASCII string -/
def bytes (s : String) : List Byte := s.toList.map byte

/-- White space of the C locale. -/
def White (c : Byte) : Prop := c ∈ bytes " \t\n\x0b\x0c\x0d"

def Digit (c : Byte) : Prop := c ∈ bytes "0123456789"

/-- `'+'|'-'` -/
def AddOp (c : Byte) : Prop := c = byte '+' ∨ c = byte '-'

/-- `'*'|'/'` -/
def MulOp (c : Byte) : Prop := c = byte '*' ∨ c = byte '/'

instance : DecidablePred White := fun c => inferInstanceAs (Decidable (c ∈ _))

mutual
/-- `E ---> T {('+'|'-') T}` -/
inductive WordE : List Byte → Prop
  | one {w} : WordT w → WordE w
  | more {w op v} : WordE w → AddOp op → WordT v → WordE (w ++ op :: v)
/-- `T ---> S {('*'|'/') S}` -/
inductive WordT : List Byte → Prop
  | one {w} : WordS w → WordT w
  | more {w op v} : WordT w → MulOp op → WordS v → WordT (w ++ op :: v)
/-- `S ---> digit | '(' E ')'` -/
inductive WordS : List Byte → Prop
  | digit {d} : Digit d → WordS [d]
  | paren {w} : WordE w → WordS (byte '(' :: w ++ [byte ')'])
end

/-- The input without white space. -/
def tokens (inp : List Byte) : List Byte := inp.filter fun c => ¬ White c

/-- A beginning of a word. -/
def Viable (w : List Byte) : Prop := ∃ z, WordE (w ++ z)

/-- `w` is the longest beginning of `ts` that is a beginning of a word. -/
def Longest (ts w : List Byte) : Prop := w <+: ts ∧ Viable w ∧ ∀ w', w' <+: ts → Viable w' → w'.length ≤ w.length

end Verif.Parser
