import Verif.Model.Format

/-!
# `float64` with the sign of zeros

`F64` identifies `-0` with `0`.  Here they are two numbers.  The value of every result is that of `F64`; the
rules of IEEE 754 for the sign are added: a product or quotient has the sign that the signs of the operands
give, also if it is zero or underflows to zero; a sum of zeros is `-0` if both are `-0`, and any other sum that
is exactly zero is `+0`; `-x` changes the sign also of a zero.  The two zeros compare equal.
-/

namespace Verif

/-- A `float64` with the sign of its zeros; `num (.fin 0)` is `+0`. -/
inductive F64Z
  | num (x : F64)
  | negZero
  deriving DecidableEq

namespace F64Z

/-- The value, without the sign of a zero. -/
def val : F64Z → F64
  | num x => x
  | negZero => .fin 0

/-- The sign bit (of a NaN: irrelevant). -/
def sign : F64Z → Bool
  | num (.fin q) => decide (q < 0)
  | num (.inf a) => a
  | num .nan => false
  | negZero => true

/-- The result `x` of an operation whose exact result has sign `s`. -/
def signed (x : F64) (s : Bool) : F64Z := if x = .fin 0 ∧ s = true then negZero else num x

def add (a b : F64Z) : F64Z := signed (F64.add a.val b.val) (a.sign && b.sign)

def neg (a : F64Z) : F64Z := signed (F64.neg a.val) (!a.sign)

def mul (a b : F64Z) : F64Z := signed (F64.mul a.val b.val) (a.sign != b.sign)

/-- A zero divisor gives an infinity with the sign that both signs give. -/
def div (a b : F64Z) : F64Z :=
  if b.val = .fin 0 then
    match a.val with
    | .nan => num .nan
    | .inf _ => num (.inf (a.sign != b.sign))
    | .fin p => if p = 0 then num .nan else num (.inf (a.sign != b.sign))
  else signed (F64.div a.val b.val) (a.sign != b.sign)

end F64Z

/-- `float64` as the library uses it. -/
instance : GoNum F64Z where
  zero := .num (.fin 0)
  one := .num (.fin 1)
  add := F64Z.add
  mul := F64Z.mul
  sub := fun x y => F64Z.add x (F64Z.neg y)
  div := F64Z.div
  neg := F64Z.neg
  ofInt := fun k => .num (F64.ofRat k)
  feq := fun a b => F64.feq a.val b.val
  lt := fun a b => F64.lt a.val b.val
  le := fun a b => F64.le a.val b.val

/-- `fmt.Sprintf("%v", x)`: a negative zero is printed with its sign. -/
def fmtFloatZ (t : ℤ) : F64Z → List Char
  | .num x => fmtFloat t x
  | .negZero => ['-', '0']

end Verif
