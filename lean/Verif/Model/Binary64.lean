import Verif.Model.Num
import Mathlib.Data.Int.Log
import Mathlib.Data.Rat.Floor

/-!
# `float64`: IEEE 754 binary64

The arithmetic behind Go's `float64`: finite numbers are rationals, every operation computes the exact
result and rounds it to the nearest number with 53 significant bits and exponent at least -1074, ties to
the even significand; results of absolute value `2^1024` and more overflow to infinity.

Simplified: `-0` is identified with `0`.  The two compare equal, and they are told apart only by
division, whose zero divisor is here taken to be `+0`, and by formatting.  `Model/SignedZero.lean` has both zeros,
and C85 shows what that changes.
-/

namespace Verif

/-- A `float64`.  `inf true` is `-Inf`. -/
inductive F64
  | nan
  | inf (neg : Bool)
  | fin (q : ℚ)
  deriving DecidableEq

/-- The nearest integer, the even one of two equally near. -/
def roundEven (q : ℚ) : ℤ :=
  if q - ⌊q⌋ < 1 / 2 then ⌊q⌋
  else if 1 / 2 < q - ⌊q⌋ then ⌊q⌋ + 1
  else if ⌊q⌋ % 2 = 0 then ⌊q⌋ else ⌊q⌋ + 1

/-- The exponent of the last of the 53 bits of `q`; not below -1074 (subnormal numbers). -/
def lastBit (q : ℚ) : ℤ := max (Int.log 2 |q| - 52) (-1074)

/-- The nearest number with 53 significant bits. -/
def round53 (q : ℚ) : ℚ := (roundEven (q / 2 ^ lastBit q) : ℚ) * 2 ^ lastBit q

namespace F64

/-- The float nearest to `q`, or an infinity on overflow. -/
def ofRat (q : ℚ) : F64 := if |round53 q| < 2 ^ 1024 then fin (round53 q) else inf (decide (q < 0))

def add : F64 → F64 → F64
  | fin p, fin q => ofRat (p + q)
  | inf a, inf b => if a = b then inf a else nan
  | inf a, fin _ => inf a
  | fin _, inf b => inf b
  | _, _ => nan

def neg : F64 → F64
  | fin q => fin (-q)
  | inf a => inf (!a)
  | nan => nan

def mul : F64 → F64 → F64
  | fin p, fin q => ofRat (p * q)
  | inf a, inf b => inf (a != b)
  | inf a, fin q => if q = 0 then nan else inf (a != decide (q < 0))
  | fin p, inf b => if p = 0 then nan else inf (b != decide (p < 0))
  | _, _ => nan

def div : F64 → F64 → F64
  | fin p, fin q =>
    if q = 0 then (if p = 0 then nan else inf (decide (p < 0))) else ofRat (p / q)
  | inf a, fin q => inf (a != decide (q < 0))
  | fin _, inf _ => fin 0
  | _, _ => nan

def feq : F64 → F64 → Bool
  | fin p, fin q => decide (p = q)
  | inf a, inf b => a == b
  | _, _ => false

def lt : F64 → F64 → Bool
  | fin p, fin q => decide (p < q)
  | inf a, inf b => a && !b
  | inf a, fin _ => a
  | fin _, inf b => !b
  | _, _ => false

def le : F64 → F64 → Bool
  | fin p, fin q => decide (p ≤ q)
  | inf a, inf b => a || !b
  | inf a, fin _ => a
  | fin _, inf b => !b
  | _, _ => false

end F64

/-- `float64` as the library uses it. -/
instance : GoNum F64 where
  zero := .fin 0
  one := .fin 1
  add := F64.add
  mul := F64.mul
  sub := fun x y => F64.add x (F64.neg y)
  div := F64.div
  neg := F64.neg
  ofInt := fun k => F64.ofRat k
  feq := F64.feq
  lt := F64.lt
  le := F64.le

end Verif
