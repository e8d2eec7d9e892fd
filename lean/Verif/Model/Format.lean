import Verif.Model.Binary64

/-!
# The format `%v` of a `float64`

The `String` methods print numbers with `%v` (`symbolic/monomial.go:596`, `constant.go:327`,
`constant_vector.go:428`, `constant_matrix.go:490`), which is `strconv`'s format `'g'` with the least number of
digits: the shortest decimal that reads back as the number, of two the nearer one.  This is the specification
of `strconv`, not its algorithm.  Numbers from `10^t` on and below `10^-4` are written with an exponent; the threshold
`t` is a parameter, so that nothing depends on the release of Go.  The sign of a zero is not
modelled here but in `Model/SignedZero.lean`.
-/

namespace Verif

/-- Reading `d * 10^e` gives the float `q`. -/
def readsAs (q : ℚ) (d : ℕ) (e : ℤ) : Bool := decide (F64.ofRat (d * 10 ^ e) = .fin q)

/-- The decimal with `n` digits that is written for `q`, if one of the two next to `q` reads as `q`. -/
def decimalOf (q : ℚ) (n : ℕ) : Option (ℕ × ℤ) :=
  let e := Int.log 10 q + 1 - n
  let s := q / 10 ^ e
  match readsAs q ⌊s⌋.toNat e, readsAs q (⌊s⌋ + 1).toNat e with
  | true, true => some ((roundEven s).toNat, e)
  | true, false => some (⌊s⌋.toNat, e)
  | false, true => some ((⌊s⌋ + 1).toNat, e)
  | false, false => none

/-- The first such decimal with at least `n` digits. -/
def shortestFrom (q : ℚ) : ℕ → ℕ → Option (ℕ × ℤ)
  | 0, _ => none
  | fuel + 1, n => match decimalOf q n with
    | some r => some r
    | none => shortestFrom q fuel (n + 1)

/-- Trailing zeros move into the exponent. -/
def stripZeros : ℕ → ℕ → ℤ → ℕ × ℤ
  | 0, d, e => (d, e)
  | fuel + 1, d, e => if d % 10 = 0 then stripZeros fuel (d / 10) (e + 1) else (d, e)

/-- One digit, the point, the other digits, and the exponent `x` with at least two digits. -/
def fmtExp (ds : List Char) (x : ℤ) : List Char :=
  ds.take 1 ++ (if ds.length ≤ 1 then [] else '.' :: ds.drop 1) ++
    'e' :: (if x < 0 then '-' else '+') :: (if x.natAbs < 10 then ['0'] else []) ++ Nat.toDigits 10 x.natAbs

/-- The digits with the point after the first `p`. -/
def fmtFix (ds : List Char) (p : ℤ) : List Char :=
  if p ≤ 0 then '0' :: '.' :: List.replicate (-p).toNat '0' ++ ds
  else if ds.length ≤ p.toNat then ds ++ List.replicate (p.toNat - ds.length) '0'
  else ds.take p.toNat ++ '.' :: ds.drop p.toNat

/-- The text of `d * 10^e`. -/
def fmtDec (t : ℤ) (d : ℕ) (e : ℤ) : List Char :=
  let r := stripZeros (Nat.toDigits 10 d).length d e
  let ds := Nat.toDigits 10 r.1
  let p := ds.length + r.2
  if p - 1 < -4 ∨ t ≤ p - 1 then fmtExp ds (p - 1) else fmtFix ds p

/-- `fmt.Sprintf("%v", x)`. -/
def fmtFloat (t : ℤ) : F64 → List Char
  | .nan => ['N', 'a', 'N']
  | .inf true => ['-', 'I', 'n', 'f']
  | .inf false => ['+', 'I', 'n', 'f']
  | .fin q =>
    if q = 0 then ['0']
    else (if q < 0 then ['-'] else []) ++ match shortestFrom |q| 1400 1 with
      | some (d, e) => fmtDec t d e
      | none => []

end Verif
