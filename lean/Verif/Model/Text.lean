import Verif.Model.Constraint

/-!
# The `String` methods

Text is a list of characters.  The format of a `float64` under the verb `%v` is a parameter `fmt`; the
format of an `int` is decimal.
-/

namespace Verif

open GoNum

variable {R : Type}

/-- `fmt.Sprintf("%v", n)` of an `int`. -/
def intChars (n : Int) : List Char :=
  if n < 0 then '-' :: Nat.toDigits 10 n.natAbs else Nat.toDigits 10 n.natAbs

/-- The loop of the `String` methods of vectors and matrices: every item, followed by the separator
unless its index is `n - 1`. -/
def joinLoop (n : Nat) (sep : List Char) (items : List (List Char)) : List Char :=
  items.zipIdx.flatMap (fun x => x.1 ++ if x.2 + 1 ≠ n then sep else [])

section
variable [GoNum R] (fmt : R → List Char)

/-- `math.Abs`; a zero of either sign gives `+0`. -/
def absVal (c : R) : R := if lt c zero then neg c else if feq c zero then zero else c

/-- The second loop of `Monomial.String`: names and exponents other than one. -/
def factorChars : List (Var R) → List Int → List Char
  | v :: vs, e :: es => v.name.toList ++ (if e ≠ 1 then '^' :: intChars e else []) ++ factorChars vs es
  | _, _ => []

/-- `Monomial.String` (`symbolic/monomial.go:583-612`). -/
def Mono.chars (m : Mono R) : Go (List Char) := do
  m.check
  let coefficient :=
    if feq m.coeff one = false ∨ m.vars = [] then
      fmt m.coeff ++ (if m.vars ≠ [] then [' '] else [])
    else []
  return coefficient ++ factorChars m.vars m.exps

/-- The loop of `Polynomial.String` after the first monomial. -/
def tailChars : List (Mono R) → Go (List Char)
  | [] => pure []
  | m :: l => do
    let op := if le zero m.coeff then '+' else '-'
    let t ← Mono.chars fmt { m with coeff := absVal m.coeff }
    let rest ← tailChars l
    return ' ' :: op :: ' ' :: (t ++ rest)

/-- `Polynomial.String` (`symbolic/polynomial.go:678-715`). -/
def Poly.chars (p : Poly R) : Go (List Char) := do
  p.check
  match p.monos with
  | [] => pure []
  | m :: l => do
    let first ← m.chars fmt
    let rest ← tailChars fmt l
    return first ++ rest

/-- `String` of a scalar (`symbolic/constant.go:326-328`, `variable.go:490-492`). -/
def Scalar.chars : Scalar R → Go (List Char)
  | .k c => pure (fmt c)
  | .var v => pure v.name.toList
  | .mono m => m.chars fmt
  | .poly p => p.chars fmt

/-- `String` of a vector (`symbolic/constant_vector.go:421-436`, `variable_vector.go:396-414`,
`monomial_vector.go:418-436`, `polynomial_vector.go:444-461`). -/
def Vec.chars : Vec R → Go (List Char)
  | .k l => return '[' :: joinLoop l.length [',', ' '] (l.map fmt) ++ [']']
  | .v l => do
    Vec.check (.v l)
    return "VariableVector = [".toList ++ joinLoop l.length [',', ' '] (l.map (·.name.toList)) ++ [']']
  | .m l => do
    Vec.check (.m l)
    let items ← l.mapM (Mono.chars fmt)
    return "MonomialVector = [".toList ++ joinLoop l.length [',', ' '] items ++ [']']
  | .p l => do
    Vec.check (.p l)
    let items ← l.mapM (Poly.chars fmt)
    return "PolynomialVector = [".toList ++ joinLoop l.length [',', ' '] items ++ [']']

/-- `KMatrix.String` (`symbolic/constant_matrix.go:481-507`): after every row but the last it writes a
separator that already opens a bracket, and the next row opens another one. -/
def kmatChars (rows : List (List R)) : Go (List Char) := do
  let d ← Mat.dims (.k rows)
  return '[' :: rows.zipIdx.flatMap (fun x =>
    '[' :: joinLoop d.2 [','] (x.1.map fmt) ++ [']'] ++
      if x.2 + 1 ≠ d.1 then [',', '\n', ' ', '['] else [']', '\n'])

/-- `VariableMatrix.String` (`symbolic/variable_matrix.go:460-483`). -/
def vmatChars (rows : List (List (Var R))) : Go (List Char) := do
  Mat.check (.v rows)
  return '[' :: joinLoop rows.length [',', ' ']
    (rows.map fun row => '[' :: joinLoop row.length [',', ' '] (row.map (·.name.toList)) ++ [']']) ++ [']']

/-- `MonomialMatrix.String` (`symbolic/monomial_matrix.go:515-542`): a comma after every row, and
another one between rows. -/
def mmatChars (rows : List (List (Mono R))) : Go (List Char) := do
  let d ← Mat.dims (.m rows)
  let items ← rows.mapM (fun row => row.mapM (Mono.chars fmt))
  return "MonomialMatrix =\n[ ".toList ++ joinLoop rows.length [',', '\n', ' ']
    (items.map fun row => '[' :: ' ' :: joinLoop d.2 [',', ' '] row ++ [']', ',']) ++ [' ', ']']

/-- `PolynomialMatrix.String` (`symbolic/polynomial_matrix.go:520-549`). -/
def pmatChars (rows : List (List (Poly R))) : Go (List Char) := do
  let d ← Mat.dims (.p rows)
  let items ← rows.mapM (fun row => row.mapM (Poly.chars fmt))
  return "PolynomialMatrix =\n[".toList ++ joinLoop d.1 [',', '\n']
    (items.map fun row => '[' :: joinLoop d.2 [',', ' '] row ++ [']']) ++ [']']

/-- `String` of a matrix. -/
def Mat.chars : Mat R → Go (List Char)
  | .k rows => kmatChars fmt rows
  | .v rows => vmatChars rows
  | .m rows => mmatChars fmt rows
  | .p rows => pmatChars fmt rows

/-- `String` on the interface. -/
def Expr.chars : Expr R → Go (List Char)
  | .s a => a.chars fmt
  | .v a => a.chars fmt
  | .m a => a.chars fmt

/-- `ConstrSense.String` (`symbolic/constr_sense.go:18-29`). -/
def Sense.chars : Sense → Go (List Char)
  | .eq => pure ['=']
  | .le => pure ['<', '=']
  | .ge => pure ['>', '=']
  | .bad _ => throw .check

/-- `ScalarConstraint.String` (`symbolic/scalar_constraint.go:233-242`). -/
def SCon.chars (c : SCon R) : Go (List Char) := do
  c.check
  return (← c.lhs.chars fmt) ++ [' '] ++ (← c.sense.chars) ++ [' '] ++ (← c.rhs.chars fmt)

end

end Verif
