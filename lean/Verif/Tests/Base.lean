import Verif.Model.Args
import Verif.Model.Convert
import Verif.Model.Env
import Verif.Model.From
import Verif.Model.Text
import Verif.Model.Util
import Verif.Spec

/-!
# The library's own tests, run on the model: common definitions

The files of this directory repeat unit tests of `/repo/testing`, each test as one `example` that
evaluates the model over the rationals.  They say nothing for all inputs and prove none of the
properties; they compare the model with what the authors of the library observed.  A test that
inspects the text of a panic is compared by the kind of panic.
-/

namespace Verif.Tests

/-- The `i`-th variable made by `NewVariable()` in the default environment. -/
def nv (i : Nat) : Var ℚ := newVarValue false i 0

/-- `Variable{}`: its `Check` fails. -/
def badVar : Var ℚ := ⟨0, 0, 0, 0, "", 0⟩

/-- `Polynomial{}`: its `Check` fails. -/
def badPoly : Poly ℚ := ⟨[]⟩

/-- A monomial with one exponent and no variable: its `Check` fails. -/
def badMono : Mono ℚ := ⟨1, [2], []⟩

/-- `NewVariable().ToPolynomial()` -/
def np (i : Nat) : Poly ℚ := (nv i).toPoly

/-- `NewVariable().ToMonomial()` -/
def nm (i : Nat) : Mono ℚ := (nv i).toMono

/-- `Monomial{c, x_i, e}` -/
def m1 (c : ℚ) (i : Nat) (e : Int) : Mono ℚ := ⟨c, [e], [nv i]⟩

/-- `Monomial{c, x_i x_j, e f}` -/
def m2 (c : ℚ) (i j : Nat) (e f : Int) : Mono ℚ := ⟨c, [e, f], [nv i, nv j]⟩

/-- `Monomial{c}` -/
def m0 (c : ℚ) : Mono ℚ := ⟨c, [], []⟩

/-- The call panics. -/
def panics {α : Type} : Go α → Bool
  | .ok _ => false
  | .error _ => true

/-- The call panics with this kind of panic. -/
def panicsWith {α : Type} (e : Err) : Go α → Bool
  | .ok _ => false
  | .error f => decide (f = e)

/-- The call returns a value with the property. -/
def returns {α : Type} (f : α → Bool) : Go α → Bool
  | .ok a => f a
  | .error _ => false

/-- The call returns. -/
def ok {α : Type} : Go α → Bool := returns (fun _ => true)

/-- The call returns this value. -/
def gives {α : Type} [DecidableEq α] (b : α) : Go α → Bool := returns (fun a => decide (a = b))

def sk (c : ℚ) : Expr ℚ := .s (.k c)
def sv (v : Var ℚ) : Expr ℚ := .s (.var v)
def sm (m : Mono ℚ) : Expr ℚ := .s (.mono m)
def sp (p : Poly ℚ) : Expr ℚ := .s (.poly p)
def vk (l : List ℚ) : Expr ℚ := .v (.k l)
def vv (l : List (Var ℚ)) : Expr ℚ := .v (.v l)
def vm (l : List (Mono ℚ)) : Expr ℚ := .v (.m l)
def vp (l : List (Poly ℚ)) : Expr ℚ := .v (.p l)
def mk (l : List (List ℚ)) : Expr ℚ := .m (.k l)
def mv (l : List (List (Var ℚ))) : Expr ℚ := .m (.v l)
def mm (l : List (List (Mono ℚ))) : Expr ℚ := .m (.m l)
def mp (l : List (List (Poly ℚ))) : Expr ℚ := .m (.p l)

/-- The dynamic type of the result, as found by a type assertion. -/
inductive Ty
  | K | Variable | Monomial | Polynomial
  | KVector | VariableVector | MonomialVector | PolynomialVector
  | KMatrix | VariableMatrix | MonomialMatrix | PolynomialMatrix
  deriving DecidableEq

def sty : Scalar ℚ → Ty
  | .k _ => .K
  | .var _ => .Variable
  | .mono _ => .Monomial
  | .poly _ => .Polynomial

def ty : Expr ℚ → Ty
  | .s a => sty a
  | .v (.k _) => .KVector
  | .v (.v _) => .VariableVector
  | .v (.m _) => .MonomialVector
  | .v (.p _) => .PolynomialVector
  | .m (.k _) => .KMatrix
  | .m (.v _) => .VariableMatrix
  | .m (.m _) => .MonomialMatrix
  | .m (.p _) => .PolynomialMatrix

/-- The result has this dynamic type. -/
def hasTy (t : Ty) : Go (Expr ℚ) → Bool := returns (fun e => decide (ty e = t))

/-- The monomials of a polynomial, of a monomial the monomial itself. -/
def monos : Expr ℚ → List (Mono ℚ)
  | .s (.poly p) => p.monos
  | .s (.mono m) => [m]
  | _ => []

/-- The result is a polynomial of this many monomials. -/
def polyLen (n : Nat) : Go (Expr ℚ) → Bool :=
  returns (fun e => decide (ty e = .Polynomial) && (monos e).length == n)

/-- The dimensions of the result. -/
def hasDims (r c : Nat) (x : Go (Expr ℚ)) : Bool := gives (r, c) (x >>= Expr.dims)

inductive CTy
  | Scalar | Vector | Matrix
  deriving DecidableEq

def cty : Con ℚ → CTy
  | .s _ => .Scalar
  | .v _ => .Vector
  | .m _ => .Matrix

/-- The constraint has this dynamic type. -/
def hasCTy (t : CTy) : Go (Con ℚ) → Bool := returns (fun c => decide (cty c = t))

/-- A format for the whole numbers among the coefficients. -/
def fmt (c : ℚ) : List Char := intChars c.num

/-- `strings.Contains` -/
def contains (sub : List Char) : List Char → Bool
  | [] => sub.isEmpty
  | c :: l => sub.isPrefixOf (c :: l) || contains sub l

/-- The constraint has this sense. -/
def hasSense (t : CTy) (s : Sense) : Go (Con ℚ) → Bool :=
  returns (fun c => decide (cty c = t) && decide (c.sense = s))

/-- The constraint has this sense and sides of these dynamic types. -/
def hasSides (s : Sense) (l r : Ty) : Go (Con ℚ) → Bool :=
  returns (fun c => decide (c.sense = s) && decide (ty c.left = l) && decide (ty c.right = r))

/-- The result is a scalar with this constant term. -/
def hasConst (c : ℚ) (x : Go (Expr ℚ)) : Bool := gives c (x >>= fun
  | .s a => a.constant
  | _ => throw .other)

/-- The coefficients of the monomials of the result. -/
def coeffs : Expr ℚ → List (List ℚ)
  | .s (.mono m) => [[m.coeff]]
  | .s (.poly p) => [p.monos.map (·.coeff)]
  | .v (.m l) => [l.map (·.coeff)]
  | .m (.m l) => l.map (·.map (·.coeff))
  | _ => []

/-- `OnesVector(n)` -/
def ones (n : Nat) : List ℚ := List.replicate n 1

/-- `NewVariableVector(n)`, the first variable having the ID `i` -/
def nvs (i n : Nat) : List (Var ℚ) := (List.range n).map (fun k => nv (i + k))

/-- `NewVariableMatrix(r, c)`, the first variable having the ID `i` -/
def nvm (i r c : Nat) : List (List (Var ℚ)) := (List.range r).map (fun k => nvs (i + k * c) c)

/-- The numbers of monomials in the entries of a vector or matrix of polynomials. -/
def lens : Expr ℚ → List (List Nat)
  | .v (.p l) => [l.map (·.monos.length)]
  | .m (.p l) => l.map (·.map (·.monos.length))
  | _ => []

/-- The result is a vector or matrix of polynomials, each of `n` monomials. -/
def polyLens (n : Nat) : Go (Expr ℚ) → Bool :=
  returns (fun e => !(lens e).isEmpty && (lens e).all (·.all (· == n)))

/-- The dimensions of the left side of the constraint. -/
def conDims (r c : Nat) (x : Go (Con ℚ)) : Bool := gives (r, c) (x >>= fun c => c.left.dims)

/-- The dimensions of the right side of the constraint. -/
def conDimsR (r c : Nat) (x : Go (Con ℚ)) : Bool := gives (r, c) (x >>= fun c => c.right.dims)

/-- A receiver that is a scalar constraint. -/
def withS {α : Type} (c : Go (Con ℚ)) (f : SCon ℚ → Go α) : Go α := do
  match ← c with
  | .s c => f c
  | _ => throw .typeAssert

/-- A receiver that is a vector constraint. -/
def withV {α : Type} (c : Go (Con ℚ)) (f : VCon ℚ → Go α) : Go α := do
  match ← c with
  | .v c => f c
  | _ => throw .typeAssert

/-- A comparison of the result of a call. -/
def cmp (a : Go (Expr ℚ)) (s : Sense) (b : Arg ℚ) : Go (Con ℚ) := do (← a).comparisonArg b s

def implies (a b : Go (Con ℚ)) : Go Bool := do (← a).implies (← b)

end Verif.Tests
