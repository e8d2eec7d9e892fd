import Verif.Model.Num

/-!
# Scalar expressions: K, Variable, Monomial, Polynomial

Function-by-function model of `symbolic/utils.go`, `variable.go`, `constant.go`, `monomial.go`,
`polynomial.go` and `scalar_expression.go` (value semantics; slice aliasing is in `Model/Heap`).
A `float64` argument is converted to `K` by the first case of every method, so the scalar
arguments are the four kinds of `Scalar`.
-/

namespace Verif

variable {R : Type}

/-- `symbolic/variable.go:12-20`.  `Environment` is a pointer; `env` is its identity.
`Type` is a byte; `vtype` is its code. -/
structure Var (R : Type) where
  id : Nat
  lower : R
  upper : R
  vtype : Nat
  name : String
  env : Nat
  deriving DecidableEq

/-- `symbolic/monomial.go:17-21`. -/
structure Mono (R : Type) where
  coeff : R
  exps : List Int
  vars : List (Var R)
  deriving DecidableEq

/-- `symbolic/polynomial.go:18-20`. -/
structure Poly (R : Type) where
  monos : List (Mono R)
  deriving DecidableEq

/-- The four implementations of `ScalarExpression` (`symbolic/scalar_expression.go:96-113`). -/
inductive Scalar (R : Type)
  | k (c : R)
  | var (v : Var R)
  | mono (m : Mono R)
  | poly (p : Poly R)
  deriving DecidableEq

/-! ## utils.go, variable.go: lists of variables -/

/-- `FindInSlice(x, slice)` for a `Variable` (`symbolic/utils.go:73-91`): the *last* index whose ID
equals `x.ID`; `none` stands for `-1`. -/
def findVar (x : Var R) : List (Var R) → Option Nat
  | [] => none
  | y :: ys =>
    match findVar x ys with
    | some i => some (i + 1)
    | none => if x.id = y.id then some 0 else none

/-- Loop body of `UniqueVars` (`symbolic/variable.go:263-267`). -/
def uniqueStep (out : List (Var R)) (v : Var R) : List (Var R) :=
  match findVar v out with
  | none => out ++ [v]
  | some _ => out

/-- `UniqueVars` (`symbolic/variable.go:258-271`). -/
def uniqueVars (vs : List (Var R)) : List (Var R) := vs.foldl uniqueStep []

/-- `UnionOfVariables` (`symbolic/variable.go:576-582`). -/
def unionOfVariables (vss : List (List (Var R))) : List (Var R) := uniqueVars vss.flatten

/-- `FindInSlice(x, slice)` for `uint64` (`symbolic/utils.go:57-69`); the cases for `string`
(`utils.go:17-36`) and `int` (`utils.go:38-55`) are the same loop: the last index with an equal
entry, `none` for `-1`. -/
def findEq {α : Type} [DecidableEq α] (x : α) : List α → Option Nat
  | [] => none
  | y :: ys =>
    match findEq x ys with
    | some i => some (i + 1)
    | none => if x = y then some 0 else none

/-- Loop body of `Unique` (`symbolic/utils.go:109-121`).  The first element is appended without a
search, which is what the search in the empty list does. -/
def uniqueIdStep (out : List Nat) (i : Nat) : List Nat :=
  match findEq i out with
  | none => out ++ [i]
  | some _ => out

/-- `Unique` (`symbolic/utils.go:104-124`). -/
def uniqueIds (l : List Nat) : List Nat := l.foldl uniqueIdStep []

/-! ## Check -/

variable [GoNum R]
open GoNum

/-- `Variable.Check` (`symbolic/variable.go:359-370`): error iff `Lower >= Upper`. -/
def Var.check (v : Var R) : Go Unit :=
  if le v.upper v.lower then throw .check else pure ()

/-- `Monomial.Check` (`symbolic/monomial.go:27-38`). -/
def Mono.check (m : Mono R) : Go Unit :=
  if m.exps.length ≠ m.vars.length then throw .check else pure ()

/-- `Polynomial.Check` (`symbolic/polynomial.go:25-41`). -/
def Poly.check (p : Poly R) : Go Unit :=
  if p.monos = [] then throw .check else p.monos.forM Mono.check

/-- `Check` on the interface; `K.Check` is `constant.go:26-28`. -/
def Scalar.check : Scalar R → Go Unit
  | .k _ => pure ()
  | .var v => v.check
  | .mono m => m.check
  | .poly p => p.check

/-! ## Conversions -/

/-- `K.ToMonomial` (`symbolic/constant.go:300-306`). -/
def kToMono (c : R) : Mono R := ⟨c, [], []⟩

/-- `Variable.ToMonomial` (`symbolic/variable.go:446-452`). -/
def Var.toMono (v : Var R) : Mono R := ⟨one, [1], [v]⟩

/-- `K.ToPolynomial` (`symbolic/constant.go:309-313`). -/
def kToPoly (c : R) : Poly R := ⟨[kToMono c]⟩

/-- `Variable.ToPolynomial` (`symbolic/variable.go:455-459`). -/
def Var.toPoly (v : Var R) : Poly R := ⟨[v.toMono]⟩

/-- `Monomial.ToPolynomial` (`symbolic/monomial.go:549-557`).  `Copy` is the identity on values. -/
def Mono.toPoly (m : Mono R) : Poly R := ⟨[m]⟩

/-! ## Monomial predicates -/

/-- `Monomial.IsConstant` (`symbolic/monomial.go:370-379`), after its `Check`. -/
def Mono.isConstant (m : Mono R) : Bool := m.vars.isEmpty

/-- `Monomial.Variables` (`symbolic/monomial.go:42-44`): no uniqueness check. -/
def Mono.variables (m : Mono R) : List (Var R) := m.vars

/-- `Monomial.IsDegreeOneContainingVariable` (`symbolic/monomial.go:395-422`).  The receiver and
`v` are checked; `VariableFactors[0]`/`Exponents[0]` exist because the monomial is not constant. -/
def Mono.isDegreeOne (m : Mono R) (v : Var R) : Go Bool := do
  m.check
  v.check
  match m.vars, m.exps with
  | [], _ => return false
  | [w], [e] => return (decide (w.id = v.id) && decide (e = 1))
  | _, _ => return false

/-- `Monomial.IsVariable` (`symbolic/monomial.go:425-440`). -/
def Mono.isVariable (m : Mono R) (v : Var R) : Go Bool := do
  m.check
  v.check
  let b ← m.isDegreeOne v
  return (b && feq m.coeff one)

/-- Loop of `Monomial.MatchesFormOf` (`symbolic/monomial.go:461-473`): `vs`, `es` are the remaining
factors and exponents of the receiver, `fs` the remaining exponents of the argument **at the same
position** (the code reads `mIn.Exponents[ii]`, not `mIn.Exponents[foundIndex]`). -/
def matchesLoop (all : List (Var R)) : List (Var R) → List Int → List Int → Bool
  | v :: vs, e :: es, f :: fs =>
    match findVar v all with
    | none => false
    | some _ => if e ≠ f then false else matchesLoop all vs es fs
  | _, _, _ => true

/-- `Monomial.MatchesFormOf` (`symbolic/monomial.go:444-477`). -/
def Mono.matchesFormOf (m mIn : Mono R) : Go Bool := do
  m.check
  mIn.check
  if m.vars.length ≠ mIn.vars.length then return false
  return matchesLoop mIn.vars m.vars m.exps mIn.exps

/-- `Monomial.Degree` (`symbolic/monomial.go:531-546`). -/
def Mono.degree (m : Mono R) : Go Int := do
  m.check
  return m.exps.foldl (· + ·) 0

/-- `Monomial.Constant` (`symbolic/monomial.go:320-326`). -/
def Mono.constant (m : Mono R) : R := if m.vars.isEmpty then m.coeff else zero

/-- `Monomial.ToVariable` (`symbolic/monomial.go:561-580`). -/
def Mono.toVariable (m : Mono R) : Go (Var R) := do
  m.check
  match m.vars with
  | [] => throw .other
  | v :: _ =>
    let b ← m.isDegreeOne v
    if b then return v else throw .other

/-- `Monomial.AsSimplifiedExpression` (`symbolic/monomial.go:728-764`). -/
def Mono.asSimplified (m : Mono R) : Go (Scalar R) := do
  m.check
  if m.isConstant then return .k m.coeff
  if feq m.coeff zero then return .k zero
  match m.vars, m.exps with
  | [v], [e] =>
    if feq m.coeff one && decide (e = 1) then return .var v
    if e = 0 then return .k m.coeff
    return .mono m
  | _, es =>
    if es.all (fun e => decide (e = 0)) then return .k m.coeff
    return .mono m

/-! ## Monomial products -/

/-- One iteration of the degree loops of `Monomial.Multiply` (`symbolic/monomial.go:207-212` and
`215-220`): `multiDegree[foundIndex] += e`; index `-1` is a panic. -/
def addExponent (variables : List (Var R)) (md : List Int) (ve : Var R × Int) : Go (List Int) :=
  match findVar ve.1 variables with
  | none => throw .index
  | some i => pure (md.modify i (· + ve.2))

/-- `Monomial.Multiply(Monomial)` (`symbolic/monomial.go:198-227`), after both checks. -/
def Mono.mulMono (m r : Mono R) : Go (Mono R) := do
  let variables := uniqueVars (m.vars ++ r.vars)
  let md0 := List.replicate variables.length (0 : Int)
  let md1 ← (m.vars.zip m.exps).foldlM (addExponent variables) md0
  let md2 ← (r.vars.zip r.exps).foldlM (addExponent variables) md1
  return ⟨mul m.coeff r.coeff, md2, variables⟩

/-- `Monomial.Multiply(K)` (`symbolic/monomial.go:183-187`). -/
def Mono.mulK (m : Mono R) (c : R) : Mono R := { m with coeff := mul m.coeff c }

/-- `Monomial.Multiply(Variable)` (`symbolic/monomial.go:188-197`). -/
def Mono.mulVar (m : Mono R) (v : Var R) : Mono R :=
  match findVar v m.vars with
  | none => { m with vars := m.vars ++ [v], exps := m.exps ++ [1] }
  | some i => { m with exps := m.exps.modify i (· + 1) }

/-! ## Polynomial helpers -/

/-- `Polynomial.Variables` (`symbolic/polynomial.go:44-50`). -/
def Poly.variables (p : Poly R) : List (Var R) := uniqueVars (p.monos.flatMap (·.vars))

/-- `Polynomial.ConstantMonomialIndex` (`symbolic/polynomial.go:226-242`), after `Check`:
first constant monomial; `none` stands for `-1`. -/
def Poly.constantIndex (p : Poly R) : Option Nat := p.monos.findIdx? (·.isConstant)

/-- Loop of `Polynomial.VariableMonomialIndex` (`symbolic/polynomial.go:258-262`). -/
def varIndexLoop (v : Var R) : List (Mono R) → Go (Option Nat)
  | [] => return none
  | m :: ms => do
    if ← m.isDegreeOne v then return some 0
    return (← varIndexLoop v ms).map (· + 1)

/-- `Polynomial.VariableMonomialIndex` (`symbolic/polynomial.go:245-266`). -/
def Poly.variableIndex (p : Poly R) (v : Var R) : Go (Option Nat) := do
  p.check
  v.check
  varIndexLoop v p.monos

/-- `Polynomial.Constant` (`symbolic/polynomial.go:453-467`). -/
def Poly.constant (p : Poly R) : Go R := do
  p.check
  match p.monos.find? (·.isConstant) with
  | none => return zero
  | some m => return m.coeff

/-- `Polynomial.Degree` (`symbolic/polynomial.go:605-620`): maximum of the degrees, at least 0. -/
def Poly.degree (p : Poly R) : Go Int := do
  p.check
  p.monos.foldlM (fun d m => do
    let dm ← m.degree
    return (if dm > d then dm else d)) 0

/-- `Polynomial.IsConstant` (`symbolic/polynomial.go:666-675`). -/
def Poly.isConstant (p : Poly R) : Go Bool := do
  p.check
  return p.variables.isEmpty

/-- Insertion of one non-constant monomial into the accumulator of `Polynomial.Simplify`
(`symbolic/polynomial.go:489-505`): add to the first entry that `MatchesFormOf` it, else append. -/
def insertMono (m : Mono R) : List (Mono R) → Go (List (Mono R))
  | [] => return [m]
  | e :: es => do
    if ← e.matchesFormOf m then
      return { e with coeff := add e.coeff m.coeff } :: es
    return e :: (← insertMono m es)

/-- Loop body of `Polynomial.Simplify` (`symbolic/polynomial.go:485-507`); the state is the constant
coefficient and the list of non-constant monomials. -/
def simplifyStep (st : R × List (Mono R)) (m : Mono R) : Go (R × List (Mono R)) := do
  if m.isConstant then return (add st.1 m.coeff, st.2)
  return (st.1, ← insertMono m st.2)

/-- `Polynomial.Simplify` (`symbolic/polynomial.go:472-530`). -/
def Poly.simplify (p : Poly R) : Go (Poly R) := do
  p.check
  let st ← p.monos.foldlM simplifyStep (zero, [])
  let out := (if feq st.1 zero then [] else [kToMono st.1]) ++
    st.2.filter (fun m => !feq m.coeff zero)
  return ⟨if out.isEmpty then [kToMono zero] else out⟩

/-- `Polynomial.AsSimplifiedExpression` (`symbolic/polynomial.go:534-557`). -/
def Poly.asSimplified (p : Poly R) : Go (Scalar R) := do
  let q ← p.simplify
  let d ← q.degree
  if d = 0 then return .k (← q.constant)
  if d = 1 then
    match q.monos, q.variables with
    | [m], v :: _ =>
      if ← m.isVariable v then return .var (← m.toVariable)
      return .mono m
    | [_], [] => throw .index
    | _, _ => return .poly q
  match q.monos with
  | [m] => return .mono m
  | _ => return .poly q

/-- `AsSimplifiedExpression` on the interface; for `K` and `Variable` it is the identity
(`constant.go:363-365`, `variable.go:585-587`). -/
def Scalar.asSimplified : Scalar R → Go (Scalar R)
  | .k c => return .k c
  | .var v => return .var v
  | .mono m => m.asSimplified
  | .poly p => p.asSimplified

/-! ## Plus -/

/-- `Polynomial.Plus(K)` (`symbolic/polynomial.go:92-109`, `186`). -/
def Poly.plusK (p : Poly R) (c : R) : Go (Scalar R) := do
  p.check
  let ms := match p.constantIndex with
    | none => p.monos ++ [kToMono c]
    | some i => p.monos.modify i (fun m => { m with coeff := add m.coeff c })
  Poly.asSimplified ⟨ms⟩

/-- `Polynomial.Plus(Variable)` (`symbolic/polynomial.go:111-129`, `186`). -/
def Poly.plusVar (p : Poly R) (v : Var R) : Go (Scalar R) := do
  p.check
  v.check
  let ms ← match ← p.variableIndex v with
    | none => pure (p.monos ++ [v.toMono])
    | some i => pure (p.monos.modify i (fun m => { m with coeff := add m.coeff one }))
  Poly.asSimplified ⟨ms⟩

/-- `Polynomial.Plus(Polynomial)` (`symbolic/polynomial.go:133-139`, `186`). -/
def Poly.plusPoly (p q : Poly R) : Go (Scalar R) := do
  p.check
  q.check
  let out ← Poly.asSimplified ⟨p.monos ++ q.monos⟩
  out.asSimplified

/-- `Polynomial.Plus(Monomial)` (`symbolic/polynomial.go:131-132`, `186`). -/
def Poly.plusMono (p : Poly R) (m : Mono R) : Go (Scalar R) := do
  p.check
  m.check
  let out ← p.plusPoly m.toPoly
  out.asSimplified

/-- `Monomial.Plus` (`symbolic/monomial.go:52-118`). -/
def Mono.plus (m : Mono R) (e : Scalar R) : Go (Scalar R) := do
  m.check
  e.check
  let out : Scalar R ← match e with
    | .k c =>
      if m.isConstant then pure (Scalar.k (add m.coeff c))
      else pure (Scalar.poly ⟨[m, kToMono c]⟩)
    | .var v => do
      if ← m.isDegreeOne v then pure (Scalar.mono { m with coeff := add m.coeff one })
      else pure (Scalar.poly ⟨[m, v.toMono]⟩)
    | .mono r => do
      if ← m.matchesFormOf r then pure (Scalar.mono { m with coeff := add m.coeff r.coeff })
      else pure (Scalar.poly ⟨[m, r]⟩)
    | .poly p => p.plusMono m
  out.asSimplified

/-- `Polynomial.Plus` on scalars (`symbolic/polynomial.go:67-187`). -/
def Poly.plus (p : Poly R) : Scalar R → Go (Scalar R)
  | .k c => p.plusK c
  | .var v => p.plusVar v
  | .mono m => p.plusMono m
  | .poly q => p.plusPoly q

/-- `Variable.Plus` on scalars (`symbolic/variable.go:73-132`).  The argument is not checked. -/
def Var.plus (v : Var R) (e : Scalar R) : Go (Scalar R) := do
  v.check
  let out : Scalar R ← match e with
    | .k c => pure (Scalar.poly ⟨[v.toMono, kToMono c]⟩)
    | .var w =>
      if v.id = w.id then pure (Scalar.mono ⟨ofInt 2, [1], [v]⟩)
      else pure (Scalar.poly ⟨[v.toMono, w.toMono]⟩)
    | .mono m => m.plus (.var v)
    | .poly p => p.plusVar v
  out.asSimplified

/-- `K.Plus` on scalars (`symbolic/constant.go:67-122`). -/
def kPlus (c : R) (e : Scalar R) : Go (Scalar R) := do
  e.check
  match e with
  | .k d => return .k (add c d)
  | .var v => v.plus (.k c)
  | .mono m => m.plus (.k c)
  | .poly p => p.plusK c

/-- `Plus` on the scalar interface. -/
def Scalar.plus : Scalar R → Scalar R → Go (Scalar R)
  | .k c, e => kPlus c e
  | .var v, e => v.plus e
  | .mono m, e => m.plus e
  | .poly p, e => p.plus e

/-! ## Multiply -/

/-- `Polynomial.Multiply(K)` (`symbolic/polynomial.go:319-325`, `375`). -/
def Poly.mulK (p : Poly R) (c : R) : Go (Scalar R) := do
  p.check
  Poly.asSimplified ⟨p.monos.map (·.mulK c)⟩

/-- `Polynomial.Multiply(Variable)` (`symbolic/polynomial.go:326-332`, `375`). -/
def Poly.mulVar (p : Poly R) (v : Var R) : Go (Scalar R) := do
  p.check
  v.check
  Poly.asSimplified ⟨p.monos.map (·.mulVar v)⟩

/-- `Polynomial.Multiply(Monomial)` (`symbolic/polynomial.go:333-342`, `375`). -/
def Poly.mulMono (p : Poly R) (r : Mono R) : Go (Scalar R) := do
  p.check
  r.check
  let ms ← p.monos.mapM (fun m => m.mulMono r)
  Poly.asSimplified ⟨ms⟩

/-- `Polynomial.Multiply(Polynomial)` (`symbolic/polynomial.go:343-355`, `375`):
`productOut := K(0); productOut = productOut.Plus(p.Multiply(q_i))` for each term of `q`. -/
def Poly.mulPoly (p q : Poly R) : Go (Scalar R) := do
  p.check
  q.check
  let out ← q.monos.foldlM (fun acc r => do
    let prod ← p.mulMono r
    acc.plus prod) (Scalar.k zero)
  out.asSimplified

/-- `Polynomial.Multiply` on scalars (`symbolic/polynomial.go:294-376`). -/
def Poly.mul (p : Poly R) : Scalar R → Go (Scalar R)
  | .k c => p.mulK c
  | .var v => p.mulVar v
  | .mono m => p.mulMono m
  | .poly q => p.mulPoly q

/-- `Monomial.Multiply` on scalars (`symbolic/monomial.go:155-236`); the result is not simplified. -/
def Mono.mul (m : Mono R) (e : Scalar R) : Go (Scalar R) := do
  m.check
  e.check
  match e with
  | .k c => return .mono (m.mulK c)
  | .var v => return .mono (m.mulVar v)
  | .mono r => return .mono (← m.mulMono r)
  | .poly p => p.mulMono m

/-- `Variable.Multiply` on scalars (`symbolic/variable.go:274-351`). -/
def Var.mul (v : Var R) (e : Scalar R) : Go (Scalar R) := do
  v.check
  e.check
  let out : Scalar R ← match e with
    | .k c => pure (Scalar.mono ⟨c, [1], [v]⟩)
    | .var w =>
      if w.id = v.id then pure (Scalar.mono ⟨one, [2], [v]⟩)
      else pure (Scalar.mono ⟨one, [1, 1], [v, w]⟩)
    | .mono m => m.mul (.var v)
    | .poly p => p.mulVar v
  out.asSimplified

/-- `K.Multiply` on scalars (`symbolic/constant.go:245-287`). -/
def kMul (c : R) (e : Scalar R) : Go (Scalar R) := do
  e.check
  match e with
  | .k d => return .k (GoNum.mul c d)
  | .var v => v.mul (.k c)
  | .mono m => m.mul (.k c)
  | .poly p => p.mulK c

/-- `Multiply` on the scalar interface. -/
def Scalar.mul : Scalar R → Scalar R → Go (Scalar R)
  | .k c, e => kMul c e
  | .var v, e => v.mul e
  | .mono m, e => m.mul e
  | .poly p, e => p.mul e

/-! ## Minus, Power -/

/-- The literal `-1.0` of `Minus`. -/
def negOne : R := neg one

/-- `e.Plus(c)` with a `float64` argument: converted to `K`, and the result is simplified once more for
`Variable`, `Monomial` and `Polynomial` (`constant.go:87-88`, `variable.go:83-84` and `131`,
`monomial.go:76-77` and `117`, `polynomial.go:90-91` and `186`). -/
def Scalar.plusF64 (e : Scalar R) (c : R) : Go (Scalar R) :=
  match e with
  | .k d => kPlus d (.k c)
  | e => do
    let out ← e.plus (.k c)
    out.asSimplified

/-- `e.Multiply(c)` with a `float64` argument: converted to `K`, and the result is simplified once more
for `Variable` and `Polynomial` (`constant.go:266-267`, `variable.go:297-298` and `350`,
`monomial.go:179-180`, `polynomial.go:317-318` and `375`). -/
def Scalar.mulF64 (e : Scalar R) (c : R) : Go (Scalar R) :=
  match e with
  | .k d => kMul d (.k c)
  | .mono m => m.mul (.k c)
  | e => do
    let out ← e.mul (.k c)
    out.asSimplified

/-- `Minus` on scalars: the methods check both operands, then
`left.Plus(right.Multiply(-1.0))` (`symbolic/expression.go:119-123`, `constant.go:125-156`,
`variable.go:136-172`, `monomial.go:121-152`, `polynomial.go:190-222`). -/
def Scalar.minus (a b : Scalar R) : Go (Scalar R) := do
  a.check
  b.check
  let nb ← b.mulF64 negOne
  a.plus nb

/-- Loop of `ScalarPowerTemplate` (`symbolic/scalar_expression.go:161-164`). -/
def powLoop (base : Scalar R) : Nat → Scalar R → Go (Scalar R)
  | 0, acc => return acc
  | n + 1, acc => do powLoop base n (← acc.mul base)

/-- `ScalarPowerTemplate` (`symbolic/scalar_expression.go:147-167`), which is `Power` for every
scalar kind. -/
def Scalar.power (base : Scalar R) (n : Int) : Go (Scalar R) := do
  base.check
  if n < 0 then throw .negExponent
  powLoop base n.toNat (.k one)

/-! ## Variables, Constant, Degree, LinearCoeff -/

/-- `Variables` on scalars (`constant.go:32`, `variable.go:23`, `monomial.go:42`,
`polynomial.go:44`). -/
def Scalar.variables : Scalar R → List (Var R)
  | .k _ => []
  | .var v => [v]
  | .mono m => m.variables
  | .poly p => p.variables

/-- `Constant` on scalars (`constant.go:38`, `variable.go:29`, `monomial.go:320`,
`polynomial.go:453`). -/
def Scalar.constant : Scalar R → Go R
  | .k c => return c
  | .var _ => return zero
  | .mono m => return m.constant
  | .poly p => p.constant

/-- `Degree` on scalars (`constant.go:321`, `variable.go:485`, `monomial.go:531`,
`polynomial.go:605`). -/
def Scalar.degree : Scalar R → Go Int
  | .k _ => return 0
  | .var _ => return 1
  | .mono m => m.degree
  | .poly p => p.degree

/-- `IsLinear` on scalars (`symbolic/expression.go:129-138`). -/
def Scalar.isLinear (e : Scalar R) : Go Bool := do
  return decide ((← e.degree) ≤ 1)

/-- `IsQuadratic` on scalars (`symbolic/expression.go:144-153`). -/
def Scalar.isQuadratic (e : Scalar R) : Go Bool := do
  return decide ((← e.degree) ≤ 2)

/-- `K.LinearCoeff` (`symbolic/constant.go:44-64`): extra arguments are ignored. -/
def kLinearCoeff (wrt : List (List (Var R))) : Go (List R) :=
  match wrt with
  | [] => throw .linCoeffConst
  | w :: _ => if w.isEmpty then throw .linCoeffConst else return List.replicate w.length zero

/-- The variadic argument `wrt ...[]Variable` with default `dflt`
(`variable.go:42-52`, `monomial.go:337-347`, `polynomial.go:634-642`). -/
def wrtOrDefault (dflt : List (Var R)) : List (List (Var R)) → Go (List (Var R))
  | [] => return dflt
  | [w] => return w
  | _ => throw .tooManyInputs

/-- `Variable.LinearCoeff` (`symbolic/variable.go:35-69`). -/
def Var.linearCoeff (v : Var R) (wrt : List (List (Var R))) : Go (List R) := do
  v.check
  let ws ← wrtOrDefault [v] wrt
  if ws.isEmpty then throw .linCoeffConst
  return ws.map (fun w => if v.id = w.id then one else zero)

/-- `Monomial.LinearCoeff` (`symbolic/monomial.go:330-367`).  `m.VariableFactors[0]` panics on a
constant monomial and `SetVec(-1, _)` panics when the factor is not in the list. -/
def Mono.linearCoeff (m : Mono R) (wrt : List (List (Var R))) : Go (List R) := do
  m.check
  let ws ← wrtOrDefault m.vars wrt
  if ws.isEmpty then throw .linCoeffConst
  let zeros := List.replicate ws.length (zero : R)
  if (← m.degree) ≤ 1 then
    match m.vars with
    | [] => throw .index
    | v :: _ =>
      match findVar v ws with
      | none => throw .index
      | some i => return zeros.set i m.coeff
  else return zeros

/-- `Polynomial.LinearCoeff` (`symbolic/polynomial.go:626-662`). -/
def Poly.linearCoeff (p : Poly R) (wrt : List (List (Var R))) : Go (List R) := do
  p.check
  let ws ← wrtOrDefault p.variables wrt
  if ws.isEmpty then throw .linCoeffConst
  ws.mapM (fun w => do
    match ← p.variableIndex w with
    | none => return zero
    | some i =>
      match p.monos[i]? with
      | some m => return m.coeff
      | none => throw .index)

/-- `LinearCoeff` on the scalar interface. -/
def Scalar.linearCoeff (e : Scalar R) (wrt : List (List (Var R))) : Go (List R) :=
  match e with
  | .k _ => kLinearCoeff wrt
  | .var v => v.linearCoeff wrt
  | .mono m => m.linearCoeff wrt
  | .poly p => p.linearCoeff wrt

/-! ## DerivativeWrt (returned value; see `Model/Heap` for the write to the receiver) -/

/-- `Monomial.DerivativeWrt` (`symbolic/monomial.go:484-528`), returned value only. -/
def Mono.derivative (m : Mono R) (v : Var R) : Go (Scalar R) := do
  m.check
  v.check
  match findVar v m.vars with
  | none => return .k zero
  | some i =>
    match m.exps[i]? with
    | none => throw .index
    | some e =>
      if e = 1 ∧ m.vars.length = 1 then return .k m.coeff
      else if e = 1 then
        return .mono ⟨m.coeff, m.exps.eraseIdx i, m.vars.eraseIdx i⟩
      else
        return .mono ⟨GoNum.mul m.coeff (ofInt e), m.exps.modify i (· - 1), m.vars⟩

/-- Loop body of `Polynomial.DerivativeWrt` (`symbolic/polynomial.go:574-594`). -/
def derivStep (v : Var R) (acc : List (Mono R)) (m : Mono R) : Go (List (Mono R)) := do
  if m.isConstant then return acc
  match ← m.derivative v with
  | .mono d => return acc ++ [d]
  | .k c => if feq c zero then return acc else return acc ++ [kToMono c]
  | _ => throw .other

/-- `Polynomial.DerivativeWrt` (`symbolic/polynomial.go:560-602`), returned value only. -/
def Poly.derivative (p : Poly R) (v : Var R) : Go (Scalar R) := do
  p.check
  v.check
  let ms ← p.monos.foldlM (derivStep v) []
  if ms.isEmpty then return .k zero
  return .poly ⟨ms⟩

/-- `DerivativeWrt` on the scalar interface (`constant.go:316`, `variable.go:464-482`). -/
def Scalar.derivative (e : Scalar R) (v : Var R) : Go (Scalar R) :=
  match e with
  | .k _ => return .k zero
  | .var w => do
    w.check
    v.check
    if w.id = v.id then return .k one else return .k zero
  | .mono m => m.derivative v
  | .poly p => p.derivative v

/-! ## Substitute -/

/-- `Variable.Substitute` (`symbolic/variable.go:495-523`): replaces when the ID **and** the
environment agree. -/
def Var.substitute (v vIn : Var R) (s : Scalar R) : Go (Scalar R) := do
  v.check
  vIn.check
  s.check
  if v.id = vIn.id ∧ v.env = vIn.env then return s else return .var v

/-- `Monomial.Substitute` (`symbolic/monomial.go:630-665`). -/
def Mono.substitute (m : Mono R) (vIn : Var R) (s : Scalar R) : Go (Scalar R) := do
  m.check
  vIn.check
  s.check
  match findVar vIn m.vars with
  | none => return .mono m
  | some _ =>
    (m.vars.zip m.exps).foldlM (fun prod ve => do
      let sub ← ve.1.substitute vIn s
      let pw ← sub.power ve.2
      prod.mul pw) (Scalar.k m.coeff)

/-- `Polynomial.Substitute` (`symbolic/polynomial.go:718-743`). -/
def Poly.substitute (p : Poly R) (vIn : Var R) (s : Scalar R) : Go (Scalar R) := do
  p.check
  vIn.check
  s.check
  let out ← p.monos.foldlM (fun acc m => do
    let t ← m.substitute vIn s
    acc.plus t) (Scalar.k zero)
  out.asSimplified

/-- `Substitute` on the scalar interface; `K.Substitute` is `constant.go:331-333`. -/
def Scalar.substitute (e : Scalar R) (vIn : Var R) (s : Scalar R) : Go (Scalar R) :=
  match e with
  | .k c => return .k c
  | .var v => v.substitute vIn s
  | .mono m => m.substitute vIn s
  | .poly p => p.substitute vIn s

/-! ## SubstituteAccordingTo

A `map[Variable]Expression` is an association list.  Go compares map keys with `==` on the whole
struct (`Var.keyEq`).  Values that are vectors or matrices are rejected by `CheckSubstitutionMap`
(`utils.go:177`); the model's maps have scalar values, which is what passes that check. -/

/-- `==` on `Variable` structs, as used for map keys: IDs, bounds (float `==`), type, name and
environment pointer. -/
def Var.keyEq (a b : Var R) : Bool :=
  decide (a.id = b.id) && feq a.lower b.lower && feq a.upper b.upper &&
    decide (a.vtype = b.vtype) && decide (a.name = b.name) && decide (a.env = b.env)

/-- A substitution map, in one iteration order. -/
abbrev SubMap (R : Type) := List (Var R × Scalar R)

/-- `CheckSubstitutionMap` (`symbolic/utils.go:151-189`). -/
def checkSubMap (sm : SubMap R) : Go Unit :=
  sm.forM (fun kv => do kv.1.check; kv.2.check)

/-- Map lookup `subMap[v]`. -/
def SubMap.lookup (sm : SubMap R) (v : Var R) : Option (Scalar R) :=
  (sm.find? (fun kv => v.keyEq kv.1)).map (·.2)

/-- `Variable.SubstituteAccordingTo` (`symbolic/variable.go:526-544`). -/
def Var.substMap (v : Var R) (sm : SubMap R) : Go (Scalar R) := do
  v.check
  checkSubMap sm
  match sm.lookup v with
  | some e => return e
  | none => return .var v

/-- `Monomial.SubstituteAccordingTo` (`symbolic/monomial.go:668-693`). -/
def Mono.substMap (m : Mono R) (sm : SubMap R) : Go (Scalar R) := do
  m.check
  checkSubMap sm
  (m.vars.zip m.exps).foldlM (fun out ve => do
    let sub ← ve.1.substMap sm
    let pw ← sub.power ve.2
    out.mul pw) (Scalar.k m.coeff)

/-- `Polynomial.SubstituteAccordingTo` (`symbolic/polynomial.go:746-766`). -/
def Poly.substMap (p : Poly R) (sm : SubMap R) : Go (Scalar R) := do
  p.check
  checkSubMap sm
  p.monos.foldlM (fun acc m => do
    let t ← m.substMap sm
    acc.plus t) (Scalar.k zero)

/-- `SubstituteAccordingTo` on the scalar interface (`constant.go:336-338`). -/
def Scalar.substMap (e : Scalar R) (sm : SubMap R) : Go (Scalar R) :=
  match e with
  | .k c => return .k c
  | .var v => v.substMap sm
  | .mono m => m.substMap sm
  | .poly p => p.substMap sm

end Verif
