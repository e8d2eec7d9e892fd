import Verif.Model.Scalar

/-!
# Scalar operations with machine integers

`Model/Scalar.lean` uses unbounded exponents.  Here the same functions store exponents and degrees in an `int` of the machine:
every addition to and subtraction from an exponent or a degree goes through `w`, which is `wrap 64` on a 64-bit machine.
Functions of `Model/Scalar.lean` that neither compute an exponent nor a degree are used as they are.
-/

namespace Verif

open GoNum

/-- The value of an integer kept in `b` bits, two's complement. -/
def wrap (b : Nat) (x : Int) : Int := x.bmod (2 ^ b)

variable {R : Type} [GoNum R] (w : Int → Int)

/-- `Monomial.Degree` (`symbolic/monomial.go:531-546`). -/
def Mono.degreeW (m : Mono R) : Go Int := do
  m.check
  return m.exps.foldl (fun d e => w (d + e)) 0

/-- `multiDegree[foundIndex] += e` (`symbolic/monomial.go:207-212` and `215-220`). -/
def addExponentW (variables : List (Var R)) (md : List Int) (ve : Var R × Int) : Go (List Int) :=
  match findVar ve.1 variables with
  | none => throw .index
  | some i => pure (md.modify i (fun e => w (e + ve.2)))

/-- `Monomial.Multiply(Monomial)` (`symbolic/monomial.go:198-227`). -/
def Mono.mulMonoW (m r : Mono R) : Go (Mono R) := do
  let variables := uniqueVars (m.vars ++ r.vars)
  let md0 := List.replicate variables.length (0 : Int)
  let md1 ← (m.vars.zip m.exps).foldlM (addExponentW w variables) md0
  let md2 ← (r.vars.zip r.exps).foldlM (addExponentW w variables) md1
  return ⟨GoNum.mul m.coeff r.coeff, md2, variables⟩

/-- `Monomial.Multiply(Variable)` (`symbolic/monomial.go:188-197`). -/
def Mono.mulVarW (m : Mono R) (v : Var R) : Mono R :=
  match findVar v m.vars with
  | none => { m with vars := m.vars ++ [v], exps := m.exps ++ [1] }
  | some i => { m with exps := m.exps.modify i (fun e => w (e + 1)) }

/-- `Polynomial.Degree` (`symbolic/polynomial.go:605-620`). -/
def Poly.degreeW (p : Poly R) : Go Int := do
  p.check
  p.monos.foldlM (fun d m => do
    let dm ← m.degreeW w
    return (if dm > d then dm else d)) 0

/-- `Polynomial.AsSimplifiedExpression` (`symbolic/polynomial.go:534-557`). -/
def Poly.asSimplifiedW (p : Poly R) : Go (Scalar R) := do
  let q ← p.simplify
  let d ← q.degreeW w
  if d = 0 then return .k (← q.constant)
  if d = 1 then
    match q.monos, q.variables with
    | [m], v :: _ =>
      if ← m.isVariable v then return .var (← m.toVariable)
      return .mono m
    | [_], [] => throw .index
    | _, _ => return .poly q
  match q.monos with
  | [m] => return .mono m
  | _ => return .poly q

/-- `AsSimplifiedExpression` on the interface. -/
def Scalar.asSimplifiedW : Scalar R → Go (Scalar R)
  | .k c => return .k c
  | .var v => return .var v
  | .mono m => m.asSimplified
  | .poly p => p.asSimplifiedW w

/-! ## Plus -/

/-- `Polynomial.Plus(K)` (`symbolic/polynomial.go:92-109`, `186`). -/
def Poly.plusKW (p : Poly R) (c : R) : Go (Scalar R) := do
  p.check
  let ms := match p.constantIndex with
    | none => p.monos ++ [kToMono c]
    | some i => p.monos.modify i (fun m => { m with coeff := add m.coeff c })
  Poly.asSimplifiedW w ⟨ms⟩

/-- `Polynomial.Plus(Variable)` (`symbolic/polynomial.go:111-129`, `186`). -/
def Poly.plusVarW (p : Poly R) (v : Var R) : Go (Scalar R) := do
  p.check
  v.check
  let ms ← match ← p.variableIndex v with
    | none => pure (p.monos ++ [v.toMono])
    | some i => pure (p.monos.modify i (fun m => { m with coeff := add m.coeff one }))
  Poly.asSimplifiedW w ⟨ms⟩

/-- `Polynomial.Plus(Polynomial)` (`symbolic/polynomial.go:133-139`, `186`). -/
def Poly.plusPolyW (p q : Poly R) : Go (Scalar R) := do
  p.check
  q.check
  let out ← Poly.asSimplifiedW w ⟨p.monos ++ q.monos⟩
  out.asSimplifiedW w

/-- `Polynomial.Plus(Monomial)` (`symbolic/polynomial.go:131-132`, `186`). -/
def Poly.plusMonoW (p : Poly R) (m : Mono R) : Go (Scalar R) := do
  p.check
  m.check
  let out ← p.plusPolyW w m.toPoly
  out.asSimplifiedW w

/-- `Monomial.Plus` (`symbolic/monomial.go:52-118`). -/
def Mono.plusW (m : Mono R) (e : Scalar R) : Go (Scalar R) := do
  m.check
  e.check
  let out : Scalar R ← match e with
    | .k c =>
      if m.isConstant then pure (Scalar.k (add m.coeff c))
      else pure (Scalar.poly ⟨[m, kToMono c]⟩)
    | .var v => do
      if ← m.isDegreeOne v then pure (Scalar.mono { m with coeff := add m.coeff one })
      else pure (Scalar.poly ⟨[m, v.toMono]⟩)
    | .mono r => do
      if ← m.matchesFormOf r then pure (Scalar.mono { m with coeff := add m.coeff r.coeff })
      else pure (Scalar.poly ⟨[m, r]⟩)
    | .poly p => p.plusMonoW w m
  out.asSimplifiedW w

/-- `Polynomial.Plus` on scalars (`symbolic/polynomial.go:67-187`). -/
def Poly.plusW (p : Poly R) : Scalar R → Go (Scalar R)
  | .k c => p.plusKW w c
  | .var v => p.plusVarW w v
  | .mono m => p.plusMonoW w m
  | .poly q => p.plusPolyW w q

/-- `Variable.Plus` on scalars (`symbolic/variable.go:73-132`). -/
def Var.plusW (v : Var R) (e : Scalar R) : Go (Scalar R) := do
  v.check
  let out : Scalar R ← match e with
    | .k c => pure (Scalar.poly ⟨[v.toMono, kToMono c]⟩)
    | .var w =>
      if v.id = w.id then pure (Scalar.mono ⟨ofInt 2, [1], [v]⟩)
      else pure (Scalar.poly ⟨[v.toMono, w.toMono]⟩)
    | .mono m => m.plusW w (.var v)
    | .poly p => p.plusVarW w v
  out.asSimplifiedW w

/-- `K.Plus` on scalars (`symbolic/constant.go:67-122`). -/
def kPlusW (c : R) (e : Scalar R) : Go (Scalar R) := do
  e.check
  match e with
  | .k d => return .k (add c d)
  | .var v => v.plusW w (.k c)
  | .mono m => m.plusW w (.k c)
  | .poly p => p.plusKW w c

/-- `Plus` on the scalar interface. -/
def Scalar.plusW : Scalar R → Scalar R → Go (Scalar R)
  | .k c, e => kPlusW w c e
  | .var v, e => v.plusW w e
  | .mono m, e => m.plusW w e
  | .poly p, e => p.plusW w e

/-! ## Multiply -/

/-- `Polynomial.Multiply(K)` (`symbolic/polynomial.go:319-325`, `375`). -/
def Poly.mulKW (p : Poly R) (c : R) : Go (Scalar R) := do
  p.check
  Poly.asSimplifiedW w ⟨p.monos.map (·.mulK c)⟩

/-- `Polynomial.Multiply(Variable)` (`symbolic/polynomial.go:326-332`, `375`). -/
def Poly.mulVarW (p : Poly R) (v : Var R) : Go (Scalar R) := do
  p.check
  v.check
  Poly.asSimplifiedW w ⟨p.monos.map (·.mulVarW w v)⟩

/-- `Polynomial.Multiply(Monomial)` (`symbolic/polynomial.go:333-342`, `375`). -/
def Poly.mulMonoW (p : Poly R) (r : Mono R) : Go (Scalar R) := do
  p.check
  r.check
  let ms ← p.monos.mapM (fun m => m.mulMonoW w r)
  Poly.asSimplifiedW w ⟨ms⟩

/-- `Polynomial.Multiply(Polynomial)` (`symbolic/polynomial.go:343-355`, `375`). -/
def Poly.mulPolyW (p q : Poly R) : Go (Scalar R) := do
  p.check
  q.check
  let out ← q.monos.foldlM (fun acc r => do
    let prod ← p.mulMonoW w r
    acc.plusW w prod) (Scalar.k zero)
  out.asSimplifiedW w

/-- `Polynomial.Multiply` on scalars (`symbolic/polynomial.go:294-376`). -/
def Poly.mulW (p : Poly R) : Scalar R → Go (Scalar R)
  | .k c => p.mulKW w c
  | .var v => p.mulVarW w v
  | .mono m => p.mulMonoW w m
  | .poly q => p.mulPolyW w q

/-- `Monomial.Multiply` on scalars (`symbolic/monomial.go:155-236`). -/
def Mono.mulW (m : Mono R) (e : Scalar R) : Go (Scalar R) := do
  m.check
  e.check
  match e with
  | .k c => return .mono (m.mulK c)
  | .var v => return .mono (m.mulVarW w v)
  | .mono r => return .mono (← m.mulMonoW w r)
  | .poly p => p.mulMonoW w m

/-- `Variable.Multiply` on scalars (`symbolic/variable.go:274-351`). -/
def Var.mulW (v : Var R) (e : Scalar R) : Go (Scalar R) := do
  v.check
  e.check
  let out : Scalar R ← match e with
    | .k c => pure (Scalar.mono ⟨c, [1], [v]⟩)
    | .var w =>
      if w.id = v.id then pure (Scalar.mono ⟨one, [2], [v]⟩)
      else pure (Scalar.mono ⟨one, [1, 1], [v, w]⟩)
    | .mono m => m.mulW w (.var v)
    | .poly p => p.mulVarW w v
  out.asSimplifiedW w

/-- `K.Multiply` on scalars (`symbolic/constant.go:245-287`). -/
def kMulW (c : R) (e : Scalar R) : Go (Scalar R) := do
  e.check
  match e with
  | .k d => return .k (GoNum.mul c d)
  | .var v => v.mulW w (.k c)
  | .mono m => m.mulW w (.k c)
  | .poly p => p.mulKW w c

/-- `Multiply` on the scalar interface. -/
def Scalar.mulW : Scalar R → Scalar R → Go (Scalar R)
  | .k c, e => kMulW w c e
  | .var v, e => v.mulW w e
  | .mono m, e => m.mulW w e
  | .poly p, e => p.mulW w e

/-! ## Minus, Power -/

/-- `e.Multiply(c)` with a `float64` argument (`constant.go:266-267`, `variable.go:297-298` and `350`,
`monomial.go:179-180`, `polynomial.go:317-318` and `375`). -/
def Scalar.mulF64W (e : Scalar R) (c : R) : Go (Scalar R) :=
  match e with
  | .k d => kMulW w d (.k c)
  | .mono m => m.mulW w (.k c)
  | e => do
    let out ← e.mulW w (.k c)
    out.asSimplifiedW w

/-- `Minus` on scalars (`symbolic/expression.go:119-123`, `constant.go:125-156`,
`variable.go:136-172`, `monomial.go:121-152`, `polynomial.go:190-222`). -/
def Scalar.minusW (a b : Scalar R) : Go (Scalar R) := do
  a.check
  b.check
  let nb ← b.mulF64W w negOne
  a.plusW w nb

/-- Loop of `ScalarPowerTemplate` (`symbolic/scalar_expression.go:161-164`). -/
def powLoopW (base : Scalar R) : Nat → Scalar R → Go (Scalar R)
  | 0, acc => return acc
  | n + 1, acc => do powLoopW base n (← acc.mulW w base)

/-- `ScalarPowerTemplate` (`symbolic/scalar_expression.go:147-167`). -/
def Scalar.powerW (base : Scalar R) (n : Int) : Go (Scalar R) := do
  base.check
  if n < 0 then throw .negExponent
  powLoopW w base n.toNat (.k one)

/-! ## Degree, LinearCoeff -/

/-- `Degree` on scalars (`constant.go:321`, `variable.go:485`, `monomial.go:531`, `polynomial.go:605`). -/
def Scalar.degreeW : Scalar R → Go Int
  | .k _ => return 0
  | .var _ => return 1
  | .mono m => m.degreeW w
  | .poly p => p.degreeW w

/-- `IsLinear` on scalars (`symbolic/expression.go:129-138`). -/
def Scalar.isLinearW (e : Scalar R) : Go Bool := do
  return decide ((← e.degreeW w) ≤ 1)

/-- `IsQuadratic` on scalars (`symbolic/expression.go:144-153`). -/
def Scalar.isQuadraticW (e : Scalar R) : Go Bool := do
  return decide ((← e.degreeW w) ≤ 2)

/-- `Monomial.LinearCoeff` (`symbolic/monomial.go:330-367`). -/
def Mono.linearCoeffW (m : Mono R) (wrt : List (List (Var R))) : Go (List R) := do
  m.check
  let ws ← wrtOrDefault m.vars wrt
  if ws.isEmpty then throw .linCoeffConst
  let zeros := List.replicate ws.length (zero : R)
  if (← m.degreeW w) ≤ 1 then
    match m.vars with
    | [] => throw .index
    | v :: _ =>
      match findVar v ws with
      | none => throw .index
      | some i => return zeros.set i m.coeff
  else return zeros

/-- `LinearCoeff` on the scalar interface. -/
def Scalar.linearCoeffW (e : Scalar R) (wrt : List (List (Var R))) : Go (List R) :=
  match e with
  | .k _ => kLinearCoeff wrt
  | .var v => v.linearCoeff wrt
  | .mono m => m.linearCoeffW w wrt
  | .poly p => p.linearCoeff wrt

/-! ## DerivativeWrt -/

/-- `Monomial.DerivativeWrt` (`symbolic/monomial.go:484-528`), returned value only. -/
def Mono.derivativeW (m : Mono R) (v : Var R) : Go (Scalar R) := do
  m.check
  v.check
  match findVar v m.vars with
  | none => return .k zero
  | some i =>
    match m.exps[i]? with
    | none => throw .index
    | some e =>
      if e = 1 ∧ m.vars.length = 1 then return .k m.coeff
      else if e = 1 then
        return .mono ⟨m.coeff, m.exps.eraseIdx i, m.vars.eraseIdx i⟩
      else
        return .mono ⟨GoNum.mul m.coeff (ofInt e), m.exps.modify i (fun e => w (e - 1)), m.vars⟩

/-- Loop body of `Polynomial.DerivativeWrt` (`symbolic/polynomial.go:574-594`). -/
def derivStepW (v : Var R) (acc : List (Mono R)) (m : Mono R) : Go (List (Mono R)) := do
  if m.isConstant then return acc
  match ← m.derivativeW w v with
  | .mono d => return acc ++ [d]
  | .k c => if feq c zero then return acc else return acc ++ [kToMono c]
  | _ => throw .other

/-- `Polynomial.DerivativeWrt` (`symbolic/polynomial.go:560-602`), returned value only. -/
def Poly.derivativeW (p : Poly R) (v : Var R) : Go (Scalar R) := do
  p.check
  v.check
  let ms ← p.monos.foldlM (derivStepW w v) []
  if ms.isEmpty then return .k zero
  return .poly ⟨ms⟩

/-- `DerivativeWrt` on the scalar interface (`constant.go:316`, `variable.go:464-482`). -/
def Scalar.derivativeW (e : Scalar R) (v : Var R) : Go (Scalar R) :=
  match e with
  | .k _ => return .k zero
  | .var w => do
    w.check
    v.check
    if w.id = v.id then return .k one else return .k zero
  | .mono m => m.derivativeW w v
  | .poly p => p.derivativeW w v

/-! ## Substitute -/

/-- `Monomial.Substitute` (`symbolic/monomial.go:630-665`). -/
def Mono.substituteW (m : Mono R) (vIn : Var R) (s : Scalar R) : Go (Scalar R) := do
  m.check
  vIn.check
  s.check
  match findVar vIn m.vars with
  | none => return .mono m
  | some _ =>
    (m.vars.zip m.exps).foldlM (fun prod ve => do
      let sub ← ve.1.substitute vIn s
      let pw ← sub.powerW w ve.2
      prod.mulW w pw) (Scalar.k m.coeff)

/-- `Polynomial.Substitute` (`symbolic/polynomial.go:718-743`). -/
def Poly.substituteW (p : Poly R) (vIn : Var R) (s : Scalar R) : Go (Scalar R) := do
  p.check
  vIn.check
  s.check
  let out ← p.monos.foldlM (fun acc m => do
    let t ← m.substituteW w vIn s
    acc.plusW w t) (Scalar.k zero)
  out.asSimplifiedW w

/-- `Substitute` on the scalar interface; `K.Substitute` is `constant.go:331-333`. -/
def Scalar.substituteW (e : Scalar R) (vIn : Var R) (s : Scalar R) : Go (Scalar R) :=
  match e with
  | .k c => return .k c
  | .var v => v.substitute vIn s
  | .mono m => m.substituteW w vIn s
  | .poly p => p.substituteW w vIn s

/-- `Monomial.SubstituteAccordingTo` (`symbolic/monomial.go:668-693`). -/
def Mono.substMapW (m : Mono R) (sm : SubMap R) : Go (Scalar R) := do
  m.check
  checkSubMap sm
  (m.vars.zip m.exps).foldlM (fun out ve => do
    let sub ← ve.1.substMap sm
    let pw ← sub.powerW w ve.2
    out.mulW w pw) (Scalar.k m.coeff)

/-- `Polynomial.SubstituteAccordingTo` (`symbolic/polynomial.go:746-766`). -/
def Poly.substMapW (p : Poly R) (sm : SubMap R) : Go (Scalar R) := do
  p.check
  checkSubMap sm
  p.monos.foldlM (fun acc m => do
    let t ← m.substMapW w sm
    acc.plusW w t) (Scalar.k zero)

/-- `SubstituteAccordingTo` on the scalar interface (`constant.go:336-338`). -/
def Scalar.substMapW (e : Scalar R) (sm : SubMap R) : Go (Scalar R) :=
  match e with
  | .k c => return .k c
  | .var v => v.substMap sm
  | .mono m => m.substMapW w sm
  | .poly p => p.substMapW w sm

end Verif
