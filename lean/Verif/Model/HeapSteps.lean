import Verif.Model.HeapArith
import Mathlib.Logic.Relation

/-!
# Model of scalar arithmetic by several goroutines, one memory access at a time

The functions of `Model/HeapArith`, as sequences of single accesses to the memory that goroutines share:
reading exponent slices, making one, and writing to one.  Between two accesses of a goroutine the others may
do anything.  Allocation is atomic, as in Go; a read of several slices takes place over time (`Torn`).
That each function, run alone, is the function of `Model/HeapArith` is proved in `Lemmas/HeapStepsRun`.

Everything else a goroutine handles (coefficients, slice headers, `VariableFactors`, monomials of
polynomials) is on its own stack or immutable here, as in `Model/HeapArith`.
-/

namespace Verif

open GoNum

variable {R : Type}

/-- The rest of a goroutine. -/
inductive SM (R α : Type) : Type
  /-- It returned, or panicked. -/
  | ret (r : Go α)
  /-- It reads the memory and goes on according to what it finds. -/
  | read (k : Heap R → SM R α)
  /-- It makes an exponent slice and learns the address. -/
  | alloc (l : List Int) (k : Nat → SM R α)
  /-- It writes to an exponent slice. -/
  | write (a : Nat) (f : List Int → List Int) (k : SM R α)

namespace SM
variable {α β : Type}

protected def pure (a : α) : SM R α := .ret (.ok a)

protected def bind : SM R α → (α → SM R β) → SM R β
  | .ret (.ok a), f => f a
  | .ret (.error e), _ => .ret (.error e)
  | .read k, f => .read (fun h => (k h).bind f)
  | .alloc l k, f => .alloc l (fun a => (k a).bind f)
  | .write a g k, f => .write a g (k.bind f)

instance : Monad (SM R) where
  pure := SM.pure
  bind := SM.bind

/-- `panic(...)`. -/
def panic (e : Err) : SM R α := .ret (.error e)

/-- Reading. -/
def look (f : Heap R → Go α) : SM R α := .read (fun h => .ret (f h))

/-- `append` to a nil slice: a new exponent slice. -/
def new (l : List Int) : SM R Nat := .alloc l (fun a => .ret (.ok a))

/-- An assignment to elements of an exponent slice. -/
def store (a : Nat) (f : List Int → List Int) : SM R Unit := .write a f (.ret (.ok ()))

/-- A loop that collects one result per element. -/
def traverse (f : α → SM R β) : List α → SM R (List β)
  | [] => pure []
  | a :: l => do
    let b ← f a
    let bs ← traverse f l
    pure (b :: bs)

/-- A loop with an accumulator. -/
def foldl (f : β → α → SM R β) : List α → β → SM R β
  | [], b => pure b
  | a :: l, b => do
    let b' ← f b a
    foldl f l b'

/-- A call whose panic is recovered. -/
def attempt : SM R α → SM R (Go α)
  | .ret r => .ret (.ok r)
  | .read k => .read (fun h => (k h).attempt)
  | .alloc l k => .alloc l (fun a => (k a).attempt)
  | .write a g k => .write a g k.attempt

/-- Running alone. -/
def run : SM R α → PM (Heap R) α
  | .ret r => fun h => (r, h)
  | .read k => fun h => (k h).run h
  | .alloc l k => fun h => (k h.exps.length).run { h with exps := h.exps ++ [l] }
  | .write a f k => fun h => k.run { h with exps := h.exps.modify a f }

end SM

section
variable [GoNum R]

/-- `Check` of what is in memory. -/
def sCheck (e : HScalar R) : SM R Unit := SM.look (fun h => (e.load h.exps).check)

/-! ## New monomials -/

/-- A composite literal with a new exponent slice. -/
def sNew (m : Mono R) : SM R (HMono R) := do
  let a ← SM.new m.exps
  pure ⟨m.coeff, a, m.vars⟩

/-- `Monomial.Copy` (`symbolic/monomial.go:615-627`). -/
def sCopy (m : HMono R) : SM R (HMono R) := do
  let e ← SM.look (fun h => .ok (m.load h.exps))
  sNew e

/-! ## Simplification -/

/-- `Monomial.AsSimplifiedExpression` (`symbolic/monomial.go:728-764`): a monomial that cannot be
simplified is returned with its slices. -/
def sMonoSimplified (m : HMono R) : SM R (HScalar R) := do
  match ← SM.look (fun h => (m.load h.exps).asSimplified) with
  | .k c => pure (.k c)
  | .var v => pure (.var v)
  | _ => pure (.mono m)

/-- The terms of the result of `Polynomial.Simplify` (`symbolic/polynomial.go:513-527`): the constant term
is new, the others keep their slices. -/
def sSimplifyOut (st : R × List (HMono R)) : SM R (HPoly R) := do
  let rest := st.2.filter (fun m => !feq m.coeff zero)
  if feq st.1 zero then
    if rest.isEmpty then do
      let z ← sNew (kToMono zero)
      pure ⟨[z]⟩
    else pure ⟨rest⟩
  else do
    let c ← sNew (kToMono st.1)
    pure ⟨c :: rest⟩

/-- `Polynomial.Simplify` (`symbolic/polynomial.go:472-530`). -/
def sPolySimplify (p : HPoly R) : SM R (HPoly R) := do
  sCheck (.poly p)
  let st ← SM.look (fun h => p.monos.foldlM (hSimplifyStep h.exps) (zero, []))
  sSimplifyOut st

/-- `Polynomial.AsSimplifiedExpression` (`symbolic/polynomial.go:534-557`). -/
def sPolySimplified (p : HPoly R) : SM R (HScalar R) := do
  let q ← sPolySimplify p
  match ← SM.look (fun h => (q.load h.exps).reduce) with
  | .k c => pure (.k c)
  | .var v => pure (.var v)
  | .mono _ =>
    match q.monos with
    | [m] => pure (.mono m)
    | _ => SM.panic .index
  | .poly _ => pure (.poly q)

/-- `AsSimplifiedExpression` on the interface. -/
def sSimplified (e : HScalar R) : SM R (HScalar R) :=
  match e with
  | .k c => pure (.k c)
  | .var v => pure (.var v)
  | .mono m => sMonoSimplified m
  | .poly p => sPolySimplified p

/-! ## Plus -/

/-- `Polynomial.Plus(K)` (`symbolic/polynomial.go:92-109`, `186`). -/
def sPolyPlusK (p : HPoly R) (c : R) : SM R (HScalar R) := do
  sCheck (.poly p)
  match p.monos.findIdx? (·.vars.isEmpty) with
  | none => do
    let k ← sNew (kToMono c)
    sPolySimplified ⟨p.monos ++ [k]⟩
  | some i => sPolySimplified ⟨p.monos.modify i (fun m => { m with coeff := add m.coeff c })⟩

/-- `Polynomial.Plus(Variable)` (`symbolic/polynomial.go:111-129`, `186`). -/
def sPolyPlusVar (p : HPoly R) (v : Var R) : SM R (HScalar R) := do
  sCheck (.poly p)
  sCheck (.var v)
  match ← SM.look (fun h => (p.load h.exps).variableIndex v) with
  | none => do
    let k ← sNew v.toMono
    sPolySimplified ⟨p.monos ++ [k]⟩
  | some i => sPolySimplified ⟨p.monos.modify i (fun m => { m with coeff := add m.coeff one })⟩

/-- `Polynomial.Plus(Polynomial)` (`symbolic/polynomial.go:133-139`, `186`): the slices of both operands
are used in the result. -/
def sPolyPlusPoly (p q : HPoly R) : SM R (HScalar R) := do
  sCheck (.poly p)
  sCheck (.poly q)
  let out ← sPolySimplified ⟨p.monos ++ q.monos⟩
  sSimplified out

/-- `Polynomial.Plus(Monomial)` (`symbolic/polynomial.go:131-132`, `186`): `ToPolynomial` copies the
monomial (`monomial.go:549-557`). -/
def sPolyPlusMono (p : HPoly R) (m : HMono R) : SM R (HScalar R) := do
  sCheck (.poly p)
  sCheck (.mono m)
  let r ← sCopy m
  let out ← sPolyPlusPoly p ⟨[r]⟩
  sSimplified out

/-- `Monomial.Plus` (`symbolic/monomial.go:52-118`): the receiver is copied, the slices of a monomial on
the right are used in the result. -/
def sMonoPlus (m : HMono R) (e : HScalar R) : SM R (HScalar R) := do
  sCheck (.mono m)
  sCheck e
  match e with
  | .k c =>
    if m.vars.isEmpty then sSimplified (.k (add m.coeff c))
    else do
      let m' ← sCopy m
      let k ← sNew (kToMono c)
      sSimplified (.poly ⟨[m', k]⟩)
  | .var v => do
    let b ← SM.look (fun h => (m.load h.exps).isDegreeOne v)
    let m' ← sCopy m
    if b then sSimplified (.mono { m' with coeff := add m'.coeff one })
    else do
      let k ← sNew v.toMono
      sSimplified (.poly ⟨[m', k]⟩)
  | .mono r => do
    let b ← SM.look (fun h => (m.load h.exps).matchesFormOf (r.load h.exps))
    let m' ← sCopy m
    if b then sSimplified (.mono { m' with coeff := add m'.coeff r.coeff })
    else sSimplified (.poly ⟨[m', r]⟩)
  | .poly p => do
    let m' ← sCopy m
    let out ← sPolyPlusMono p m'
    sSimplified out

/-- `Polynomial.Plus` on scalars (`symbolic/polynomial.go:67-187`). -/
def sPolyPlus (p : HPoly R) : HScalar R → SM R (HScalar R)
  | .k c => sPolyPlusK p c
  | .var v => sPolyPlusVar p v
  | .mono m => sPolyPlusMono p m
  | .poly q => sPolyPlusPoly p q

/-- `Variable.Plus` on scalars (`symbolic/variable.go:73-132`). -/
def sVarPlus (v : Var R) (e : HScalar R) : SM R (HScalar R) := do
  sCheck (.var v)
  match e with
  | .k c => do
    let x ← sNew v.toMono
    let k ← sNew (kToMono c)
    sSimplified (.poly ⟨[x, k]⟩)
  | .var w =>
    if v.id = w.id then do
      let x ← sNew ⟨ofInt 2, [1], [v]⟩
      sSimplified (.mono x)
    else do
      let x ← sNew v.toMono
      let y ← sNew w.toMono
      sSimplified (.poly ⟨[x, y]⟩)
  | .mono m => do
    let out ← sMonoPlus m (.var v)
    sSimplified out
  | .poly p => do
    let out ← sPolyPlusVar p v
    sSimplified out

/-- `K.Plus` on scalars (`symbolic/constant.go:67-122`). -/
def sKPlus (c : R) (e : HScalar R) : SM R (HScalar R) := do
  sCheck e
  match e with
  | .k d => pure (.k (add c d))
  | .var v => sVarPlus v (.k c)
  | .mono m => sMonoPlus m (.k c)
  | .poly p => sPolyPlusK p c

/-- `Plus` on the scalar interface. -/
def sPlus : HScalar R → HScalar R → SM R (HScalar R)
  | .k c, e => sKPlus c e
  | .var v, e => sVarPlus v e
  | .mono m, e => sMonoPlus m e
  | .poly p, e => sPolyPlus p e

/-! ## Multiply -/

/-- `Monomial.Multiply(K)` (`symbolic/monomial.go:183-187`). -/
def sMonoMulK (m : HMono R) (c : R) : SM R (HMono R) := do
  let m' ← sCopy m
  pure { m' with coeff := mul m'.coeff c }

/-- `Monomial.Multiply(Variable)` (`symbolic/monomial.go:188-197`): the copy is extended, or the exponent
is increased in the copy. -/
def sMonoMulVar (m : HMono R) (v : Var R) : SM R (HMono R) := do
  let m' ← sCopy m
  match findVar v m.vars with
  | none => do
    let e ← SM.look (fun h => .ok (m'.load h.exps))
    sNew ⟨m'.coeff, e.exps ++ [1], m'.vars ++ [v]⟩
  | some i => do
    SM.store m'.addr (·.modify i (· + 1))
    pure m'

/-- `Monomial.Multiply(Monomial)` (`symbolic/monomial.go:198-227`): `multiDegree` is new. -/
def sMonoMulMono (m r : HMono R) : SM R (HMono R) := do
  let q ← SM.look (fun h => (m.load h.exps).mulMono (r.load h.exps))
  sNew q

/-- `Polynomial.Multiply(K)` (`symbolic/polynomial.go:319-325`, `375`). -/
def sPolyMulK (p : HPoly R) (c : R) : SM R (HScalar R) := do
  sCheck (.poly p)
  let ms ← SM.traverse (fun m => sMonoMulK m c) p.monos
  sPolySimplified ⟨ms⟩

/-- `Polynomial.Multiply(Variable)` (`symbolic/polynomial.go:326-332`, `375`). -/
def sPolyMulVar (p : HPoly R) (v : Var R) : SM R (HScalar R) := do
  sCheck (.poly p)
  sCheck (.var v)
  let ms ← SM.traverse (fun m => sMonoMulVar m v) p.monos
  sPolySimplified ⟨ms⟩

/-- `Polynomial.Multiply(Monomial)` (`symbolic/polynomial.go:333-342`, `375`). -/
def sPolyMulMono (p : HPoly R) (r : HMono R) : SM R (HScalar R) := do
  sCheck (.poly p)
  sCheck (.mono r)
  let ms ← SM.traverse (fun m => sMonoMulMono m r) p.monos
  sPolySimplified ⟨ms⟩

/-- `Polynomial.Multiply(Polynomial)` (`symbolic/polynomial.go:343-355`, `375`). -/
def sPolyMulPoly (p q : HPoly R) : SM R (HScalar R) := do
  sCheck (.poly p)
  sCheck (.poly q)
  let out ← SM.foldl (fun acc r => do
    let prod ← sPolyMulMono p r
    sPlus acc prod) q.monos (.k zero)
  sSimplified out

/-- `Polynomial.Multiply` on scalars (`symbolic/polynomial.go:294-376`). -/
def sPolyMul (p : HPoly R) : HScalar R → SM R (HScalar R)
  | .k c => sPolyMulK p c
  | .var v => sPolyMulVar p v
  | .mono m => sPolyMulMono p m
  | .poly q => sPolyMulPoly p q

/-- `Monomial.Multiply` on scalars (`symbolic/monomial.go:155-236`). -/
def sMonoMul (m : HMono R) (e : HScalar R) : SM R (HScalar R) := do
  sCheck (.mono m)
  sCheck e
  match e with
  | .k c => do
    let x ← sMonoMulK m c
    pure (.mono x)
  | .var v => do
    let x ← sMonoMulVar m v
    pure (.mono x)
  | .mono r => do
    let x ← sMonoMulMono m r
    pure (.mono x)
  | .poly p => sPolyMulMono p m

/-- `Variable.Multiply` on scalars (`symbolic/variable.go:274-351`). -/
def sVarMul (v : Var R) (e : HScalar R) : SM R (HScalar R) := do
  sCheck (.var v)
  sCheck e
  match e with
  | .k c => do
    let x ← sNew ⟨c, [1], [v]⟩
    sSimplified (.mono x)
  | .var w =>
    if w.id = v.id then do
      let x ← sNew ⟨one, [2], [v]⟩
      sSimplified (.mono x)
    else do
      let x ← sNew ⟨one, [1, 1], [v, w]⟩
      sSimplified (.mono x)
  | .mono m => do
    let out ← sMonoMul m (.var v)
    sSimplified out
  | .poly p => do
    let out ← sPolyMulVar p v
    sSimplified out

/-- `K.Multiply` on scalars (`symbolic/constant.go:245-287`). -/
def sKMul (c : R) (e : HScalar R) : SM R (HScalar R) := do
  sCheck e
  match e with
  | .k d => pure (.k (GoNum.mul c d))
  | .var v => sVarMul v (.k c)
  | .mono m => sMonoMul m (.k c)
  | .poly p => sPolyMulK p c

/-- `Multiply` on the scalar interface. -/
def sMul : HScalar R → HScalar R → SM R (HScalar R)
  | .k c, e => sKMul c e
  | .var v, e => sVarMul v e
  | .mono m, e => sMonoMul m e
  | .poly p, e => sPolyMul p e

/-! ## Minus, Power -/

/-- `e.Multiply(c)` with a `float64` argument (see `Scalar.mulF64`). -/
def sMulF64 (e : HScalar R) (c : R) : SM R (HScalar R) :=
  match e with
  | .k d => sKMul d (.k c)
  | .mono m => sMonoMul m (.k c)
  | e => do
    let out ← sMul e (.k c)
    sSimplified out

/-- `Minus` (see `Scalar.minus`). -/
def sMinus (a b : HScalar R) : SM R (HScalar R) := do
  sCheck a
  sCheck b
  let nb ← sMulF64 b negOne
  sPlus a nb

/-- Loop of `ScalarPowerTemplate` (`symbolic/scalar_expression.go:161-164`). -/
def sPowLoop (base : HScalar R) : Nat → HScalar R → SM R (HScalar R)
  | 0, acc => pure acc
  | n + 1, acc => do
    let x ← sMul acc base
    sPowLoop base n x

/-- `ScalarPowerTemplate` (`symbolic/scalar_expression.go:147-167`). -/
def sPower (base : HScalar R) (n : Int) : SM R (HScalar R) := do
  sCheck base
  if n < 0 then SM.panic .negExponent
  else sPowLoop base n.toNat (.k one)

/-! ## Substitution -/

/-- `Variable.Substitute` (`symbolic/variable.go:495-523`): the given expression itself. -/
def sVarSubstitute (v vIn : Var R) (s : HScalar R) : SM R (HScalar R) := do
  sCheck (.var v)
  sCheck (.var vIn)
  sCheck s
  if v.id = vIn.id ∧ v.env = vIn.env then pure s else pure (.var v)

/-- `Monomial.Substitute` (`symbolic/monomial.go:630-665`): a monomial without the variable is returned
with its slices.  The exponents are read in the loop; nothing writes them in between. -/
def sMonoSubstitute (m : HMono R) (vIn : Var R) (s : HScalar R) : SM R (HScalar R) := do
  sCheck (.mono m)
  sCheck (.var vIn)
  sCheck s
  match findVar vIn m.vars with
  | none => pure (.mono m)
  | some _ => do
    let e ← SM.look (fun h => .ok (m.load h.exps).exps)
    SM.foldl (fun prod ve => do
      let sub ← sVarSubstitute ve.1 vIn s
      let pw ← sPower sub ve.2
      sMul prod pw) (m.vars.zip e) (.k m.coeff)

/-- `Polynomial.Substitute` (`symbolic/polynomial.go:718-743`). -/
def sPolySubstitute (p : HPoly R) (vIn : Var R) (s : HScalar R) : SM R (HScalar R) := do
  sCheck (.poly p)
  sCheck (.var vIn)
  sCheck s
  let out ← SM.foldl (fun acc m => do
    let t ← sMonoSubstitute m vIn s
    sPlus acc t) p.monos (.k zero)
  sSimplified out

/-- `Substitute` on the scalar interface. -/
def sSubstitute (e : HScalar R) (vIn : Var R) (s : HScalar R) : SM R (HScalar R) :=
  match e with
  | .k c => pure (.k c)
  | .var v => sVarSubstitute v vIn s
  | .mono m => sMonoSubstitute m vIn s
  | .poly p => sPolySubstitute p vIn s

/-- `CheckSubstitutionMap` (`symbolic/utils.go:151-189`). -/
def sCheckMap (sm : HSubMap R) : SM R Unit :=
  SM.look (fun h => checkSubMap (HSubMap.load h.exps sm))

/-- `Variable.SubstituteAccordingTo` (`symbolic/variable.go:526-544`): the value of the map itself. -/
def sVarSubstMap (v : Var R) (sm : HSubMap R) : SM R (HScalar R) := do
  sCheck (.var v)
  sCheckMap sm
  match sm.find? (fun kv => v.keyEq kv.1) with
  | some kv => pure kv.2
  | none => pure (.var v)

/-- `Monomial.SubstituteAccordingTo` (`symbolic/monomial.go:668-693`). -/
def sMonoSubstMap (m : HMono R) (sm : HSubMap R) : SM R (HScalar R) := do
  sCheck (.mono m)
  sCheckMap sm
  let e ← SM.look (fun h => .ok (m.load h.exps).exps)
  SM.foldl (fun out ve => do
    let sub ← sVarSubstMap ve.1 sm
    let pw ← sPower sub ve.2
    sMul out pw) (m.vars.zip e) (.k m.coeff)

/-- `Polynomial.SubstituteAccordingTo` (`symbolic/polynomial.go:746-766`). -/
def sPolySubstMap (p : HPoly R) (sm : HSubMap R) : SM R (HScalar R) := do
  sCheck (.poly p)
  sCheckMap sm
  SM.foldl (fun acc m => do
    let t ← sMonoSubstMap m sm
    sPlus acc t) p.monos (.k zero)

/-- `SubstituteAccordingTo` on the scalar interface. -/
def sSubstMap (e : HScalar R) (sm : HSubMap R) : SM R (HScalar R) :=
  match e with
  | .k c => pure (.k c)
  | .var v => sVarSubstMap v sm
  | .mono m => sMonoSubstMap m sm
  | .poly p => sPolySubstMap p sm

/-! ## Differentiation -/

/-- `Monomial.DerivativeWrt` (`symbolic/monomial.go:484-528`), with its reads and its write: line 520 reads
the exponent for the coefficient, line 521 reads it again and writes. -/
def sMonoDerivative (v : Var R) (m : HMono R) : SM R (HScalar R) := do
  SM.look (fun h => (m.load h.exps).check)
  SM.look (fun _ => v.check)
  match findVar v m.vars with
  | none => pure (.k zero)
  | some i => do
    let e ← SM.look (fun h => match (h.exps.getD m.addr [])[i]? with
      | none => .error .index
      | some e => .ok e)
    if e = 1 ∧ m.vars.length = 1 then pure (.k m.coeff)
    else if e = 1 then do
      let l ← SM.look (fun h => .ok (h.exps.getD m.addr []))
      let a ← SM.new (l.eraseIdx i)
      pure (.mono ⟨m.coeff, a, m.vars.eraseIdx i⟩)
    else do
      let e1 ← SM.look (fun h => .ok ((h.exps.getD m.addr []).getD i 0))
      let e2 ← SM.look (fun h => .ok ((h.exps.getD m.addr []).getD i 0))
      SM.store m.addr (·.set i (e2 - 1))
      pure (.mono ⟨GoNum.mul m.coeff (ofInt e1), m.addr, m.vars⟩)

/-- Loop body of `Polynomial.DerivativeWrt` (`symbolic/polynomial.go:574-594`). -/
def sDerivStep (v : Var R) (m : HMono R) : SM R (List (HMono R)) := do
  if m.vars.isEmpty then pure []
  else
    match ← sMonoDerivative v m with
    | .mono d => pure [d]
    | .k c =>
      if feq c zero then pure []
      else do
        let a ← SM.new []
        pure [⟨c, a, []⟩]
    | _ => SM.panic .other

/-- `Polynomial.DerivativeWrt` (`symbolic/polynomial.go:560-602`). -/
def sPolyDerivative (v : Var R) (p : HPoly R) : SM R (HScalar R) := do
  SM.look (fun h => (p.load h.exps).check)
  SM.look (fun _ => v.check)
  let ds ← SM.traverse (sDerivStep v) p.monos
  if ds.flatten.isEmpty then pure (.k zero) else pure (.poly ⟨ds.flatten⟩)

/-- `DerivativeWrt` on the scalar interface. -/
def sScalarDerivative (v : Var R) (e : HScalar R) : SM R (HScalar R) :=
  match e with
  | .k _ => pure (.k zero)
  | .var w => do
    SM.look (fun _ => w.check)
    SM.look (fun _ => v.check)
    if w.id = v.id then pure (.k one) else pure (.k zero)
  | .mono m => sMonoDerivative v m
  | .poly p => sPolyDerivative v p

/-! ## Client programs -/

/-- `objs[i]`. -/
def sObj (objs : List (HScalar R)) (i : Nat) : SM R (HScalar R) :=
  SM.look (fun _ => match objs[i]? with
    | some e => .ok e
    | none => .error .index)

/-- A literal. -/
def sLit : Scalar R → SM R (HScalar R)
  | .k c => pure (.k c)
  | .var v => pure (.var v)
  | .mono m => do
    let x ← sNew m
    pure (.mono x)
  | .poly p => do
    let ms ← SM.traverse sNew p.monos
    pure (.poly ⟨ms⟩)

/-- `e.(Monomial)`. -/
def sAsMono (e : HScalar R) : SM R (HMono R) :=
  match e with
  | .mono m => pure m
  | _ => SM.panic .typeAssert

/-- One step of the client. -/
def HOp.steps (objs : List (HScalar R)) : HOp R → SM R (HScalar R)
  | .lit e => sLit e
  | .poly is => do
    let ms ← SM.traverse (fun i => do
      let e ← sObj objs i
      sAsMono e) is
    pure (.poly ⟨ms⟩)
  | .copy i => do
    match ← sObj objs i with
    | .mono m => do
      let x ← sCopy m
      pure (.mono x)
    | e => pure e
  | .plus i j => do
    let a ← sObj objs i
    let b ← sObj objs j
    sPlus a b
  | .minus i j => do
    let a ← sObj objs i
    let b ← sObj objs j
    sMinus a b
  | .mul i j => do
    let a ← sObj objs i
    let b ← sObj objs j
    sMul a b
  | .power i n => do
    let a ← sObj objs i
    sPower a n
  | .simp i => do
    let a ← sObj objs i
    sSimplified a
  | .subst i v j => do
    let a ← sObj objs i
    let b ← sObj objs j
    sSubstitute a v b
  | .substMap i sm => do
    let a ← sObj objs i
    let m ← SM.traverse (fun kv => do
      let e ← sObj objs kv.2
      pure (kv.1, e)) sm
    sSubstMap a m
  | .deriv i v => do
    let a ← sObj objs i
    sScalarDerivative v a

/-- The expressions held after a call. -/
def keep (objs : List (HScalar R)) : Go (HScalar R) → List (HScalar R)
  | .ok e => objs ++ [e]
  | .error _ => objs

/-- A goroutine: a program over the expressions it was given, panics recovered.  The result is the outcome
of every call. -/
def threadProg : List (HScalar R) → List (HOp R) → SM R (List (Go (HScalar R)))
  | _, [] => pure []
  | objs, o :: os => do
    let r ← (o.steps objs).attempt
    let rest ← threadProg (keep objs r) os
    pure (r :: rest)

end

/-! ## Goroutines -/

/-- A goroutine and the memories there have been since its last access. -/
structure Thread (R α : Type) where
  prog : SM R α
  seen : List (Heap R)

/-- What a read that takes some time can find: every number as it was at some moment of that time. -/
def Torn (seen : List (Heap R)) (g : Heap R) : Prop :=
  ∀ a i : Nat, ∃ h ∈ seen, (g.exps.getD a [])[i]? = (h.exps.getD a [])[i]?

/-- One access of a goroutine in the memory `h`. -/
inductive SM.Access {α : Type} (seen : List (Heap R)) (h : Heap R) : SM R α → SM R α → Heap R → Prop
  | read (k : Heap R → SM R α) (g : Heap R) (hg : Torn seen g) : Access seen h (.read k) (k g) h
  | alloc (l : List Int) (k : Nat → SM R α) :
    Access seen h (.alloc l k) (k h.exps.length) { h with exps := h.exps ++ [l] }
  | write (a : Nat) (f : List Int → List Int) (k : SM R α) :
    Access seen h (.write a f k) k { h with exps := h.exps.modify a f }

/-- The memory and the goroutines. -/
structure Sys (R α : Type) where
  heap : Heap R
  threads : List (Thread R α)

/-- The goroutines after an access of goroutine `i` that left the memory `h`. -/
def Sys.after {α : Type} (ts : List (Thread R α)) (i : Nat) (p : SM R α) (h : Heap R) : List (Thread R α) :=
  (ts.map (fun t => { t with seen := h :: t.seen })).set i ⟨p, [h]⟩

/-- One access of one goroutine. -/
inductive Sys.Step {α : Type} : Sys R α → Sys R α → Prop
  | mk (s : Sys R α) (i : Nat) (t : Thread R α) (p : SM R α) (h : Heap R) (ht : s.threads[i]? = some t)
    (hs : SM.Access t.seen s.heap t.prog p h) : Step s ⟨h, Sys.after s.threads i p h⟩

/-- The start: the memory, and goroutines that have not done anything. -/
def Sys.start {α : Type} (h : Heap R) (ps : List (SM R α)) : Sys R α := ⟨h, ps.map (fun p => ⟨p, [h]⟩)⟩

/-- The states that occur. -/
def Sys.Reach {α : Type} (s t : Sys R α) : Prop := Relation.ReflTransGen Sys.Step s t

end Verif
