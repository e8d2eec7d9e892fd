import Verif.Model.HeapAll

/-!
# Model of scalar arithmetic with shared exponent slices

As `Model/HeapAll`, for the calls other than `DerivativeWrt`: which exponent slices are made, which are
shared between operands and results, and which are written.  Where a decision depends on values only, it
is taken by the function of `Model/Scalar` on the values read.  `VariableFactors` stay values here; see
`Model/Slice` for the writes behind them.  The slice of a `Polynomial`'s monomials is copied before it is
written (`Polynomial.Copy`), and stays a value.
-/

namespace Verif

open GoNum

variable {R : Type}

/-- A loop with an accumulator. -/
def PM.foldl {σ α β : Type} (f : β → α → PM σ β) : List α → β → PM σ β
  | [], b => pure b
  | a :: l, b => do
    let b' ← f b a
    PM.foldl f l b'

section
variable [GoNum R]

/-- `Check` of what is in memory. -/
def hCheck (e : HScalar R) : PM (Heap R) Unit := PM.read (fun h => (e.load h.exps).check)

/-! ## New monomials -/

/-- A composite literal with a new exponent slice. -/
def hNew (m : Mono R) : PM (Heap R) (HMono R) := do
  let a ← alloc m.exps
  pure ⟨m.coeff, a, m.vars⟩

/-- `Monomial.Copy` (`symbolic/monomial.go:615-627`). -/
def hCopy (m : HMono R) : PM (Heap R) (HMono R) := do
  let e ← PM.read (fun h => .ok (m.load h.exps))
  hNew e

/-! ## Simplification -/

/-- `Monomial.AsSimplifiedExpression` (`symbolic/monomial.go:728-764`): a monomial that cannot be
simplified is returned with its slices. -/
def hMonoSimplified (m : HMono R) : PM (Heap R) (HScalar R) := do
  match ← PM.read (fun h => (m.load h.exps).asSimplified) with
  | .k c => pure (.k c)
  | .var v => pure (.var v)
  | _ => pure (.mono m)

/-- Insertion into the accumulator of `Polynomial.Simplify` (`symbolic/polynomial.go:489-505`): the slices
of the term that was there first are kept. -/
def hInsert (h : ExpHeap) (m : HMono R) : List (HMono R) → Go (List (HMono R))
  | [] => return [m]
  | e :: es => do
    if ← (e.load h).matchesFormOf (m.load h) then
      return { e with coeff := add e.coeff m.coeff } :: es
    return e :: (← hInsert h m es)

/-- Loop body of `Polynomial.Simplify` (`symbolic/polynomial.go:485-507`). -/
def hSimplifyStep (h : ExpHeap) (st : R × List (HMono R)) (m : HMono R) : Go (R × List (HMono R)) := do
  if m.vars.isEmpty then return (add st.1 m.coeff, st.2)
  return (st.1, ← hInsert h m st.2)

/-- The terms of the result of `Polynomial.Simplify` (`symbolic/polynomial.go:513-527`): the constant term
is new, the others keep their slices. -/
def hSimplifyOut (st : R × List (HMono R)) : PM (Heap R) (HPoly R) := do
  let rest := st.2.filter (fun m => !feq m.coeff zero)
  if feq st.1 zero then
    if rest.isEmpty then do
      let z ← hNew (kToMono zero)
      pure ⟨[z]⟩
    else pure ⟨rest⟩
  else do
    let c ← hNew (kToMono st.1)
    pure ⟨c :: rest⟩

/-- `Polynomial.Simplify` (`symbolic/polynomial.go:472-530`). -/
def hPolySimplify (p : HPoly R) : PM (Heap R) (HPoly R) := do
  hCheck (.poly p)
  let st ← PM.read (fun h => p.monos.foldlM (hSimplifyStep h.exps) (zero, []))
  hSimplifyOut st

/-- The value `Polynomial.AsSimplifiedExpression` returns for the simplified polynomial
(`symbolic/polynomial.go:538-556`). -/
def Poly.reduce (q : Poly R) : Go (Scalar R) := do
  let d ← q.degree
  if d = 0 then return .k (← q.constant)
  if d = 1 then
    match q.monos, q.variables with
    | [m], v :: _ =>
      if ← m.isVariable v then return .var (← m.toVariable)
      return .mono m
    | [_], [] => throw .index
    | _, _ => return .poly q
  match q.monos with
  | [m] => return .mono m
  | _ => return .poly q

/-- `Polynomial.AsSimplifiedExpression` (`symbolic/polynomial.go:534-557`). -/
def hPolySimplified (p : HPoly R) : PM (Heap R) (HScalar R) := do
  let q ← hPolySimplify p
  match ← PM.read (fun h => (q.load h.exps).reduce) with
  | .k c => pure (.k c)
  | .var v => pure (.var v)
  | .mono _ =>
    match q.monos with
    | [m] => pure (.mono m)
    | _ => PM.panic .index
  | .poly _ => pure (.poly q)

/-- `AsSimplifiedExpression` on the interface. -/
def hSimplified (e : HScalar R) : PM (Heap R) (HScalar R) :=
  match e with
  | .k c => pure (.k c)
  | .var v => pure (.var v)
  | .mono m => hMonoSimplified m
  | .poly p => hPolySimplified p

/-! ## Plus -/

/-- `Polynomial.Plus(K)` (`symbolic/polynomial.go:92-109`, `186`). -/
def hPolyPlusK (p : HPoly R) (c : R) : PM (Heap R) (HScalar R) := do
  hCheck (.poly p)
  match p.monos.findIdx? (·.vars.isEmpty) with
  | none => do
    let k ← hNew (kToMono c)
    hPolySimplified ⟨p.monos ++ [k]⟩
  | some i => hPolySimplified ⟨p.monos.modify i (fun m => { m with coeff := add m.coeff c })⟩

/-- `Polynomial.Plus(Variable)` (`symbolic/polynomial.go:111-129`, `186`). -/
def hPolyPlusVar (p : HPoly R) (v : Var R) : PM (Heap R) (HScalar R) := do
  hCheck (.poly p)
  hCheck (.var v)
  match ← PM.read (fun h => (p.load h.exps).variableIndex v) with
  | none => do
    let k ← hNew v.toMono
    hPolySimplified ⟨p.monos ++ [k]⟩
  | some i => hPolySimplified ⟨p.monos.modify i (fun m => { m with coeff := add m.coeff one })⟩

/-- `Polynomial.Plus(Polynomial)` (`symbolic/polynomial.go:133-139`, `186`): the slices of both operands
are used in the result. -/
def hPolyPlusPoly (p q : HPoly R) : PM (Heap R) (HScalar R) := do
  hCheck (.poly p)
  hCheck (.poly q)
  let out ← hPolySimplified ⟨p.monos ++ q.monos⟩
  hSimplified out

/-- `Polynomial.Plus(Monomial)` (`symbolic/polynomial.go:131-132`, `186`): `ToPolynomial` copies the
monomial (`monomial.go:549-557`). -/
def hPolyPlusMono (p : HPoly R) (m : HMono R) : PM (Heap R) (HScalar R) := do
  hCheck (.poly p)
  hCheck (.mono m)
  let r ← hCopy m
  let out ← hPolyPlusPoly p ⟨[r]⟩
  hSimplified out

/-- `Monomial.Plus` (`symbolic/monomial.go:52-118`): the receiver is copied, the slices of a monomial on
the right are used in the result. -/
def hMonoPlus (m : HMono R) (e : HScalar R) : PM (Heap R) (HScalar R) := do
  hCheck (.mono m)
  hCheck e
  match e with
  | .k c =>
    if m.vars.isEmpty then hSimplified (.k (add m.coeff c))
    else do
      let m' ← hCopy m
      let k ← hNew (kToMono c)
      hSimplified (.poly ⟨[m', k]⟩)
  | .var v => do
    let b ← PM.read (fun h => (m.load h.exps).isDegreeOne v)
    let m' ← hCopy m
    if b then hSimplified (.mono { m' with coeff := add m'.coeff one })
    else do
      let k ← hNew v.toMono
      hSimplified (.poly ⟨[m', k]⟩)
  | .mono r => do
    let b ← PM.read (fun h => (m.load h.exps).matchesFormOf (r.load h.exps))
    let m' ← hCopy m
    if b then hSimplified (.mono { m' with coeff := add m'.coeff r.coeff })
    else hSimplified (.poly ⟨[m', r]⟩)
  | .poly p => do
    let m' ← hCopy m
    let out ← hPolyPlusMono p m'
    hSimplified out

/-- `Polynomial.Plus` on scalars (`symbolic/polynomial.go:67-187`). -/
def hPolyPlus (p : HPoly R) : HScalar R → PM (Heap R) (HScalar R)
  | .k c => hPolyPlusK p c
  | .var v => hPolyPlusVar p v
  | .mono m => hPolyPlusMono p m
  | .poly q => hPolyPlusPoly p q

/-- `Variable.Plus` on scalars (`symbolic/variable.go:73-132`). -/
def hVarPlus (v : Var R) (e : HScalar R) : PM (Heap R) (HScalar R) := do
  hCheck (.var v)
  match e with
  | .k c => do
    let x ← hNew v.toMono
    let k ← hNew (kToMono c)
    hSimplified (.poly ⟨[x, k]⟩)
  | .var w =>
    if v.id = w.id then do
      let x ← hNew ⟨ofInt 2, [1], [v]⟩
      hSimplified (.mono x)
    else do
      let x ← hNew v.toMono
      let y ← hNew w.toMono
      hSimplified (.poly ⟨[x, y]⟩)
  | .mono m => do
    let out ← hMonoPlus m (.var v)
    hSimplified out
  | .poly p => do
    let out ← hPolyPlusVar p v
    hSimplified out

/-- `K.Plus` on scalars (`symbolic/constant.go:67-122`). -/
def hKPlus (c : R) (e : HScalar R) : PM (Heap R) (HScalar R) := do
  hCheck e
  match e with
  | .k d => pure (.k (add c d))
  | .var v => hVarPlus v (.k c)
  | .mono m => hMonoPlus m (.k c)
  | .poly p => hPolyPlusK p c

/-- `Plus` on the scalar interface. -/
def hPlus : HScalar R → HScalar R → PM (Heap R) (HScalar R)
  | .k c, e => hKPlus c e
  | .var v, e => hVarPlus v e
  | .mono m, e => hMonoPlus m e
  | .poly p, e => hPolyPlus p e

/-! ## Multiply -/

/-- `Monomial.Multiply(K)` (`symbolic/monomial.go:183-187`). -/
def hMonoMulK (m : HMono R) (c : R) : PM (Heap R) (HMono R) := do
  let m' ← hCopy m
  pure { m' with coeff := mul m'.coeff c }

/-- `Monomial.Multiply(Variable)` (`symbolic/monomial.go:188-197`): the copy is extended, or the exponent
is increased in the copy. -/
def hMonoMulVar (m : HMono R) (v : Var R) : PM (Heap R) (HMono R) := do
  let m' ← hCopy m
  match findVar v m.vars with
  | none => do
    let e ← PM.read (fun h => .ok (m'.load h.exps))
    hNew ⟨m'.coeff, e.exps ++ [1], m'.vars ++ [v]⟩
  | some i => fun h => (.ok m', { h with exps := h.exps.modify m'.addr (·.modify i (· + 1)) })

/-- `Monomial.Multiply(Monomial)` (`symbolic/monomial.go:198-227`): `multiDegree` is new. -/
def hMonoMulMono (m r : HMono R) : PM (Heap R) (HMono R) := do
  let q ← PM.read (fun h => (m.load h.exps).mulMono (r.load h.exps))
  hNew q

/-- `Polynomial.Multiply(K)` (`symbolic/polynomial.go:319-325`, `375`). -/
def hPolyMulK (p : HPoly R) (c : R) : PM (Heap R) (HScalar R) := do
  hCheck (.poly p)
  let ms ← PM.traverse (fun m => hMonoMulK m c) p.monos
  hPolySimplified ⟨ms⟩

/-- `Polynomial.Multiply(Variable)` (`symbolic/polynomial.go:326-332`, `375`). -/
def hPolyMulVar (p : HPoly R) (v : Var R) : PM (Heap R) (HScalar R) := do
  hCheck (.poly p)
  hCheck (.var v)
  let ms ← PM.traverse (fun m => hMonoMulVar m v) p.monos
  hPolySimplified ⟨ms⟩

/-- `Polynomial.Multiply(Monomial)` (`symbolic/polynomial.go:333-342`, `375`). -/
def hPolyMulMono (p : HPoly R) (r : HMono R) : PM (Heap R) (HScalar R) := do
  hCheck (.poly p)
  hCheck (.mono r)
  let ms ← PM.traverse (fun m => hMonoMulMono m r) p.monos
  hPolySimplified ⟨ms⟩

/-- `Polynomial.Multiply(Polynomial)` (`symbolic/polynomial.go:343-355`, `375`). -/
def hPolyMulPoly (p q : HPoly R) : PM (Heap R) (HScalar R) := do
  hCheck (.poly p)
  hCheck (.poly q)
  let out ← PM.foldl (fun acc r => do
    let prod ← hPolyMulMono p r
    hPlus acc prod) q.monos (.k zero)
  hSimplified out

/-- `Polynomial.Multiply` on scalars (`symbolic/polynomial.go:294-376`). -/
def hPolyMul (p : HPoly R) : HScalar R → PM (Heap R) (HScalar R)
  | .k c => hPolyMulK p c
  | .var v => hPolyMulVar p v
  | .mono m => hPolyMulMono p m
  | .poly q => hPolyMulPoly p q

/-- `Monomial.Multiply` on scalars (`symbolic/monomial.go:155-236`). -/
def hMonoMul (m : HMono R) (e : HScalar R) : PM (Heap R) (HScalar R) := do
  hCheck (.mono m)
  hCheck e
  match e with
  | .k c => do
    let x ← hMonoMulK m c
    pure (.mono x)
  | .var v => do
    let x ← hMonoMulVar m v
    pure (.mono x)
  | .mono r => do
    let x ← hMonoMulMono m r
    pure (.mono x)
  | .poly p => hPolyMulMono p m

/-- `Variable.Multiply` on scalars (`symbolic/variable.go:274-351`). -/
def hVarMul (v : Var R) (e : HScalar R) : PM (Heap R) (HScalar R) := do
  hCheck (.var v)
  hCheck e
  match e with
  | .k c => do
    let x ← hNew ⟨c, [1], [v]⟩
    hSimplified (.mono x)
  | .var w =>
    if w.id = v.id then do
      let x ← hNew ⟨one, [2], [v]⟩
      hSimplified (.mono x)
    else do
      let x ← hNew ⟨one, [1, 1], [v, w]⟩
      hSimplified (.mono x)
  | .mono m => do
    let out ← hMonoMul m (.var v)
    hSimplified out
  | .poly p => do
    let out ← hPolyMulVar p v
    hSimplified out

/-- `K.Multiply` on scalars (`symbolic/constant.go:245-287`). -/
def hKMul (c : R) (e : HScalar R) : PM (Heap R) (HScalar R) := do
  hCheck e
  match e with
  | .k d => pure (.k (GoNum.mul c d))
  | .var v => hVarMul v (.k c)
  | .mono m => hMonoMul m (.k c)
  | .poly p => hPolyMulK p c

/-- `Multiply` on the scalar interface. -/
def hMul : HScalar R → HScalar R → PM (Heap R) (HScalar R)
  | .k c, e => hKMul c e
  | .var v, e => hVarMul v e
  | .mono m, e => hMonoMul m e
  | .poly p, e => hPolyMul p e

/-! ## Minus, Power -/

/-- `e.Multiply(c)` with a `float64` argument (see `Scalar.mulF64`). -/
def hMulF64 (e : HScalar R) (c : R) : PM (Heap R) (HScalar R) :=
  match e with
  | .k d => hKMul d (.k c)
  | .mono m => hMonoMul m (.k c)
  | e => do
    let out ← hMul e (.k c)
    hSimplified out

/-- `Minus` (see `Scalar.minus`). -/
def hMinus (a b : HScalar R) : PM (Heap R) (HScalar R) := do
  hCheck a
  hCheck b
  let nb ← hMulF64 b negOne
  hPlus a nb

/-- Loop of `ScalarPowerTemplate` (`symbolic/scalar_expression.go:161-164`). -/
def hPowLoop (base : HScalar R) : Nat → HScalar R → PM (Heap R) (HScalar R)
  | 0, acc => pure acc
  | n + 1, acc => do
    let x ← hMul acc base
    hPowLoop base n x

/-- `ScalarPowerTemplate` (`symbolic/scalar_expression.go:147-167`). -/
def hPower (base : HScalar R) (n : Int) : PM (Heap R) (HScalar R) := do
  hCheck base
  if n < 0 then PM.panic .negExponent
  else hPowLoop base n.toNat (.k one)

/-! ## Substitution -/

/-- `Variable.Substitute` (`symbolic/variable.go:495-523`): the given expression itself. -/
def hVarSubstitute (v vIn : Var R) (s : HScalar R) : PM (Heap R) (HScalar R) := do
  hCheck (.var v)
  hCheck (.var vIn)
  hCheck s
  if v.id = vIn.id ∧ v.env = vIn.env then pure s else pure (.var v)

/-- `Monomial.Substitute` (`symbolic/monomial.go:630-665`): a monomial without the variable is returned
with its slices.  The exponents are read in the loop; nothing writes them in between. -/
def hMonoSubstitute (m : HMono R) (vIn : Var R) (s : HScalar R) : PM (Heap R) (HScalar R) := do
  hCheck (.mono m)
  hCheck (.var vIn)
  hCheck s
  match findVar vIn m.vars with
  | none => pure (.mono m)
  | some _ => do
    let e ← PM.read (fun h => .ok (m.load h.exps).exps)
    PM.foldl (fun prod ve => do
      let sub ← hVarSubstitute ve.1 vIn s
      let pw ← hPower sub ve.2
      hMul prod pw) (m.vars.zip e) (.k m.coeff)

/-- `Polynomial.Substitute` (`symbolic/polynomial.go:718-743`). -/
def hPolySubstitute (p : HPoly R) (vIn : Var R) (s : HScalar R) : PM (Heap R) (HScalar R) := do
  hCheck (.poly p)
  hCheck (.var vIn)
  hCheck s
  let out ← PM.foldl (fun acc m => do
    let t ← hMonoSubstitute m vIn s
    hPlus acc t) p.monos (.k zero)
  hSimplified out

/-- `Substitute` on the scalar interface. -/
def hSubstitute (e : HScalar R) (vIn : Var R) (s : HScalar R) : PM (Heap R) (HScalar R) :=
  match e with
  | .k c => pure (.k c)
  | .var v => hVarSubstitute v vIn s
  | .mono m => hMonoSubstitute m vIn s
  | .poly p => hPolySubstitute p vIn s

/-- A substitution map in memory. -/
abbrev HSubMap (R : Type) := List (Var R × HScalar R)

/-- The values of a substitution map. -/
def HSubMap.load (h : ExpHeap) (sm : HSubMap R) : SubMap R := sm.map (fun kv => (kv.1, kv.2.load h))

/-- `CheckSubstitutionMap` (`symbolic/utils.go:151-189`). -/
def hCheckMap (sm : HSubMap R) : PM (Heap R) Unit :=
  PM.read (fun h => checkSubMap (HSubMap.load h.exps sm))

/-- `Variable.SubstituteAccordingTo` (`symbolic/variable.go:526-544`): the value of the map itself. -/
def hVarSubstMap (v : Var R) (sm : HSubMap R) : PM (Heap R) (HScalar R) := do
  hCheck (.var v)
  hCheckMap sm
  match sm.find? (fun kv => v.keyEq kv.1) with
  | some kv => pure kv.2
  | none => pure (.var v)

/-- `Monomial.SubstituteAccordingTo` (`symbolic/monomial.go:668-693`). -/
def hMonoSubstMap (m : HMono R) (sm : HSubMap R) : PM (Heap R) (HScalar R) := do
  hCheck (.mono m)
  hCheckMap sm
  let e ← PM.read (fun h => .ok (m.load h.exps).exps)
  PM.foldl (fun out ve => do
    let sub ← hVarSubstMap ve.1 sm
    let pw ← hPower sub ve.2
    hMul out pw) (m.vars.zip e) (.k m.coeff)

/-- `Polynomial.SubstituteAccordingTo` (`symbolic/polynomial.go:746-766`). -/
def hPolySubstMap (p : HPoly R) (sm : HSubMap R) : PM (Heap R) (HScalar R) := do
  hCheck (.poly p)
  hCheckMap sm
  PM.foldl (fun acc m => do
    let t ← hMonoSubstMap m sm
    hPlus acc t) p.monos (.k zero)

/-- `SubstituteAccordingTo` on the scalar interface. -/
def hSubstMap (e : HScalar R) (sm : HSubMap R) : PM (Heap R) (HScalar R) :=
  match e with
  | .k c => pure (.k c)
  | .var v => hVarSubstMap v sm
  | .mono m => hMonoSubstMap m sm
  | .poly p => hPolySubstMap p sm

/-! ## Client programs -/

/-- What a client can do; expressions are named by their position. -/
inductive HOp (R : Type)
  /-- A constant, a variable, or a composite literal with new slices. -/
  | lit (e : Scalar R)
  /-- A `Polynomial` literal made of monomials the client holds. -/
  | poly (is : List Nat)
  | copy (i : Nat)
  | plus (i j : Nat)
  | minus (i j : Nat)
  | mul (i j : Nat)
  | power (i : Nat) (n : Int)
  | simp (i : Nat)
  | subst (i : Nat) (v : Var R) (j : Nat)
  | substMap (i : Nat) (sm : List (Var R × Nat))
  | deriv (i : Nat) (v : Var R)

/-- `objs[i]`. -/
def hObj (objs : List (HScalar R)) (i : Nat) : PM (Heap R) (HScalar R) :=
  PM.read (fun _ => match objs[i]? with
    | some e => .ok e
    | none => .error .index)

/-- A literal. -/
def hLit : Scalar R → PM (Heap R) (HScalar R)
  | .k c => pure (.k c)
  | .var v => pure (.var v)
  | .mono m => do
    let x ← hNew m
    pure (.mono x)
  | .poly p => do
    let ms ← PM.traverse hNew p.monos
    pure (.poly ⟨ms⟩)

/-- `e.(Monomial)`. -/
def hAsMono (e : HScalar R) : PM (Heap R) (HMono R) :=
  match e with
  | .mono m => pure m
  | _ => PM.panic .typeAssert

/-- One step of the client. -/
def HOp.call (objs : List (HScalar R)) : HOp R → PM (Heap R) (HScalar R)
  | .lit e => hLit e
  | .poly is => do
    let ms ← PM.traverse (fun i => do
      let e ← hObj objs i
      hAsMono e) is
    pure (.poly ⟨ms⟩)
  | .copy i => do
    match ← hObj objs i with
    | .mono m => do
      let x ← hCopy m
      pure (.mono x)
    | e => pure e
  | .plus i j => do
    let a ← hObj objs i
    let b ← hObj objs j
    hPlus a b
  | .minus i j => do
    let a ← hObj objs i
    let b ← hObj objs j
    hMinus a b
  | .mul i j => do
    let a ← hObj objs i
    let b ← hObj objs j
    hMul a b
  | .power i n => do
    let a ← hObj objs i
    hPower a n
  | .simp i => do
    let a ← hObj objs i
    hSimplified a
  | .subst i v j => do
    let a ← hObj objs i
    let b ← hObj objs j
    hSubstitute a v b
  | .substMap i sm => do
    let a ← hObj objs i
    let m ← PM.traverse (fun kv => do
      let e ← hObj objs kv.2
      pure (kv.1, e)) sm
    hSubstMap a m
  | .deriv i v => do
    let a ← hObj objs i
    pScalarDerivative v a

/-- The expressions a client holds, and the memory. -/
structure AStore (R : Type) where
  objs : List (HScalar R)
  heap : Heap R
  deriving DecidableEq

/-- One step; a panic is recovered and gives nothing. -/
def AStore.step (s : AStore R) (o : HOp R) : AStore R :=
  match o.call s.objs s.heap with
  | (.ok r, h) => ⟨s.objs ++ [r], h⟩
  | (.error _, h) => ⟨s.objs, h⟩

/-- A program. -/
def AStore.run (s : AStore R) (ops : List (HOp R)) : AStore R := ops.foldl AStore.step s

/-- What the client sees. -/
def AStore.values (s : AStore R) : List (Scalar R) := s.objs.map (HScalar.load s.heap.exps)

end

end Verif
