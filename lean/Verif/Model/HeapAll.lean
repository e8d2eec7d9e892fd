import Verif.Model.Heap

/-!
# Model of differentiation of all kinds with shared slices and recovered panics

As `Model/Heap`, for all kinds of expressions, and with the memory a panic leaves behind: a call
returns either a value or the panic, and in both cases the memory.  Slices of monomials, of rows and
of `MonomialVector`, `MonomialMatrix` and `PolynomialMatrix` entries are not written by this code and
stay values; the backing arrays of `PolynomialVector`s are written and have addresses.  A slice is the
whole of its backing array.
-/

namespace Verif

open GoNum

variable {R : Type}

/-- A computation on memory that may panic; the memory survives the panic. -/
def PM (σ α : Type) : Type := σ → Go α × σ

namespace PM
variable {σ α β : Type}

protected def pure (a : α) : PM σ α := fun s => (.ok a, s)

protected def bind (x : PM σ α) (f : α → PM σ β) : PM σ β := fun s =>
  match x s with
  | (.ok a, s') => f a s'
  | (.error e, s') => (.error e, s')

instance : Monad (PM σ) where
  pure := PM.pure
  bind := PM.bind

/-- `panic(...)`. -/
def panic (e : Err) : PM σ α := fun s => (.error e, s)

/-- A computation that reads the memory and does not write. -/
def read (f : σ → Go α) : PM σ α := fun s => (f s, s)

/-- A loop that collects one result per element. -/
def traverse (f : α → PM σ β) : List α → PM σ (List β)
  | [] => pure []
  | a :: l => do
    let b ← f a
    let bs ← traverse f l
    pure (b :: bs)

end PM

/-- `append` to a nil slice: a new exponent slice. -/
def alloc (l : List Int) : PM (Heap R) Nat := fun h => (.ok h.exps.length, { h with exps := h.exps ++ [l] })

section
variable [GoNum R]

/-- `Monomial.DerivativeWrt` (`symbolic/monomial.go:484-528`): both checks precede the write. -/
def pMonoDerivative (v : Var R) (m : HMono R) : PM (Heap R) (HScalar R) := fun h =>
  match m.derivative v h.exps with
  | .ok r => (.ok r.1, { h with exps := r.2 })
  | .error e => (.error e, h)

/-- Loop body of `Polynomial.DerivativeWrt` (`symbolic/polynomial.go:574-594`): what is appended. -/
def pDerivStep (v : Var R) (m : HMono R) : PM (Heap R) (List (HMono R)) := do
  if m.vars.isEmpty then pure []
  else
    match ← pMonoDerivative v m with
    | .mono d => pure [d]
    | .k c =>
      if feq c zero then pure []
      else do
        let a ← alloc []
        pure [⟨c, a, []⟩]
    | _ => PM.panic .other

/-- `Polynomial.DerivativeWrt` (`symbolic/polynomial.go:560-602`). -/
def pPolyDerivative (v : Var R) (p : HPoly R) : PM (Heap R) (HScalar R) := do
  PM.read (fun h => (p.load h.exps).check)
  PM.read (fun _ => v.check)
  let ds ← PM.traverse (pDerivStep v) p.monos
  if ds.flatten.isEmpty then pure (.k zero) else pure (.poly ⟨ds.flatten⟩)

/-- `polynomial.DerivativeWrt(vIn).(Polynomial)`. -/
def pDerivPoly (v : Var R) (p : HPoly R) : PM (Heap R) (HPoly R) := do
  match ← pPolyDerivative v p with
  | .poly q => pure q
  | _ => PM.panic .typeAssert

/-- `DerivativeWrt` on the scalar interface. -/
def pScalarDerivative (v : Var R) (e : HScalar R) : PM (Heap R) (HScalar R) :=
  match e with
  | .k _ => pure (.k zero)
  | .var w => do
    PM.read (fun _ => w.check)
    PM.read (fun _ => v.check)
    if w.id = v.id then pure (.k one) else pure (.k zero)
  | .mono m => pMonoDerivative v m
  | .poly p => pPolyDerivative v p

/-- An expression in memory; a `PolynomialVector` is the address of its backing array. -/
inductive HObj (R : Type)
  | s (e : HScalar R)
  | kv (l : List R)
  | vv (l : List (Var R))
  | mv (l : List (HMono R))
  | pv (a : Nat)
  | km (rows : List (List R))
  | vm (rows : List (List (Var R)))
  | mm (rows : List (List (HMono R)))
  | pm (rows : List (List (HPoly R)))
  deriving DecidableEq

/-- The entries of a `PolynomialVector`. -/
def Heap.pv (h : Heap R) (a : Nat) : List (HPoly R) := h.pvs.getD a []

/-- What an expression stands for at the moment. -/
def HObj.load (h : Heap R) : HObj R → Expr R
  | .s e => .s (e.load h.exps)
  | .kv l => .v (.k l)
  | .vv l => .v (.v l)
  | .mv l => .v (.m (l.map (HMono.load h.exps)))
  | .pv a => .v (.p ((h.pv a).map (HPoly.load h.exps)))
  | .km rows => .m (.k rows)
  | .vm rows => .m (.v rows)
  | .mm rows => .m (.m (rows.map (·.map (HMono.load h.exps))))
  | .pm rows => .m (.p (rows.map (·.map (HPoly.load h.exps))))

/-! ## Vectors -/

/-- The type switch on a derivative. -/
def HScalar.isMono : HScalar R → Bool | .mono _ => true | _ => false

/-- Loop body of `MonomialVector.DerivativeWrt` (`symbolic/monomial_vector.go:345-351`). -/
def pMonoVecStep (v : Var R) (m : HMono R) : PM (Heap R) (Bool × HScalar R) := do
  let d1 ← pMonoDerivative v m
  let d2 ← pMonoDerivative v m
  pure (d1.isMono, d2)

/-- `Monomial`s from monomials and constants (`symbolic/monomial_vector.go:356-368`). -/
def pMonoEntry (d : Bool × HScalar R) : PM (Heap R) (HMono R) :=
  match d.2 with
  | .mono x => pure x
  | .k c => do
    let a ← alloc []
    pure ⟨c, a, []⟩
  | _ => PM.panic .other

/-- `element.(K)` (`symbolic/monomial_vector.go:374`). -/
def pConstEntry (d : Bool × HScalar R) : PM (Heap R) R :=
  match d.2 with
  | .k c => pure c
  | _ => PM.panic .typeAssert

/-- `MonomialVector.DerivativeWrt` (`symbolic/monomial_vector.go:335-379`). -/
def pMonoVecDerivative (v : Var R) (l : List (HMono R)) : PM (Heap R) (HObj R) := do
  PM.read (fun h => Vec.check (.m (l.map (HMono.load h.exps))))
  let ds ← PM.traverse (pMonoVecStep v) l
  if ds.any (·.1) then do
    let ms ← PM.traverse pMonoEntry ds
    pure (.mv ms)
  else do
    let ks ← PM.traverse pConstEntry ds
    pure (.kv ks)

/-- Loop of `PolynomialVector.DerivativeWrt` (`symbolic/polynomial_vector.go:388-390`) over the given
indices: every entry is overwritten by its derivative. -/
def pPolyVecLoop (v : Var R) (a : Nat) : List Nat → PM (Heap R) Unit
  | [] => pure ()
  | i :: is => do
    let p ← PM.read (fun h => match (h.pv a)[i]? with
      | some p => .ok p
      | none => .error .index)
    let q ← pDerivPoly v p
    (fun h => (.ok (), { h with pvs := h.pvs.set a ((h.pv a).set i q) }) : PM (Heap R) Unit)
    pPolyVecLoop v a is

/-- `PolynomialVector.DerivativeWrt` (`symbolic/polynomial_vector.go:383-393`): the result is the
receiver. -/
def pPolyVecDerivative (v : Var R) (a : Nat) : PM (Heap R) (HObj R) := do
  let n ← PM.read (fun h => .ok (h.pv a).length)
  pPolyVecLoop v a (List.range n)
  pure (.pv a)

/-! ## Matrices -/

/-- Entry as `Monomial` (`symbolic/matrix_expression.go:405-423`). -/
def pToMono (e : HScalar R) : PM (Heap R) (HMono R) :=
  match e with
  | .mono m => pure m
  | .var v => do
    let a ← alloc [1]
    pure ⟨one, a, [v]⟩
  | .k c => do
    let a ← alloc []
    pure ⟨c, a, []⟩
  | .poly _ => PM.panic .unsupported

/-- The test of the row lengths (`symbolic/matrix_expression.go:306-329`). -/
def rowsCheck {α : Type} (rows : List (List α)) : Go Unit :=
  match rows with
  | [] => throw .empty
  | r0 :: _ => rows.forM (fun row => if row.length ≠ r0.length then throw .other else pure ())

/-- The part of `ConcretizeMatrixExpression` (`symbolic/matrix_expression.go:304-488`) used by
`MonomialMatrix.DerivativeWrt`: the entries are constants and monomials. -/
def pConcretizeMat (rows : List (List (HScalar R))) : PM (Heap R) (HObj R) := do
  PM.read (fun _ => rowsCheck rows)
  if rows.flatten.any HScalar.isMono then do
    let ms ← PM.traverse (PM.traverse pToMono) rows
    pure (.mm ms)
  else if rows.flatten.isEmpty then
    pure (.vm (rows.map (fun _ => [])))
  else do
    let ks ← PM.traverse (PM.traverse (fun (e : HScalar R) => match e with
      | .k c => pure c
      | _ => PM.panic .other)) rows
    pure (.km ks)

/-- `MonomialMatrix.DerivativeWrt` (`symbolic/monomial_matrix.go:450-476`). -/
def pMonoMatDerivative (v : Var R) (rows : List (List (HMono R))) : PM (Heap R) (HObj R) := do
  PM.read (fun h => Mat.check (.m (rows.map (·.map (HMono.load h.exps)))))
  PM.read (fun _ => v.check)
  let ds ← PM.traverse (PM.traverse (pMonoDerivative v)) rows
  pConcretizeMat ds

/-- `PolynomialMatrix.DerivativeWrt` (`symbolic/polynomial_matrix.go:419-445`). -/
def pPolyMatDerivative (v : Var R) (rows : List (List (HPoly R))) : PM (Heap R) (HObj R) := do
  PM.read (fun h => Mat.check (.p (rows.map (·.map (HPoly.load h.exps)))))
  PM.read (fun _ => v.check)
  let ds ← PM.traverse (PM.traverse (pDerivPoly v)) rows
  pure (.pm ds)

/-- `DerivativeWrt` on the interface; the kinds without exponents do not touch the memory. -/
def HObj.derivative (v : Var R) (o : HObj R) : PM (Heap R) (HObj R) :=
  match o with
  | .s e => do
    let r ← pScalarDerivative v e
    pure (.s r)
  | .kv l => PM.read (fun _ => do
    match ← Vec.derivative (.k l) v with
    | .k r => pure (.kv r)
    | _ => throw .other)
  | .vv l => PM.read (fun _ => do
    match ← Vec.derivative (.v l) v with
    | .k r => pure (.kv r)
    | _ => throw .other)
  | .mv l => pMonoVecDerivative v l
  | .pv a => pPolyVecDerivative v a
  | .km rows => PM.read (fun _ => do
    match ← Mat.derivative (.k rows) v with
    | .k r => pure (.km r)
    | _ => throw .other)
  | .vm rows => PM.read (fun _ => do
    match ← Mat.derivative (.v rows) v with
    | .k r => pure (.km r)
    | _ => throw .other)
  | .mm rows => pMonoMatDerivative v rows
  | .pm rows => pPolyMatDerivative v rows

/-! ## Client programs that recover from panics -/

/-- The expressions a caller holds, and the memory. -/
structure PStore (R : Type) where
  objs : List (HObj R)
  heap : Heap R
  deriving DecidableEq

/-- One call `objs[i].DerivativeWrt(v)` with `recover`: a returned expression is kept as a further
object; the outcome is recorded. -/
def PStore.call (s : PStore R) (c : Nat × Var R) : Go (HObj R) × PStore R :=
  match s.objs[c.1]? with
  | none => (.error .index, s)
  | some o =>
    match o.derivative c.2 s.heap with
    | (.ok r, h) => (.ok r, ⟨s.objs ++ [r], h⟩)
    | (.error e, h) => (.error e, ⟨s.objs, h⟩)

/-- A sequence of calls and their outcomes. -/
def PStore.run (s : PStore R) : List (Nat × Var R) → List (Go (HObj R)) × PStore R
  | [] => ([], s)
  | c :: cs =>
    let r := s.call c
    let rest := r.2.run cs
    (r.1 :: rest.1, rest.2)

end

end Verif
