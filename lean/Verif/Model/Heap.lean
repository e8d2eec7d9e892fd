import Verif.Model.Array

/-!
# Model of differentiation with shared exponent slices

`Monomial.DerivativeWrt` writes through the exponent slice of its receiver, so this file keeps the
exponent slices in a heap.  A slice is the whole of its backing array (no sub-slices occur in this
code) and its address is an index.  `VariableFactors` and `Monomials` are never written by this code
and stay values.  The backing arrays of `PolynomialVector`s are kept in a second heap, because
`PolynomialVector.DerivativeWrt` overwrites the entries of its receiver.

A panic ends the model's run; writes done before a recovered panic are not modelled.
-/

namespace Verif

open GoNum

variable {R : Type}

/-- The exponent slices. -/
abbrev ExpHeap := List (List Int)

/-- `Monomial` (`symbolic/monomial.go:17-21`) with the exponent slice by address. -/
structure HMono (R : Type) where
  coeff : R
  addr : Nat
  vars : List (Var R)
  deriving DecidableEq

/-- `Polynomial` (`symbolic/polynomial.go:18-20`). -/
structure HPoly (R : Type) where
  monos : List (HMono R)
  deriving DecidableEq

/-- Scalar expressions. -/
inductive HScalar (R : Type)
  | k (c : R)
  | var (v : Var R)
  | mono (m : HMono R)
  | poly (p : HPoly R)
  deriving DecidableEq

/-- What the monomial stands for at the moment. -/
def HMono.load (h : ExpHeap) (m : HMono R) : Mono R := ⟨m.coeff, h.getD m.addr [], m.vars⟩

def HPoly.load (h : ExpHeap) (p : HPoly R) : Poly R := ⟨p.monos.map (HMono.load h)⟩

def HScalar.load (h : ExpHeap) : HScalar R → Scalar R
  | .k c => .k c
  | .var v => .var v
  | .mono m => .mono (m.load h)
  | .poly p => .poly (p.load h)

/-- The addresses an expression refers to. -/
def HScalar.addrs : HScalar R → List Nat
  | .k _ => []
  | .var _ => []
  | .mono m => [m.addr]
  | .poly p => p.monos.map (·.addr)

section
variable [GoNum R]

/-- `Monomial.Copy` (`symbolic/monomial.go:615-627`): a new exponent slice. -/
def HMono.copy (m : HMono R) (h : ExpHeap) : HMono R × ExpHeap :=
  (⟨m.coeff, h.length, m.vars⟩, h ++ [(m.load h).exps])

/-- `Polynomial.Copy` (`symbolic/polynomial.go:58-64`): a new slice of monomials, whose exponent
slices are shared. -/
def HPoly.copy (p : HPoly R) : HPoly R := p

/-- `Monomial.DerivativeWrt` (`symbolic/monomial.go:484-528`). -/
def HMono.derivative (m : HMono R) (v : Var R) (h : ExpHeap) : Go (HScalar R × ExpHeap) := do
  (m.load h).check
  v.check
  match findVar v m.vars with
  | none => return (.k zero, h)
  | some i =>
    match (h.getD m.addr [])[i]? with
    | none => throw .index
    | some e =>
      if e = 1 ∧ m.vars.length = 1 then return (.k m.coeff, h)
      else if e = 1 then
        return (.mono ⟨m.coeff, h.length, m.vars.eraseIdx i⟩, h ++ [(h.getD m.addr []).eraseIdx i])
      else
        return (.mono ⟨GoNum.mul m.coeff (ofInt e), m.addr, m.vars⟩,
          h.modify m.addr (·.modify i (· - 1)))

/-- Loop body of `Polynomial.DerivativeWrt` (`symbolic/polynomial.go:574-594`). -/
def hDerivStep (v : Var R) (st : List (HMono R) × ExpHeap) (m : HMono R) :
    Go (List (HMono R) × ExpHeap) := do
  if m.vars.isEmpty then return st
  let r ← m.derivative v st.2
  match r.1 with
  | .mono d => return (st.1 ++ [d], r.2)
  | .k c =>
    if feq c zero then return (st.1, r.2)
    else return (st.1 ++ [⟨c, r.2.length, []⟩], r.2 ++ [[]])
  | _ => throw .other

/-- `Polynomial.DerivativeWrt` (`symbolic/polynomial.go:560-602`). -/
def HPoly.derivative (p : HPoly R) (v : Var R) (h : ExpHeap) : Go (HScalar R × ExpHeap) := do
  (p.load h).check
  v.check
  let r ← p.monos.foldlM (hDerivStep v) ([], h)
  if r.1.isEmpty then return (.k zero, r.2)
  return (.poly ⟨r.1⟩, r.2)

/-- `DerivativeWrt` on the scalar interface. -/
def HScalar.derivative (e : HScalar R) (v : Var R) (h : ExpHeap) : Go (HScalar R × ExpHeap) :=
  match e with
  | .k _ => return (.k zero, h)
  | .var w => do
    w.check
    v.check
    if w.id = v.id then return (.k one, h) else return (.k zero, h)
  | .mono m => m.derivative v h
  | .poly p => p.derivative v h

/-! ## Vectors -/

/-- Result of the loop of `MonomialVector.DerivativeWrt` (`symbolic/monomial_vector.go:345-351`): for
every entry whether its first derivative is a `Monomial`, and its second derivative call. -/
def hMonoVecStep (v : Var R) (st : List (Bool × HScalar R) × ExpHeap) (m : HMono R) :
    Go (List (Bool × HScalar R) × ExpHeap) := do
  let d1 ← m.derivative v st.2
  let d2 ← m.derivative v d1.2
  return (st.1 ++ [(match d1.1 with | .mono _ => true | _ => false, d2.1)], d2.2)

/-- Vectors as far as needed for the results: of constants and of monomials. -/
inductive HVec (R : Type)
  | k (l : List R)
  | m (l : List (HMono R))
  deriving DecidableEq

def HVec.load (h : ExpHeap) : HVec R → Vec R
  | .k l => .k l
  | .m l => .m (l.map (HMono.load h))

/-- Conversion of one entry to a monomial (`symbolic/monomial_vector.go:356-361`). -/
def hMonoEntry (st : List (HMono R) × ExpHeap) (d : Bool × HScalar R) :
    Go (List (HMono R) × ExpHeap) :=
  match d.2 with
  | .mono x => return (st.1 ++ [x], st.2)
  | .k c => return (st.1 ++ [⟨c, st.2.length, []⟩], st.2 ++ [[]])
  | _ => throw .other

/-- `MonomialVector.DerivativeWrt` (`symbolic/monomial_vector.go:335-379`). -/
def hMonoVecDerivative (l : List (HMono R)) (v : Var R) (h : ExpHeap) : Go (HVec R × ExpHeap) := do
  Vec.check (.m (l.map (HMono.load h)))
  let r ← l.foldlM (hMonoVecStep v) ([], h)
  if r.1.any (·.1) then
    let s ← r.1.foldlM hMonoEntry ([], r.2)
    return (.m s.1, s.2)
  else
    let ks ← r.1.mapM (fun d => match d.2 with
      | .k c => pure c
      | _ => throw .typeAssert)
    return (.k ks, r.2)

/-- Both heaps. -/
structure Heap (R : Type) where
  exps : ExpHeap
  /-- Backing arrays of the `PolynomialVector`s. -/
  pvs : List (List (HPoly R))
  deriving DecidableEq

/-- Loop of `PolynomialVector.DerivativeWrt` (`symbolic/polynomial_vector.go:388-390`) on the entries:
the new entries and the heap of exponents. -/
def hPolyVecStep (v : Var R) (st : List (HPoly R) × ExpHeap) (p : HPoly R) :
    Go (List (HPoly R) × ExpHeap) := do
  let r ← p.derivative v st.2
  match r.1 with
  | .poly q => return (st.1 ++ [q], r.2)
  | _ => throw .typeAssert

/-- `PolynomialVector.DerivativeWrt` (`symbolic/polynomial_vector.go:383-393`): `derivative` is the
receiver's own slice, so the result is the receiver and its entries are overwritten. -/
def hPolyVecDerivative (a : Nat) (v : Var R) (h : Heap R) : Go (Nat × Heap R) := do
  let r ← (h.pvs.getD a []).foldlM (hPolyVecStep v) ([], h.exps)
  return (a, ⟨r.2, h.pvs.set a r.1⟩)

/-! ## Client programs -/

/-- The expressions a caller holds, and the heap. -/
structure Store (R : Type) where
  objs : List (HScalar R)
  heap : ExpHeap
  deriving DecidableEq

/-- One call `objs[i].DerivativeWrt(v)`; the result is kept as a further object. -/
def Store.call (s : Store R) (c : Nat × Var R) : Go (Store R) :=
  match s.objs[c.1]? with
  | none => throw .index
  | some e => do
    let r ← e.derivative c.2 s.heap
    return ⟨s.objs ++ [r.1], r.2⟩

/-- A sequence of calls. -/
def Store.run (s : Store R) (cs : List (Nat × Var R)) : Go (Store R) := cs.foldlM Store.call s

end

end Verif
