import Mathlib.Logic.Function.Basic
import Verif.Model.Scalar

/-!
# Model of `Monomial.DerivativeWrt` called by several goroutines

`Monomial.DerivativeWrt` reads the exponent slice of its receiver several times and writes through it.  Here any number of calls
run at the same time on monomials whose exponent slices may be the same.  Each read and each write of one exponent is one atomic
step (Go guarantees less).  `VariableFactors` is only read by this code and is a value.
-/

namespace Verif

open GoNum

variable {R : Type}

/-- One call: the receiver, with its exponent slice by address, and the variable. -/
structure DCall (R : Type) where
  coeff : R
  addr : Nat
  vars : List (Var R)
  v : Var R

/-- The exponent slices. -/
abbrev DMem := Nat → List Int

/-- What the receiver stands for at the moment. -/
def DCall.receiver (c : DCall R) (mem : DMem) : Mono R := ⟨c.coeff, mem c.addr, c.vars⟩

/-- How a call ended. -/
inductive DOut (R : Type)
  | panicked (e : Err)
  /-- Returned a result that shares nothing with the receiver. -/
  | own (s : Scalar R)
  /-- Returned a monomial with this coefficient and the receiver's slices (`monomialOut = m`). -/
  | shared (c : R)

/-- Where a call is. -/
inductive DPC (R : Type)
  /-- Before `Check` (`symbolic/monomial.go:486`). -/
  | start
  /-- Before the condition of the first case (`507`). -/
  | first (i : Nat)
  /-- Before the condition of the second case (`510`). -/
  | second (i : Nat)
  /-- In the loop of the second case (`513-518`) before the factor `k`, with the exponents so far. -/
  | copying (i k : Nat) (es : List Int)
  /-- Before the product with the exponent (`521`). -/
  | coef (i : Nat)
  /-- Before the read of `-=` (`522`). -/
  | dec (i : Nat) (c : R)
  /-- Before the write of `-=` (`522`). -/
  | write (i : Nat) (c : R) (e : Int)
  | done (o : DOut R)

/-- The memory and the calls. -/
structure DState (R ι : Type) where
  mem : DMem
  pc : ι → DPC R

variable {ι : Type}

/-- What call `g` returned, read now. -/
def DState.outcome (calls : ι → DCall R) (s : DState R ι) (g : ι) : Option (Go (Scalar R)) :=
  match s.pc g with
  | .done (.panicked e) => some (.error e)
  | .done (.own r) => some (.ok r)
  | .done (.shared c) => some (.ok (.mono ⟨c, s.mem (calls g).addr, (calls g).vars⟩))
  | _ => none

variable [GoNum R] [DecidableEq ι]

/-- `(m.Check, vIn.Check, FindInSlice)` (`symbolic/monomial.go:486-500`): only lengths of exponent slices are read. -/
def DCall.enter (c : DCall R) (mem : DMem) : DPC R :=
  match (c.receiver mem).check with
  | .error e => .done (.panicked e)
  | .ok _ =>
    match c.v.check with
    | .error e => .done (.panicked e)
    | .ok _ =>
      match findVar c.v c.vars with
      | none => .done (.own (.k zero))
      | some i => .first i

/-- Where a step takes a call, given the exponents it sees. -/
def DCall.next (c : DCall R) (mem : DMem) : DPC R → DPC R
  | .start => c.enter mem
  | .first i =>
    match (mem c.addr)[i]? with
    | none => .done (.panicked .index)
    | some e => if e = 1 ∧ c.vars.length = 1 then .done (.own (.k c.coeff)) else .second i
  | .second i =>
    match (mem c.addr)[i]? with
    | none => .done (.panicked .index)
    | some e => if e = 1 then .copying i 0 [] else .coef i
  | .copying i k es =>
    if k < c.vars.length then
      if k = i then .copying i (k + 1) es
      else
        match (mem c.addr)[k]? with
        | none => .done (.panicked .index)
        | some e => .copying i (k + 1) (es ++ [e])
    else .done (.own (.mono ⟨c.coeff, es, c.vars.eraseIdx i⟩))
  | .coef i =>
    match (mem c.addr)[i]? with
    | none => .done (.panicked .index)
    | some e => .dec i (GoNum.mul c.coeff (ofInt e))
  | .dec i c' =>
    match (mem c.addr)[i]? with
    | none => .done (.panicked .index)
    | some e => .write i c' e
  | .write _ c' _ => .done (.shared c')
  | .done o => .done o

/-- What a step writes. -/
def DCall.writes (c : DCall R) (mem : DMem) : DPC R → DMem
  | .write i _ e => Function.update mem c.addr ((mem c.addr).set i (e - 1))
  | _ => mem

/-- Call `g` makes one step. -/
def DState.step (calls : ι → DCall R) (s : DState R ι) (g : ι) : DState R ι :=
  ⟨(calls g).writes s.mem (s.pc g), Function.update s.pc g ((calls g).next s.mem (s.pc g))⟩

/-- A schedule. -/
def DState.run (calls : ι → DCall R) (s : DState R ι) (sched : List ι) : DState R ι :=
  sched.foldl (DState.step calls) s

/-- All calls are about to begin. -/
def DState.begin (mem : DMem) : DState R ι := ⟨mem, fun _ => .start⟩

end Verif
