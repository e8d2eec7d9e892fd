import Verif.Model.Scalar

/-!
# Model of `Monomial.Multiply(Monomial)` on a shared receiver

`append(m.VariableFactors, right.VariableFactors...)` writes into the backing array of
`m.VariableFactors` if its capacity suffices.  Here that array is shared by goroutines which multiply
the same monomial by different ones.  Each write and each read of an element is one atomic step (Go
guarantees less).  The slices of the right factors are not shared with that array.
-/

namespace Verif

open GoNum

variable {R : Type} [GoNum R]

/-- `Monomial.Multiply(Monomial)` after `UniqueVars` (`symbolic/monomial.go:204-227`). -/
def Mono.mulWith (m r : Mono R) (variables : List (Var R)) : Go (Mono R) := do
  let md0 := List.replicate variables.length (0 : Int)
  let md1 ← (m.vars.zip m.exps).foldlM (addExponent variables) md0
  let md2 ← (r.vars.zip r.exps).foldlM (addExponent variables) md1
  return ⟨GoNum.mul m.coeff r.coeff, md2, variables⟩

/-- Where a goroutine is in `Multiply`. -/
inductive MulPC (R : Type)
  /-- Before `append` (`symbolic/monomial.go:201`). -/
  | start
  /-- `append` in place has written `k` elements. -/
  | writing (k : Nat)
  /-- `UniqueVars` (`symbolic/variable.go:263-267`) has read `k` elements and has `out` so far. -/
  | reading (k : Nat) (out : List (Var R))
  /-- `append` has made a new array with these elements. -/
  | own (vs : List (Var R))
  /-- Returned or panicked. -/
  | done (res : Go (Mono R))

/-- The backing array (its length is the capacity) and the goroutines. -/
structure MulState (R : Type) where
  arr : List (Var R)
  pc : Nat → MulPC R

/-- The shared monomial: `VariableFactors` are the first `len` elements of the array. -/
def sharedMono (c : R) (exps : List Int) (len : Nat) (arr : List (Var R)) : Mono R :=
  ⟨c, exps, arr.take len⟩

/-- Goroutine `i`, multiplying by `rs i`, makes one step. -/
def MulState.step (c : R) (exps : List Int) (len : Nat) (rs : Nat → Mono R) (s : MulState R) (i : Nat) :
    MulState R :=
  let go := fun p : MulPC R => fun j => if j = i then p else s.pc j
  let r := rs i
  match s.pc i with
  | .start =>
    if len + r.vars.length ≤ s.arr.length then { s with pc := go (.writing 0) }
    else { s with pc := go (.own (s.arr.take len ++ r.vars)) }
  | .writing k =>
    match r.vars[k]? with
    | some v => ⟨s.arr.set (len + k) v, go (.writing (k + 1))⟩
    | none => { s with pc := go (.reading 0 []) }
  | .reading k out =>
    if k < len + r.vars.length then
      match s.arr[k]? with
      | some v => { s with pc := go (.reading (k + 1) (uniqueStep out v)) }
      | none => { s with pc := go (.done (.error .index)) }
    else { s with pc := go (.done ((sharedMono c exps len s.arr).mulWith r out)) }
  | .own vs => { s with pc := go (.done ((sharedMono c exps len s.arr).mulWith r (uniqueVars vs))) }
  | .done res => { s with pc := go (.done res) }

/-- A schedule. -/
def MulState.run (c : R) (exps : List Int) (len : Nat) (rs : Nat → Mono R) (s : MulState R)
    (sched : List Nat) : MulState R := sched.foldl (MulState.step c exps len rs) s

end Verif
