import Verif.Model.Constraint

/-!
# Model of `FindInSlice`, `IsConstraint` and of substitution maps with arbitrary values

Arguments of type `interface{}` are sums of the types the functions distinguish.  A function that
returns an `error` is modelled by its value paired with `true` iff the error is not `nil`; a panic is
an error of `Go`.
-/

namespace Verif

open GoNum

variable {R : Type}

/-- First argument of `FindInSlice`; `uint64` values are unbounded here. -/
inductive Elem (R : Type)
  | str (s : String)
  | int (n : Int)
  | u64 (n : Nat)
  | var (v : Var R)
  | other

/-- Second argument of `FindInSlice`. -/
inductive SliceArg (R : Type)
  | strs (l : List String)
  | ints (l : List Int)
  | u64s (l : List Nat)
  | vars (l : List (Var R))
  | other

/-- `-1` for an element that is not found. -/
def locationInt : Option Nat → Int
  | none => -1
  | some i => i

/-- `FindInSlice` (`symbolic/utils.go:12-97`).  The type assertion of the case `uint64` (line 58) has
no second result, so it panics when it fails; the other cases return an error. -/
def findInSlice (x : Elem R) (s : SliceArg R) : Go (Int × Bool) :=
  match x with
  | .str a =>
    match s with
    | .strs l => return (locationInt (findEq a l), false)
    | _ => return (-1, true)
  | .int a =>
    match s with
    | .ints l => return (locationInt (findEq a l), false)
    | _ => return (-1, true)
  | .u64 a =>
    match s with
    | .u64s l => return (locationInt (findEq a l), false)
    | _ => throw .typeAssert
  | .var a =>
    match s with
    | .vars l => return (locationInt (findVar a l), false)
    | _ => return (-1, true)
  | .other => return (-1, true)

/-- Argument of `IsConstraint`: a constraint, a pointer to one (`nil` or not), or anything else. -/
inductive ConArg (R : Type)
  | con (c : Con R)
  | ptr (c : Option (Con R))
  | other

/-- `IsConstraint` (`symbolic/constraint.go:34-52`). -/
def isConstraint : ConArg R → Bool
  | .con _ => true
  | .ptr _ => true
  | .other => false

section
variable [GoNum R]

/-- A `map[Variable]Expression`, in one iteration order.  `nil` values are not modelled. -/
abbrev ESubMap (R : Type) := List (Var R × Expr R)

/-- Loop body of `CheckSubstitutionMap` (`symbolic/utils.go:155-184`). -/
def checkESubEntry (kv : Var R × Expr R) : Go Unit := do
  kv.1.check
  kv.2.check
  match kv.2 with
  | .s _ => pure ()
  | _ => throw .check

/-- `CheckSubstitutionMap` (`symbolic/utils.go:151-189`). -/
def checkESubMap (sm : ESubMap R) : Go Unit := sm.forM checkESubEntry

/-- The entries with scalar values: all entries of a map that passes `CheckSubstitutionMap`. -/
def ESubMap.scalars (sm : ESubMap R) : SubMap R :=
  sm.filterMap (fun kv =>
    match kv.2 with
    | .s a => some (kv.1, a)
    | _ => none)

/-- `SubstituteAccordingTo` on the interface with any map (see `Expr.substMap` for the methods).
Constants return themselves and do not look at the map (`constant.go:336-338`,
`constant_vector.go:497-499`, `constant_matrix.go:577-579`). -/
def Expr.substEMap (e : Expr R) (sm : ESubMap R) : Go (Expr R) :=
  match e with
  | .s (.k c) => return .s (.k c)
  | .v (.k l) => return .v (.k l)
  | .m (.k rows) => return .m (.k rows)
  | e => do
    e.check
    checkESubMap sm
    e.substMap sm.scalars

/-- `SubstituteAccordingTo` of a constraint with any map (`scalar_constraint.go:211-230`,
`vector_constraint.go:242-255`, `matrix_constraint.go:142-156`). -/
def Con.substEMap (c : Con R) (sm : ESubMap R) : Go (Con R) := do
  c.check
  match c with
  | .s c =>
    let l ← (Expr.s c.lhs).substEMap sm
    let r ← (Expr.s c.rhs).substEMap sm
    match l, r with
    | .s l, .s r => return .s ⟨l, r, c.sense⟩
    | _, _ => throw .typeAssert
  | .v c =>
    let l ← (Expr.v c.lhs).substEMap sm
    let r ← (Expr.v c.rhs).substEMap sm
    match l, r with
    | .v l, .v r => return .v ⟨l, r, c.sense⟩
    | _, _ => throw .typeAssert
  | .m c =>
    let l ← (Expr.m c.lhs).substEMap sm
    let r ← (Expr.m c.rhs).substEMap sm
    match l, r with
    | .m l, .m r => return .m ⟨l, r, c.sense⟩
    | _, _ => throw .typeAssert

end

end Verif
