import Verif.Model.Scalar

/-!
# Model of environments and of the creation of variables

An `Environment` is a pointer to a `BasicEnvironment`; the model numbers them, `0` being
`DefaultEnvironment`.  Other implementations of the interface are not modelled, nor are writes to the
exported field `Variables`.  IDs are `uint64`; the model's are unbounded.
-/

namespace Verif

open GoNum

variable {R : Type}

/-- The slices `Variables` of all environments (`symbolic/basic_environment.go:5-8`). -/
abbrev Envs (R : Type) := Nat → List (Var R)

def Envs.set (w : Envs R) (e : Nat) (l : List (Var R)) : Envs R := fun e' => if e' = e then l else w e'

/-- `BasicEnvironment.TrackVariable` (`symbolic/basic_environment.go:17-29`). -/
def trackVariable (e : Nat) (v : Var R) (w : Envs R) : Bool × Envs R :=
  if (w e).any (fun x => x.id == v.id) then (false, w) else (true, w.set e (w e ++ [v]))

/-- The environment used for the variadic argument: the given one if it is the only one
(`symbolic/variable.go:388-392`, `422-426`, `variable_vector.go:379-383`). -/
def envArg : List Nat → Nat
  | [e] => e
  | _ => 0

section
variable [GoNum R]

/-- `Infinity` (`symbolic/constant.go:17`); the model uses the integer `10^100` for `1e100`. -/
def infinity : R := ofInt (10 ^ 100)

/-- `variableOut` of `NewContinuousVariable` (`symbolic/variable.go:398-405`) and `NewBinaryVariable`
(`429-436`). -/
def newVarValue (binary : Bool) (n e : Nat) : Var R :=
  if binary then ⟨n, zero, one, 66, s!"x_{n}", e⟩
  else ⟨n, neg infinity, infinity, 67, s!"x_{n}", e⟩

/-- `NewContinuousVariable` (`symbolic/variable.go:384-412`) and `NewBinaryVariable` (`415-443`) in the
environment `e`. -/
def newVar (binary : Bool) (e : Nat) (w : Envs R) : Var R × Envs R :=
  let v := newVarValue binary (w e).length e
  (v, (trackVariable e v w).2)

/-- Loop of `NewVariableVector` (`symbolic/variable_vector.go:387-389`) and inner loop of
`NewVariableMatrixClassic` (`symbolic/variable_matrix.go:513-515`). -/
def newVars : Nat → Nat → Envs R → List (Var R) × Envs R
  | 0, _, w => ([], w)
  | n + 1, e, w =>
    let r := newVar false e w
    let s := newVars n e r.2
    (r.1 :: s.1, s.2)

/-- Outer loop of `NewVariableMatrixClassic` (`symbolic/variable_matrix.go:511-516`). -/
def newRows : Nat → Nat → Nat → Envs R → List (List (Var R)) × Envs R
  | 0, _, _, w => ([], w)
  | r + 1, c, e, w =>
    let a := newVars c e w
    let s := newRows r c e a.2
    (a.1 :: s.1, s.2)

/-- Calls a client can make. -/
inductive EnvOp (R : Type)
  | newContinuous (envs : List Nat)
  | newBinary (envs : List Nat)
  | newVector (n : Int) (envs : List Nat)
  | newMatrix (r c : Int) (envs : List Nat)
  | track (e : Nat) (v : Var R)

/-- One call: the variables it creates, in order, and the environments afterwards.
`NewVariable` and `NewVariableMatrix` (`symbolic/variable.go:379-381`, `variable_matrix.go:488-490`) only
forward.  `make` with a negative number of columns panics. -/
def EnvOp.call (w : Envs R) : EnvOp R → Go (List (Var R) × Envs R)
  | .newContinuous envs =>
    let r := newVar false (envArg envs) w
    .ok ([r.1], r.2)
  | .newBinary envs =>
    let r := newVar true (envArg envs) w
    .ok ([r.1], r.2)
  | .newVector n envs => .ok (newVars n.toNat (envArg envs) w)
  | .newMatrix r c envs =>
    if envs.length > 1 then .error .tooManyInputs
    else if 0 < r ∧ c < 0 then .error .other
    else
      let s := newRows r.toNat c.toNat (envArg envs) w
      .ok (s.1.flatten, s.2)
  | .track e v => .ok ([], (trackVariable e v w).2)

/-- A history; the created variables in order.  A panicking call changes nothing and the client goes
on. -/
def EnvOp.run (w : Envs R) : List (EnvOp R) → List (Var R) × Envs R
  | [] => ([], w)
  | o :: os =>
    match o.call w with
    | .error _ => EnvOp.run w os
    | .ok r =>
      let s := EnvOp.run r.2 os
      (r.1 ++ s.1, s.2)

/-! ## Goroutines

Every goroutine creates variables in one environment, again and again.  Atomic steps: reading the
length, reading the slice inside `TrackVariable`, and assigning the new slice.  A goroutine that reads
the slice searches that version of it; what `append` does to shared backing arrays is not modelled. -/

/-- Where a goroutine is in `NewContinuousVariable`. -/
inductive PC (R : Type)
  /-- About to read the length (`symbolic/variable.go:395`). -/
  | start
  /-- About to range over `be.Variables` (`symbolic/basic_environment.go:19`). -/
  | gotLen (n : Nat)
  /-- About to assign `be.Variables` and return (`symbolic/basic_environment.go:27-28`). -/
  | gotVars (n : Nat) (l : List (Var R))

/-- State of all goroutines: the environment's variables, the counters, the returned variables. -/
structure Conc (R : Type) where
  vars : List (Var R)
  pc : Nat → PC R
  log : List (Nat × Var R)

/-- Goroutine `i` makes one step. -/
def Conc.step (e : Nat) (s : Conc R) (i : Nat) : Conc R :=
  let go := fun p : PC R => fun j => if j = i then p else s.pc j
  match s.pc i with
  | .start => { s with pc := go (.gotLen s.vars.length) }
  | .gotLen n => { s with pc := go (.gotVars n s.vars) }
  | .gotVars n l =>
    let v : Var R := newVarValue false n e
    { vars := if l.any (fun x => x.id == n) then s.vars else l ++ [v],
      pc := go .start,
      log := s.log ++ [(i, v)] }

/-- A schedule: which goroutine moves next. -/
def Conc.run (e : Nat) (s : Conc R) (sched : List Nat) : Conc R := sched.foldl (Conc.step e) s

end

end Verif
