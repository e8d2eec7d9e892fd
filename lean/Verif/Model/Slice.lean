import Verif.Model.Share

/-!
# Model of `Monomial.Multiply(Monomial)` with slices of variables in memory

`append(m.VariableFactors, right.VariableFactors...)` (`symbolic/monomial.go:201`) writes into the array
behind `m.VariableFactors` if its capacity suffices, also when the caller holds another slice of that
array.  Here a slice is a reference into memory.  `Exponents` are values (see `Model/Heap.lean` for
those).  All calls run one after the other (see `Model/Share.lean` for goroutines).
-/

namespace Verif

open GoNum

variable {R : Type}

/-- The arrays of variables. -/
abbrev VMem (R : Type) := List (List (Var R))

/-- A slice of variables: array, offset, length, capacity. -/
structure Sl where
  arr : Nat
  off : Nat
  len : Nat
  cap : Nat
  deriving DecidableEq

/-- The elements of a slice. -/
def Sl.read (μ : VMem R) (s : Sl) : List (Var R) := ((μ.getD s.arr []).drop s.off).take s.len

/-- An array with `vs` written from position `i` on. -/
def writeAt (l : List (Var R)) (i : Nat) (vs : List (Var R)) : List (Var R) :=
  l.take i ++ vs ++ l.drop (i + vs.length)

/-- `append(s, t...)`: in place if the capacity suffices, otherwise into a new array (whose capacity
beyond its length is left out: `Multiply` drops the slice). -/
def appendSl (μ : VMem R) (s t : Sl) : VMem R × Sl :=
  if s.len + t.len ≤ s.cap then
    (μ.modify s.arr (fun l => writeAt l (s.off + s.len) (t.read μ)), { s with len := s.len + t.len })
  else (μ ++ [s.read μ ++ t.read μ], ⟨μ.length, 0, s.len + t.len, s.len + t.len⟩)

/-- `Monomial` (`symbolic/monomial.go:14-18`) with its slice of variables. -/
structure SMono (R : Type) where
  coeff : R
  exps : List Int
  vars : Sl

/-- The monomial as a value. -/
def SMono.value (μ : VMem R) (m : SMono R) : Mono R := ⟨m.coeff, m.exps, m.vars.read μ⟩

variable [GoNum R]

/-- `Monomial.Multiply(Monomial)` (`symbolic/monomial.go:155-227`): the memory afterwards and the product
(its slice, made by `UniqueVars`, is new). -/
def SMono.mul (μ : VMem R) (m r : SMono R) : VMem R × Go (Mono R) :=
  match (do (m.value μ).check; (r.value μ).check : Go Unit) with
  | .error e => (μ, .error e)
  | .ok _ =>
    let a := appendSl μ m.vars r.vars
    (a.1, (m.value a.1).mulWith (r.value a.1) (uniqueVars (a.2.read a.1)))

/-- What a client does. -/
inductive SOp (R : Type)
  /-- A monomial is written down with a slice of its own; `spare` is the rest of its array. -/
  | make (m : Mono R) (spare : List (Var R))
  /-- The struct is copied; the slices are shared. -/
  | dup (i : Nat)
  /-- Monomial `i` times monomial `j`; `spare` is the rest of the array made by `UniqueVars`. -/
  | mul (i j : Nat) (spare : List (Var R))

/-- Memory and all monomials the client holds. -/
structure SState (R : Type) where
  mem : VMem R
  ms : List (SMono R)

/-- The client gets a monomial with a new array. -/
def SState.push (s : SState R) (m : Mono R) (spare : List (Var R)) : SState R :=
  ⟨s.mem ++ [m.vars ++ spare],
    s.ms ++ [⟨m.coeff, m.exps, ⟨s.mem.length, 0, m.vars.length, m.vars.length + spare.length⟩⟩]⟩

/-- One step; a panic is recovered and gives nothing. -/
def SState.step (s : SState R) : SOp R → SState R
  | .make m spare => s.push m spare
  | .dup i =>
    match s.ms[i]? with
    | none => s
    | some m => ⟨s.mem, s.ms ++ [m]⟩
  | .mul i j spare =>
    match s.ms[i]?, s.ms[j]? with
    | some m, some r =>
      let out := m.mul s.mem r
      match out.2 with
      | .error _ => ⟨out.1, s.ms⟩
      | .ok q => SState.push ⟨out.1, s.ms⟩ q spare
    | _, _ => s

/-- A program. -/
def SState.run (s : SState R) (ops : List (SOp R)) : SState R := ops.foldl SState.step s

/-- What the client sees. -/
def SState.values (s : SState R) : List (Mono R) := s.ms.map (SMono.value s.mem)

end Verif
