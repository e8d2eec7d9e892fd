import Verif.Model.Slice
import Verif.Model.Env

/-!
# Model of environments whose lists of variables are slices in memory

`AllTrackedVariables` returns the slice of the environment itself, so the caller and the environment share
an array.  `Model/Env.lean` treats the lists as values; here they are slices as in `Model/Slice.lean`.
Calls run one after the other.  An operation on an environment or a slice that does not exist, and a write
out of range (a panic), do nothing.
-/

namespace Verif

variable {R : Type}

/-- `BasicEnvironment` (`symbolic/basic_environment.go:5-8`). -/
structure BEnv where
  name : String
  vars : Sl
  deriving DecidableEq

/-- `append(s, v)`: in place if there is capacity left, otherwise into a new array.  `spare` is the rest of
the new array, of whatever length the runtime chooses. -/
def append1 (μ : VMem R) (s : Sl) (v : Var R) (spare : List (Var R)) : VMem R × Sl :=
  if s.len < s.cap then
    (μ.modify s.arr (fun l => writeAt l (s.off + s.len) [v]), { s with len := s.len + 1 })
  else (μ ++ [s.read μ ++ v :: spare], ⟨μ.length, 0, s.len + 1, s.len + 1 + spare.length⟩)

/-- `BasicEnvironment.GetName` (`symbolic/basic_environment.go:11-13`). -/
def BEnv.getName (b : BEnv) : String := b.name

/-- `BasicEnvironment.AllTrackedVariables` (`symbolic/basic_environment.go:32-34`): the slice itself. -/
def BEnv.allTracked (b : BEnv) : Sl := b.vars

/-- `MakeBasicEnvironment` (`symbolic/basic_environment.go:37-42`): an empty slice. -/
def makeBasicEnvironment (μ : VMem R) (name : String) : VMem R × BEnv :=
  (μ ++ [[]], ⟨name, ⟨μ.length, 0, 0, 0⟩⟩)

/-- `BasicEnvironment.TrackVariable` (`symbolic/basic_environment.go:17-29`). -/
def BEnv.track (μ : VMem R) (b : BEnv) (v : Var R) (spare : List (Var R)) : Bool × VMem R × BEnv :=
  if (b.vars.read μ).any (fun x => x.id == v.id) then (false, μ, b)
  else
    let a := append1 μ b.vars v spare
    (true, a.1, { b with vars := a.2 })

/-- What a client does. -/
inductive MOp (R : Type)
  | make (name : String)
  | track (e : Nat) (v : Var R) (spare : List (Var R))
  /-- `NewContinuousVariable` or `NewBinaryVariable` in environment `e`. -/
  | new (binary : Bool) (e : Nat) (spare : List (Var R))
  /-- The client keeps what `AllTrackedVariables` returns. -/
  | list (e : Nat)
  /-- The client copies a slice into a new array. -/
  | copy (i : Nat) (spare : List (Var R))
  /-- `s[k] = v` for a slice the client holds. -/
  | write (i k : Nat) (v : Var R)
  /-- The client keeps `append(s, v)`. -/
  | append (i : Nat) (v : Var R) (spare : List (Var R))
  /-- The struct of an environment is copied (`MakeBasicEnvironment` returns structs, not pointers). -/
  | dup (e : Nat)

/-- Memory, environments, and the slices the client holds. -/
structure MState (R : Type) where
  mem : VMem R
  envs : List BEnv
  held : List Sl

variable [GoNum R]

/-- One call. -/
def MState.step (s : MState R) : MOp R → MState R
  | .make name =>
    let r := makeBasicEnvironment s.mem name
    ⟨r.1, s.envs ++ [r.2], s.held⟩
  | .track e v spare =>
    match s.envs[e]? with
    | none => s
    | some b =>
      let r := b.track s.mem v spare
      ⟨r.2.1, s.envs.set e r.2.2, s.held⟩
  | .new binary e spare =>
    match s.envs[e]? with
    | none => s
    | some b =>
      let r := b.track s.mem (newVarValue binary b.allTracked.len e) spare
      ⟨r.2.1, s.envs.set e r.2.2, s.held⟩
  | .list e =>
    match s.envs[e]? with
    | none => s
    | some b => ⟨s.mem, s.envs, s.held ++ [b.allTracked]⟩
  | .copy i spare =>
    match s.held[i]? with
    | none => s
    | some t => ⟨s.mem ++ [t.read s.mem ++ spare], s.envs,
        s.held ++ [⟨s.mem.length, 0, t.len, t.len + spare.length⟩]⟩
  | .write i k v =>
    match s.held[i]? with
    | none => s
    | some t =>
      if k < t.len then ⟨s.mem.modify t.arr (fun l => writeAt l (t.off + k) [v]), s.envs, s.held⟩ else s
  | .append i v spare =>
    match s.held[i]? with
    | none => s
    | some t =>
      let r := append1 s.mem t v spare
      ⟨r.1, s.envs, s.held ++ [r.2]⟩
  | .dup e =>
    match s.envs[e]? with
    | none => s
    | some b => ⟨s.mem, s.envs ++ [b], s.held⟩

/-- A program, from the start: only `DefaultEnvironment` (`symbolic/basic_environment.go:45`). -/
def MState.init : MState R :=
  let r := makeBasicEnvironment ([] : VMem R) "DefaultEnvironment"
  ⟨r.1, [r.2], []⟩

def MState.run (s : MState R) (ops : List (MOp R)) : MState R := ops.foldl MState.step s

/-- What a client sees of an environment: its name and its variables. -/
def MState.seen (s : MState R) : List (String × List (Var R)) :=
  s.envs.map fun b => (b.getName, b.allTracked.read s.mem)

end Verif
