import Verif.Model.HeapArith

/-!
# Model of vector and matrix arithmetic with shared exponent slices

As `Model/HeapArith`, for vectors and matrices: which exponent slices of the operands the entries of a
result share.  Tests and sizes depend on values only and are taken from the functions of `Model/Array` on
the values read; entries are moved and combined in memory.  Inside a call, slices of entries and of rows
are values: no call of this file writes to a slice of an operand.  Between calls a `PolynomialVector` is the
address of its backing array, because `DerivativeWrt` writes there (`Model/HeapAll`).
-/

namespace Verif

open GoNum

variable {R : Type}

/-- A vector in memory. -/
inductive AVec (R : Type)
  | k (l : List R)
  | v (l : List (Var R))
  | m (l : List (HMono R))
  | p (l : List (HPoly R))
  deriving DecidableEq

/-- A matrix in memory. -/
inductive AMat (R : Type)
  | k (rows : List (List R))
  | v (rows : List (List (Var R)))
  | m (rows : List (List (HMono R)))
  | p (rows : List (List (HPoly R)))
  deriving DecidableEq

/-- An expression in memory. -/
inductive AExpr (R : Type)
  | s (e : HScalar R)
  | v (a : AVec R)
  | m (a : AMat R)
  deriving DecidableEq

def AVec.load (h : ExpHeap) : AVec R → Vec R
  | .k l => .k l
  | .v l => .v l
  | .m l => .m (l.map (HMono.load h))
  | .p l => .p (l.map (HPoly.load h))

def AMat.load (h : ExpHeap) : AMat R → Mat R
  | .k rows => .k rows
  | .v rows => .v rows
  | .m rows => .m (rows.map (·.map (HMono.load h)))
  | .p rows => .p (rows.map (·.map (HPoly.load h)))

/-- What an expression stands for at the moment. -/
def AExpr.load (h : ExpHeap) : AExpr R → Expr R
  | .s e => .s (e.load h)
  | .v a => .v (a.load h)
  | .m a => .m (a.load h)

/-- `ToScalarExpressions` (see `Vec.entries`): the entries with their slices. -/
def AVec.entries : AVec R → List (HScalar R)
  | .k l => l.map .k
  | .v l => l.map .var
  | .m l => l.map .mono
  | .p l => l.map .poly

/-- The entries of a matrix. -/
def AMat.entries : AMat R → List (List (HScalar R))
  | .k rows => rows.map (·.map .k)
  | .v rows => rows.map (·.map .var)
  | .m rows => rows.map (·.map .mono)
  | .p rows => rows.map (·.map .poly)

def HScalar.isK : HScalar R → Bool | .k _ => true | _ => false
def HScalar.isVar : HScalar R → Bool | .var _ => true | _ => false
def HScalar.isPoly : HScalar R → Bool | .poly _ => true | _ => false

/-- A test or a number that depends on the values only. -/
def vVal {α : Type} (a : AVec R) (f : Vec R → Go α) : PM (Heap R) α := PM.read (fun h => f (a.load h.exps))
def mVal {α : Type} (a : AMat R) (f : Mat R → Go α) : PM (Heap R) α := PM.read (fun h => f (a.load h.exps))
def eVal {α : Type} (e : AExpr R) (f : Expr R → Go α) : PM (Heap R) α := PM.read (fun h => f (e.load h.exps))

/-- A computation without memory. -/
def pGo {α : Type} (x : Go α) : PM (Heap R) α := PM.read (fun _ => x)

section
variable [GoNum R]

/-! ## At -/

/-- `AtVec` (see `Vec.atVec`): the entry itself, with its slices. -/
def aAtVec (a : AVec R) (i : Int) : PM (Heap R) (HScalar R) := do
  let _ ← vVal a (fun x => x.atVec i)
  pGo (goGet a.entries i)

/-- `At` of a vector (see `Vec.at`). -/
def aVecAt (a : AVec R) (i j : Int) : PM (Heap R) (HScalar R) := do
  let _ ← vVal a (fun x => x.at i j)
  pGo (goGet a.entries i)

/-- `At` of a matrix (see `Mat.at`). -/
def aMatAt (a : AMat R) (i j : Int) : PM (Heap R) (HScalar R) := do
  let _ ← mVal a (fun x => x.at i j)
  pGo (goGet2 a.entries i j)

/-- `At` on the interface (see `Expr.at`). -/
def aAt (e : AExpr R) (i j : Int) : PM (Heap R) (HScalar R) :=
  match e with
  | .s a => do
    hCheck a
    pGo (checkIndexMat i j (1, 1))
    pure a
  | .v a => aVecAt a i j
  | .m a => aMatAt a i j

/-! ## Concretize -/

/-- Conversion of an entry to `Polynomial` (`vector_expression.go:202-210`): a polynomial keeps its slices,
a monomial is copied (`monomial.go:549-557`). -/
def aToPoly (e : HScalar R) : PM (Heap R) (HPoly R) :=
  match e with
  | .k c => do
    let x ← hNew (kToMono c)
    pure ⟨[x]⟩
  | .var v => do
    let x ← hNew v.toMono
    pure ⟨[x]⟩
  | .mono m => do
    let x ← hCopy m
    pure ⟨[x]⟩
  | .poly p => pure p

/-- Conversion of an entry to `Monomial` (`vector_expression.go:227-240`): a monomial keeps its slices. -/
def aToMono (e : HScalar R) : PM (Heap R) (HMono R) :=
  match e with
  | .k c => hNew (kToMono c)
  | .var v => hNew v.toMono
  | .mono m => pure m
  | .poly _ => PM.panic .unsupported

def aToVar (e : HScalar R) : PM (Heap R) (Var R) :=
  match e with
  | .var v => pure v
  | _ => PM.panic .unsupported

def aToK (e : HScalar R) : PM (Heap R) R :=
  match e with
  | .k c => pure c
  | _ => PM.panic .other

/-- `ConcretizeVectorExpression` (`symbolic/vector_expression.go:156-299`). -/
def aConcretizeVec (l : List (HScalar R)) : PM (Heap R) (AVec R) :=
  if l.isEmpty then PM.panic .empty
  else if l.any HScalar.isPoly then do
    let ps ← PM.traverse aToPoly l
    pure (.p ps)
  else if l.any HScalar.isMono || (l.any HScalar.isK && l.any HScalar.isVar) then do
    let ms ← PM.traverse aToMono l
    pure (.m ms)
  else if l.all HScalar.isVar then do
    let vs ← PM.traverse aToVar l
    pure (.v vs)
  else if l.any HScalar.isK then do
    let ks ← PM.traverse aToK l
    pure (.k ks)
  else PM.panic .other

/-- `ConcretizeMatrixExpression` (`symbolic/matrix_expression.go:304-488`). -/
def aConcretizeMat (rows : List (List (HScalar R))) : PM (Heap R) (AMat R) := do
  pGo (rowsCheck rows)
  if rows.flatten.any HScalar.isPoly then do
    let ps ← PM.traverse (PM.traverse aToPoly) rows
    pure (.p ps)
  else if rows.flatten.any HScalar.isMono || (rows.flatten.any HScalar.isVar && rows.flatten.any HScalar.isK) then do
    let ms ← PM.traverse (PM.traverse aToMono) rows
    pure (.m ms)
  else if rows.flatten.all HScalar.isVar then do
    let vs ← PM.traverse (PM.traverse aToVar) rows
    pure (.v vs)
  else if rows.flatten.any HScalar.isK then do
    let ks ← PM.traverse (PM.traverse aToK) rows
    pure (.k ks)
  else PM.panic .other

/-- `ConcretizeExpression([]ScalarExpression)` (`symbolic/expression.go:256-263`). -/
def aConcretizeV (l : List (HScalar R)) : PM (Heap R) (AExpr R) := do
  let v ← aConcretizeVec l
  let d ← vVal v Vec.dims
  if d.1 = 1 then do
    let x ← aVecAt v 0 0
    pure (.s x)
  else pure (.v v)

/-- `ConcretizeExpression([][]ScalarExpression)` (`symbolic/expression.go:265-279`). -/
def aConcretizeM (rows : List (List (HScalar R))) : PM (Heap R) (AExpr R) := do
  let m ← aConcretizeMat rows
  let d ← mVal m Mat.dims
  if d.1 = 1 ∧ d.2 = 1 then do
    let x ← aMatAt m 0 0
    pure (.s x)
  else if d.2 = 1 then do
    let col ← PM.traverse (fun (i : Nat) => aMatAt m i 0) (List.range d.1)
    let v ← aConcretizeVec col
    pure (.v v)
  else pure (.m m)

/-! ## AsSimplifiedExpression -/

/-- See `Vec.asSimplified`. -/
def aVecSimplified (a : AVec R) : PM (Heap R) (AVec R) :=
  match a with
  | .k l => pure (.k l)
  | .v l => pure (.v l)
  | .m l => do
    vVal (.m l) Vec.check
    let es ← PM.traverse hMonoSimplified l
    aConcretizeVec es
  | .p l => do
    vVal (.p l) Vec.check
    let es ← PM.traverse hPolySimplified l
    aConcretizeVec es

/-- See `Mat.asSimplified`. -/
def aMatSimplified (a : AMat R) : PM (Heap R) (AMat R) :=
  match a with
  | .k rows => pure (.k rows)
  | .v rows => pure (.v rows)
  | .m rows => do
    mVal (.m rows) Mat.check
    let es ← PM.traverse (PM.traverse hMonoSimplified) rows
    aConcretizeMat es
  | .p rows => do
    mVal (.p rows) Mat.check
    let es ← PM.traverse (PM.traverse hPolySimplified) rows
    aConcretizeMat es

/-- `AsSimplifiedExpression` on the interface. -/
def aSimplified (e : AExpr R) : PM (Heap R) (AExpr R) :=
  match e with
  | .s a => do
    let x ← hSimplified a
    pure (.s x)
  | .v a => do
    let x ← aVecSimplified a
    pure (.v x)
  | .m a => do
    let x ← aMatSimplified a
    pure (.m x)

/-! ## Vector Plus and Multiply -/

/-- `VectorPlusTemplate` (`symbolic/vector_expression.go:390-416`). -/
def aVecPlusTemplate (a : AVec R) (right : AExpr R) : PM (Heap R) (AExpr R) :=
  match right with
  | .s b => do
    let es ← PM.traverse (fun x => hPlus x b) a.entries
    aConcretizeV es
  | .v b => do
    let es ← PM.traverse (fun (xi : HScalar R × Nat) => do
      let y ← aAtVec b xi.2
      hPlus xi.1 y) a.entries.zipIdx
    aConcretizeV es
  | .m _ => PM.panic .unsupported

/-- `VectorMultiplyTemplate` with a scalar (`symbolic/vector_expression.go:365-386`). -/
def aVecMulTemplate (a : AVec R) (b : HScalar R) : PM (Heap R) (AExpr R) := do
  let es ← PM.traverse (fun x => hMul x b) a.entries
  aConcretizeV es

/-- `Plus` of a vector (see `Vec.plus`). -/
def aVecPlus (a : AVec R) (e : AExpr R) : PM (Heap R) (AExpr R) := do
  vVal a Vec.check
  eVal e Expr.check
  let d ← vVal a Vec.dims
  let d' ← eVal e Expr.dims
  pGo (checkDimAdd d d')
  let out ← aVecPlusTemplate a e
  aSimplified out

/-- The kinds of scalars a vector can be multiplied by (see `Vec.mulScalar`). -/
def AVec.rejects : AVec R → HScalar R → Bool
  | .p _, .var _ => true
  | .p _, .mono _ => true
  | _, _ => false

/-- `Multiply` of a vector by a scalar (see `Vec.mulScalar`). -/
def aVecMulScalar (a : AVec R) (b : HScalar R) : PM (Heap R) (AExpr R) := do
  vVal a Vec.check
  hCheck b
  let d ← vVal a Vec.dims
  pGo (checkDimMul d (1, 1))
  if a.rejects b then PM.panic .unsupported
  else do
    let out ← aVecMulTemplate a b
    aSimplified out

/-- The entry of a vector argument that is used (see `Vec.mul`). -/
def aVecMulArg (a b : AVec R) : PM (Heap R) (HScalar R) :=
  match a, b with
  | .k _, .k l => pGo (goGet (l.map HScalar.k) 0)
  | .k _, .v l => pGo (goGet (l.map HScalar.var) 0)
  | .v _, b => aAtVec b 0
  | .p _, .p l => pGo (goGet (l.map HScalar.poly) 0)
  | _, _ => PM.panic .unsupported

/-- `Multiply` of a vector (see `Vec.mul`). -/
def aVecMul (a : AVec R) (e : AExpr R) : PM (Heap R) (AExpr R) :=
  match e with
  | .s b => aVecMulScalar a b
  | .v b => do
    vVal a Vec.check
    vVal b Vec.check
    let d ← vVal a Vec.dims
    let d' ← vVal b Vec.dims
    pGo (checkDimMul d d')
    let x ← aVecMulArg a b
    let out ← aVecMulScalar a x
    aSimplified out
  | .m b => do
    vVal a Vec.check
    mVal b Mat.check
    let d ← vVal a Vec.dims
    let d' ← mVal b Mat.dims
    pGo (checkDimMul d d')
    PM.panic .unsupported

/-! ## Matrix Plus -/

/-- `MatrixPlusTemplate` (`symbolic/matrix_expression.go:232-269`). -/
def aMatPlusTemplate (a b : AMat R) : PM (Heap R) (AMat R) := do
  mVal a Mat.check
  mVal b Mat.check
  let da ← mVal a Mat.dims
  let db ← mVal b Mat.dims
  if da ≠ db then PM.panic .dimension
  else do
    let rows ← PM.traverse (fun (i : Nat) => PM.traverse (fun (j : Nat) => do
      let x ← aMatAt a i j
      let y ← aMatAt b i j
      hPlus x y) (List.range da.2)) (List.range da.1)
    aConcretizeMat rows

/-- `KMatrix.Plus` (`symbolic/constant_matrix.go:59-137`). -/
def aKmPlus (rows : List (List R)) (e : AExpr R) : PM (Heap R) (AExpr R) := do
  eVal e Expr.check
  let d ← pGo (rowDims rows)
  let d' ← eVal e Expr.dims
  pGo (checkDimAdd d d')
  match e with
  | .s (.k c) => do
    let cs ← pGo (constRows d c)
    let ks ← pGo (kToDense rows)
    pure (.m (.k (List.zipWith (List.zipWith add) cs ks)))
  | .s (.var v) => do
    let out ← aMatPlusTemplate (.k rows) (.v (List.replicate d.1 (List.replicate d.2 v)))
    let out ← aMatSimplified out
    let out ← aMatSimplified out
    pure (.m out)
  | .m b => do
    let out ← aMatPlusTemplate (.k rows) b
    let out ← aMatSimplified out
    pure (.m out)
  | _ => PM.panic .unsupported

/-- `.(Polynomial)`. -/
def aAsPoly (e : HScalar R) : PM (Heap R) (HPoly R) :=
  match e with
  | .poly p => pure p
  | _ => PM.panic .typeAssert

/-- `VariableMatrix.Plus(KMatrix)` (`symbolic/variable_matrix.go:140-150`). -/
def aVmPlusK (rows : List (List (Var R))) (ks : List (List R)) : PM (Heap R) (AExpr R) := do
  let out ← PM.traverse (fun (ri : List (Var R) × Nat) => PM.traverse (fun (xj : Var R × Nat) => do
    let c ← pGo (goGet2 ks ri.2 xj.2)
    let s ← hVarPlus xj.1 (.k c)
    aAsPoly s) ri.1.zipIdx) rows.zipIdx
  pure (.m (.p out))

/-- `VariableMatrix.Plus` (`symbolic/variable_matrix.go:104-160`). -/
def aVmPlus (rows : List (List (Var R))) (e : AExpr R) : PM (Heap R) (AExpr R) := do
  mVal (.v rows) Mat.check
  eVal e Expr.check
  let d ← pGo (rowDims rows)
  let d' ← eVal e Expr.dims
  pGo (checkDimAdd d d')
  match e with
  | .s (.k c) => do
    let cs ← pGo (constRows d c)
    aVmPlusK rows cs
  | .m (.k ks) => aVmPlusK rows ks
  | _ => PM.panic .unsupported

/-- The monomials appended by `MonomialMatrix.Plus` (`symbolic/monomial_matrix.go:128`, `142`, `157`,
`172-173`): constants and variables are converted once per entry, the slices of a monomial or a polynomial
are used in every entry. -/
def aTerms (e : HScalar R) : PM (Heap R) (List (HMono R)) :=
  match e with
  | .k c => do
    let x ← hNew (kToMono c)
    pure [x]
  | .var v => do
    let x ← hNew v.toMono
    pure [x]
  | .mono m => pure [m]
  | .poly p => pure p.monos

/-- One entry of `MonomialMatrix.Plus` (`symbolic/monomial_matrix.go:126-131`): the result of `Simplify` is
thrown away. -/
def aMmPlusEntry (m : HMono R) (ms : List (HMono R)) : PM (Heap R) (HPoly R) := do
  let _ ← hPolySimplify ⟨m :: ms⟩
  pure ⟨m :: ms⟩

/-- `MonomialMatrix.Plus` (`symbolic/monomial_matrix.go:97-206`). -/
def aMmPlus (rows : List (List (HMono R))) (e : AExpr R) : PM (Heap R) (AExpr R) := do
  mVal (.m rows) Mat.check
  eVal e Expr.check
  let d ← pGo (rowDims rows)
  let d' ← eVal e Expr.dims
  pGo (checkDimAdd d d')
  match e with
  | .s b => do
    let out ← PM.traverse (PM.traverse (fun m => do
      let ms ← aTerms b
      aMmPlusEntry m ms)) rows
    pure (.m (.p out))
  | .m (.p ps) => do
    let out ← PM.traverse (fun (ri : List (HMono R) × Nat) => PM.traverse (fun (mj : HMono R × Nat) => do
      let p ← pGo (goGet2 ps ri.2 mj.2)
      aMmPlusEntry mj.1 p.monos) ri.1.zipIdx) rows.zipIdx
    pure (.m (.p out))
  | _ => PM.panic .unsupported

/-- Every entry plus the same scalar. -/
def aPmPlusScalar (rows : List (List (HPoly R))) (b : HScalar R) : PM (Heap R) (AExpr R) := do
  let es ← PM.traverse (PM.traverse (fun p => hPolyPlus p b)) rows
  let out ← aConcretizeM es
  aSimplified out

/-- `PolynomialMatrix.Plus` (`symbolic/polynomial_matrix.go:93-187`). -/
def aPmPlus (rows : List (List (HPoly R))) (e : AExpr R) : PM (Heap R) (AExpr R) := do
  mVal (.p rows) Mat.check
  eVal e Expr.check
  let d ← pGo (rowDims rows)
  let d' ← eVal e Expr.dims
  pGo (checkDimAdd d d')
  match e with
  | .s (.k c) => aPmPlusScalar rows (.k c)
  | .s (.mono m) => do
    let x ← hCopy m
    let out ← aPmPlusScalar rows (.poly ⟨[x]⟩)
    aSimplified out
  | .s (.poly q) => aPmPlusScalar rows (.poly q)
  | .m (.k ks) => do
    let es ← PM.traverse (fun (ri : List (HPoly R) × Nat) => PM.traverse (fun (pj : HPoly R × Nat) => do
      let c ← aMatAt (.k ks) ri.2 pj.2
      hPolyPlus pj.1 c) ri.1.zipIdx) rows.zipIdx
    let out ← aConcretizeM es
    aSimplified out
  | .m (.p ps) => do
    let es ← PM.traverse (fun (ri : List (HPoly R) × Nat) => PM.traverse (fun (pj : HPoly R × Nat) => do
      let q ← pGo (goGet2 ps ri.2 pj.2)
      hPolyPlus pj.1 (.poly q)) ri.1.zipIdx) rows.zipIdx
    let out ← aConcretizeM es
    aSimplified out
  | _ => PM.panic .unsupported

/-- `Plus` of a matrix on the interface. -/
def aMatPlus (a : AMat R) (e : AExpr R) : PM (Heap R) (AExpr R) :=
  match a with
  | .k rows => aKmPlus rows e
  | .v rows => aVmPlus rows e
  | .m rows => aMmPlus rows e
  | .p rows => aPmPlus rows e

/-! ## Plus on the interface -/

/-- `Polynomial.Plus` on vectors and matrices (see `Poly.plusExpr`). -/
def aPolyPlusExpr (p : HPoly R) (e : AExpr R) : PM (Heap R) (AExpr R) :=
  match e with
  | .s b => do
    let x ← hPolyPlus p b
    pure (.s x)
  | .v b => do
    hCheck (.poly p)
    vVal b Vec.check
    let n ← vVal b Vec.len
    if n = 1 then do
      let y ← aAtVec b 0
      let x ← hPolyPlus p y
      aSimplified (.s x)
    else do
      let es ← PM.traverse (fun (i : Nat) => do
        let y ← aAtVec b i
        hPolyPlus p y) (List.range n)
      let out ← aConcretizeV es
      aSimplified out
  | .m b => do
    hCheck (.poly p)
    mVal b Mat.check
    let d ← mVal b Mat.dims
    if d.1 = 1 ∧ d.2 = 1 then do
      let y ← aMatAt b 0 0
      let x ← hPolyPlus p y
      aSimplified (.s x)
    else do
      let es ← PM.traverse (fun (i : Nat) => PM.traverse (fun (j : Nat) => do
        let y ← aMatAt b i j
        hPolyPlus p y) (List.range d.2)) (List.range d.1)
      let out ← aConcretizeM es
      aSimplified out

/-- `Plus` on the interface (see `Expr.plus`). -/
def aPlus (a e : AExpr R) : PM (Heap R) (AExpr R) :=
  match a, e with
  | .s a, .s b => do
    let x ← hPlus a b
    pure (.s x)
  | .s (.k c), .v b => do
    vVal b Vec.check
    aVecPlus b (.s (.k c))
  | .s (.k c), .m b => do
    mVal b Mat.check
    aMatPlus b (.s (.k c))
  | .s (.var x), .v b => do
    hCheck (.var x)
    let out ← aVecPlus b (.s (.var x))
    aSimplified out
  | .s (.var x), .m _ => do
    hCheck (.var x)
    PM.panic .unsupported
  | .s (.mono x), e => do
    hCheck (.mono x)
    eVal e Expr.check
    let d ← eVal e Expr.dims
    pGo (checkDimAdd (1, 1) d)
    PM.panic .unsupported
  | .s (.poly p), e => aPolyPlusExpr p e
  | .v a, e => aVecPlus a e
  | .m a, e => aMatPlus a e

/-! ## Matrix Multiply -/

/-- The inner sum of `MatrixMultiplyTemplate` (`symbolic/matrix_expression.go:206-210`). -/
def aMulEntry (a b : AMat R) (n : Nat) (i j : Nat) : PM (Heap R) (HScalar R) := do
  let sum ← PM.foldl (fun acc (k : Nat) => do
    let x ← aMatAt a i k
    let y ← aMatAt b k j
    let z ← hMul x y
    hPlus acc z) (List.range n) (HScalar.k zero)
  hSimplified sum

/-- `MatrixMultiplyTemplate` (`symbolic/matrix_expression.go:174-228`). -/
def aMatMulTemplate (a b : AMat R) : PM (Heap R) (AExpr R) := do
  mVal a Mat.check
  mVal b Mat.check
  let da ← mVal a Mat.dims
  let db ← mVal b Mat.dims
  if da.2 ≠ db.1 then PM.panic .dimension
  else do
    let rows ← PM.traverse (fun (i : Nat) => PM.traverse (fun (j : Nat) =>
      aMulEntry a b da.2 i j) (List.range db.2)) (List.range da.1)
    aConcretizeM rows

/-- `Variable.Multiply` on a vector (see `Var.mulVec`). -/
def aVarMulVec (v : Var R) (b : AVec R) : PM (Heap R) (AExpr R) := do
  hCheck (.var v)
  vVal b Vec.check
  let d ← vVal b Vec.dims
  pGo (checkDimMul (1, 1) d)
  let out ← aVecMulTemplate b (.var v)
  aSimplified out

/-- `Variable.Multiply` on a `*mat.VecDense` (see `Var.mulVecDense`). -/
def aVarMulVecDense (v : Var R) (l : List R) : PM (Heap R) (AExpr R) := do
  let out ← aVarMulVec v (.k l)
  let out ← aSimplified out
  aSimplified out

/-- `KMatrix.Multiply` (`symbolic/constant_matrix.go:188-314`). -/
def aKmMul (rows : List (List R)) (e : AExpr R) : PM (Heap R) (AExpr R) := do
  eVal e Expr.check
  let d ← pGo (rowDims rows)
  let d' ← eVal e Expr.dims
  pGo (checkDimMul d d')
  match e with
  | .s (.k c) => do
    let ks ← pGo (kToDense rows)
    pure (.m (.k (ks.map (·.map (fun x => mul c x)))))
  | .s (.poly q) => do
    let es ← PM.traverse (fun (i : Nat) => PM.traverse (fun (j : Nat) => do
      let x ← pGo (goGet2 rows i j)
      let p ← aToPoly (.k x)
      hPolyMul p (.poly q)) (List.range d.2)) (List.range d.1)
    let out ← aConcretizeM es
    aSimplified out
  | .v (.v l) =>
    if d.1 = 1 then do
      let out ← PM.foldl (fun acc (vi : Var R × Nat) => do
        let x ← pGo (goGet2 rows 0 vi.2)
        let t ← hVarMul vi.1 (.k x)
        hPlus acc t) l.zipIdx (HScalar.k zero)
      let out ← hSimplified out
      pure (.s out)
    else do
      let out ← PM.foldl (fun acc (j : Nat) => do
        let ks ← pGo (kToDense rows)
        let col ← pGo (ks.mapM (fun row => goGet row j))
        let v ← pGo (goGet l j)
        let t ← aVarMulVecDense v col
        aPlus acc t) (List.range d.2) (AExpr.v (.k (List.replicate d.1 zero)))
      aSimplified out
  | .m b => do
    let out ← aMatMulTemplate (.k rows) b
    aSimplified out
  | _ => PM.panic .unsupported

/-- `VariableMatrix.Multiply` (`symbolic/variable_matrix.go:215-311`). -/
def aVmMul (rows : List (List (Var R))) (e : AExpr R) : PM (Heap R) (AExpr R) := do
  mVal (.v rows) Mat.check
  eVal e Expr.check
  let d ← pGo (rowDims rows)
  let d' ← eVal e Expr.dims
  pGo (checkDimMul d d')
  match e with
  | .s (.k c) => do
    let ms ← PM.traverse (PM.traverse (fun v => do
      let t ← hVarMul v (.k c)
      hAsMono t)) rows
    aSimplified (.m (.m ms))
  | .v (.k l) => do
    let prods ← PM.traverse (fun (row : List (Var R)) => PM.foldl (fun acc (xk : Var R × Nat) => do
      let c ← pGo (goGet l xk.2)
      let t ← hVarMul xk.1 (.k c)
      hPlus acc t) row.zipIdx (HScalar.k zero)) rows
    let out ← aConcretizeV prods
    aSimplified out
  | .v (.v l) => do
    let out ← PM.foldl (fun acc (j : Nat) => do
      let col ← pGo (rows.mapM (fun row => goGet row j))
      let v ← pGo (goGet l j)
      let t ← aVecMul (.v col) (.s (.var v))
      aPlus acc t) (List.range d.2) (AExpr.s (.k zero))
    aSimplified out
  | .m b => do
    let out ← aMatMulTemplate (.v rows) b
    aSimplified out
  | _ => PM.panic .unsupported

/-- `row[jj].ToPolynomial().Multiply(right[jj])` (`symbolic/monomial_matrix.go:297`, `300`). -/
def aMonoMulVar (m : HMono R) (v : Var R) : PM (Heap R) (HScalar R) := do
  let p ← aToPoly (.mono m)
  hPolyMul p (.var v)

/-- One row of `MonomialMatrix.Multiply(VariableVector)` with several rows
(`symbolic/monomial_matrix.go:297-302`). -/
def aMmRowMul (row : List (HMono R)) (l : List (Var R)) : PM (Heap R) (HScalar R) := do
  let m0 ← pGo (goGet row 0)
  let v0 ← pGo (goGet l 0)
  let init ← aMonoMulVar m0 v0
  PM.foldl (fun acc (mj : HMono R × Nat) => do
    let v ← pGo (goGet l mj.2)
    let t ← aMonoMulVar mj.1 v
    let s ← hPlus acc t
    let p ← aAsPoly s
    pure (HScalar.poly p)) (row.zipIdx.drop 1) init

/-- `MonomialMatrix.Multiply` (`symbolic/monomial_matrix.go:242-330`). -/
def aMmMul (rows : List (List (HMono R))) (e : AExpr R) : PM (Heap R) (AExpr R) := do
  mVal (.m rows) Mat.check
  eVal e Expr.check
  let d ← pGo (rowDims rows)
  let d' ← eVal e Expr.dims
  pGo (checkDimMul d d')
  match e with
  | .s (.k c) => do
    let ms ← PM.traverse (PM.traverse (fun m => hMonoMulK m c)) rows
    pure (.m (.m ms))
  | .v (.v l) =>
    if d.1 = 1 then do
      let row ← pGo (goGet rows 0)
      let out ← PM.foldl (fun acc (mi : HMono R × Nat) => do
        let v ← pGo (goGet l mi.2)
        let t ← hMonoMul mi.1 (.var v)
        hPlus acc t) row.zipIdx (HScalar.k zero)
      let out ← hSimplified out
      pure (.s out)
    else do
      let es ← PM.traverse (fun row => aMmRowMul row l) rows
      let v ← aConcretizeVec es
      pure (.v v)
  | .m b => aMatMulTemplate (.m rows) b
  | _ => PM.panic .unsupported

/-- `PolynomialMatrix.Multiply` (`symbolic/polynomial_matrix.go:229-313`). -/
def aPmMul (rows : List (List (HPoly R))) (e : AExpr R) : PM (Heap R) (AExpr R) := do
  mVal (.p rows) Mat.check
  eVal e Expr.check
  let d ← pGo (rowDims rows)
  let d' ← eVal e Expr.dims
  pGo (checkDimMul d d')
  match e with
  | .s (.k c) => do
    let es ← PM.traverse (PM.traverse (fun p => hPolyMul p (.k c))) rows
    let out ← aConcretizeM es
    aSimplified out
  | .v (.v l) => do
    let sums ← PM.traverse (fun (row : List (HPoly R)) => PM.foldl (fun acc (pj : HPoly R × Nat) => do
      let v ← pGo (goGet l pj.2)
      let t ← hPolyMul pj.1 (.var v)
      hPlus acc t) row.zipIdx (HScalar.k zero)) rows
    if d.1 = 1 then do
      let out ← pGo (goGet sums 0)
      let out ← hSimplified out
      pure (.s out)
    else aConcretizeV sums
  | .m b => aMatMulTemplate (.p rows) b
  | _ => PM.panic .unsupported

/-- `Multiply` of a matrix on the interface. -/
def aMatMul (a : AMat R) (e : AExpr R) : PM (Heap R) (AExpr R) :=
  match a with
  | .k rows => aKmMul rows e
  | .v rows => aVmMul rows e
  | .m rows => aMmMul rows e
  | .p rows => aPmMul rows e

/-- `Multiply` on the interface (see `Expr.mul`). -/
def aMul (a e : AExpr R) : PM (Heap R) (AExpr R) :=
  match a, e with
  | .s a, .s b => do
    let x ← hMul a b
    pure (.s x)
  | .s (.k _), e => do
    eVal e Expr.check
    PM.panic .unsupported
  | .s (.var x), .v b => aVarMulVec x b
  | .s (.var x), .m b => do
    hCheck (.var x)
    mVal b Mat.check
    let d ← mVal b Mat.dims
    pGo (checkDimMul (1, 1) d)
    PM.panic .unsupported
  | .s (.mono x), e => do
    hCheck (.mono x)
    eVal e Expr.check
    let d ← eVal e Expr.dims
    pGo (checkDimMul (1, 1) d)
    PM.panic .unsupported
  | .s (.poly p), .v b => do
    hCheck (.poly p)
    vVal b Vec.check
    let out ← aVecMul b (.s (.poly p))
    aSimplified out
  | .s (.poly p), .m b => do
    hCheck (.poly p)
    mVal b Mat.check
    let out ← aMatMul b (.s (.poly p))
    aSimplified out
  | .v a, e => aVecMul a e
  | .m a, e => aMatMul a e

/-! ## Minus, Power -/

/-- `e.Multiply(c)` with a `float64` argument (see `Expr.mulF64`). -/
def aMulF64 (e : AExpr R) (c : R) : PM (Heap R) (AExpr R) :=
  match e with
  | .s (.k d) => pure (.s (.k (GoNum.mul d c)))
  | .s (.mono x) => do
    let r ← hMonoMul x (.k c)
    pure (.s r)
  | .v (.v l) => aVecMul (.v l) (.s (.k c))
  | .m (.k rows) => aKmMul rows (.s (.k c))
  | .m (.m rows) => aMmMul rows (.s (.k c))
  | e => do
    let out ← aMul e (.s (.k c))
    aSimplified out

/-- `Minus(left, right)` (`symbolic/expression.go:119-123`). -/
def aMinusGen (a b : AExpr R) : PM (Heap R) (AExpr R) := do
  let nb ← aMulF64 b negOne
  aPlus a nb

/-- `Minus` on the interface (see `Expr.minus`). -/
def aMinus (a b : AExpr R) : PM (Heap R) (AExpr R) :=
  match a with
  | .s (.k _) => do
    eVal b Expr.check
    aMinusGen a b
  | .s (.poly p) => do
    hCheck (.poly p)
    eVal b Expr.check
    aMinusGen a b
  | .v (.k l) => do
    eVal b Expr.check
    let d ← eVal b Expr.dims
    pGo (checkDimAdd (l.length, 1) d)
    match b with
    | .m _ => PM.panic .unsupported
    | b => aMinusGen a b
  | _ => do
    eVal a Expr.check
    eVal b Expr.check
    let d ← eVal a Expr.dims
    let d' ← eVal b Expr.dims
    pGo (checkDimAdd d d')
    aMinusGen a b

/-- `VectorPowerTemplate` (see `Vec.power`). -/
def aVecPower (a : AVec R) (n : Int) : PM (Heap R) (HScalar R) := do
  vVal a Vec.check
  if n < 0 then PM.panic .negExponent
  else do
    let len ← vVal a Vec.len
    if len ≠ 1 then PM.panic .other
    else PM.foldl (fun acc (_ : Nat) => do
      let x ← aAtVec a 0
      hMul acc x) (List.range n.toNat) (HScalar.k one)

/-- `.(MatrixExpression)`. -/
def aAsMat (e : AExpr R) : PM (Heap R) (AMat R) :=
  match e with
  | .m b => pure b
  | _ => PM.panic .typeAssert

/-- `MatrixPowerTemplate` (see `Mat.power`). -/
def aMatPower (a : AMat R) (n : Int) : PM (Heap R) (AMat R) := do
  mVal a Mat.check
  let d ← mVal a Mat.dims
  if d.1 ≠ d.2 then PM.panic .other
  else if n < 0 then PM.panic .negExponent
  else if d.1 = 0 then PM.panic .empty
  else do
    let one ← aKmPlus (identityRows d.1) (.s (.k zero))
    let start ← aAsMat one
    PM.foldl (fun acc (_ : Nat) => do
      let x ← aMatMul acc (.m a)
      aAsMat x) (List.range n.toNat) start

/-- `Power` on the interface, on values. -/
def Expr.power (a : Expr R) (n : Int) : Go (Expr R) :=
  match a with
  | .s e => do
    let x ← e.power n
    pure (.s x)
  | .v a => do
    let x ← a.power n
    pure (.s x)
  | .m a => do
    let x ← a.power n
    pure (.m x)

/-- `Power` on the interface. -/
def aPower (a : AExpr R) (n : Int) : PM (Heap R) (AExpr R) :=
  match a with
  | .s e => do
    let x ← hPower e n
    pure (.s x)
  | .v a => do
    let x ← aVecPower a n
    pure (.s x)
  | .m a => do
    let x ← aMatPower a n
    pure (.m x)

/-! ## Transpose, HStack, VStack -/

/-- `Transpose` of a vector (see `Vec.transpose`): the entries keep their slices. -/
def aVecTranspose (a : AVec R) : PM (Heap R) (AMat R) :=
  match a with
  | .k l => if l.isEmpty then PM.panic .empty else pure (.k [l])
  | .v l => do
    vVal (.v l) Vec.check
    pure (.v [l])
  | .m l => do
    vVal (.m l) Vec.check
    pure (.m [l])
  | .p l => do
    vVal (.p l) Vec.check
    pure (.p [l])

/-- `Transpose` of a matrix (see `Mat.transpose`): the entries keep their slices. -/
def aMatTranspose (a : AMat R) : PM (Heap R) (AMat R) :=
  match a with
  | .k rows => do
    let ks ← pGo (kToDense rows)
    let d ← pGo (rowDims rows)
    let t ← pGo (transposeRows ks d.2)
    pure (.k t)
  | .v rows => do
    let d ← mVal (.v rows) Mat.dims
    let t ← pGo (transposeRows rows d.2)
    pure (.v t)
  | .m rows => do
    let d ← mVal (.m rows) Mat.dims
    let t ← pGo (transposeRows rows d.2)
    pure (.m t)
  | .p rows => do
    let d ← mVal (.p rows) Mat.dims
    let t ← pGo (transposeRows rows d.2)
    pure (.p t)

/-- `Transpose` on the interface (see `Expr.transpose`). -/
def aTranspose (e : AExpr R) : PM (Heap R) (AExpr R) :=
  match e with
  | .s (.mono x) => do
    hCheck (.mono x)
    pure (.s (.mono x))
  | .s (.poly p) => do
    hCheck (.poly p)
    pure (.s (.poly p))
  | .s a => pure (.s a)
  | .v a => do
    let x ← aVecTranspose a
    pure (.m x)
  | .m a => do
    let x ← aMatTranspose a
    pure (.m x)

/-- The entries of one row (see `Expr.row`). -/
def aRow (e : AExpr R) (i : Nat) (c : Nat) : PM (Heap R) (List (HScalar R)) :=
  PM.traverse (fun (j : Nat) => aAt e i j) (List.range c)

/-- `HStack` (`symbolic/expression.go:156-200`). -/
def aHstack (es : List (AExpr R)) : PM (Heap R) (AExpr R) :=
  if es.isEmpty then PM.panic .other
  else do
    let ds ← PM.traverse (fun e => eVal e Expr.dims) es
    pGo (checkNeighbours (ds.map (·.1)))
    match ds with
    | [] => PM.panic .other
    | d :: _ => do
      let rows ← PM.traverse (fun (i : Nat) => do
        let bs ← PM.traverse (fun (ed : AExpr R × Nat × Nat) => aRow ed.1 i ed.2.2) (es.zip ds)
        pure bs.flatten) (List.range d.1)
      aConcretizeM rows

/-- `VStack` (`symbolic/expression.go:203-243`). -/
def aVstack (es : List (AExpr R)) : PM (Heap R) (AExpr R) :=
  if es.isEmpty then PM.panic .other
  else do
    let ds ← PM.traverse (fun e => eVal e Expr.dims) es
    pGo (checkNeighbours (ds.map (·.2)))
    let rows ← PM.traverse (fun (ed : AExpr R × Nat × Nat) =>
      PM.traverse (fun (i : Nat) => aRow ed.1 i ed.2.2) (List.range ed.2.1)) (es.zip ds)
    aConcretizeM rows.flatten

/-! ## Substitution -/

/-- `VectorSubstituteTemplate` (see `Vec.substitute`). -/
def aVecSubstitute (a : AVec R) (vIn : Var R) (s : HScalar R) : PM (Heap R) (AVec R) :=
  match a with
  | .k l => pure (.k l)
  | a => do
    vVal a Vec.check
    hCheck (.var vIn)
    hCheck s
    let n ← vVal a Vec.len
    let es ← PM.traverse (fun (i : Nat) => do
      let x ← aAtVec a i
      hSubstitute x vIn s) (List.range n)
    aConcretizeVec es

/-- `MatrixSubstituteTemplate` (see `Mat.substitute`). -/
def aMatSubstitute (a : AMat R) (vIn : Var R) (s : HScalar R) : PM (Heap R) (AMat R) :=
  match a with
  | .k rows => pure (.k rows)
  | a => do
    mVal a Mat.check
    hCheck (.var vIn)
    hCheck s
    let d ← mVal a Mat.dims
    let es ← PM.traverse (fun (i : Nat) => PM.traverse (fun (j : Nat) => do
      let x ← aMatAt a i j
      hSubstitute x vIn s) (List.range d.2)) (List.range d.1)
    aConcretizeMat es

/-- `SubstituteAccordingTo` of a vector (see `Vec.substMap`). -/
def aVecSubstMap (a : AVec R) (sm : HSubMap R) : PM (Heap R) (AVec R) :=
  match a with
  | .k l => pure (.k l)
  | a => do
    vVal a Vec.check
    hCheckMap sm
    PM.foldl (fun acc (kv : Var R × HScalar R) => aVecSubstitute acc kv.1 kv.2) sm a

/-- `SubstituteAccordingTo` of a matrix (see `Mat.substMap`). -/
def aMatSubstMap (a : AMat R) (sm : HSubMap R) : PM (Heap R) (AMat R) :=
  match a with
  | .k rows => pure (.k rows)
  | a => do
    mVal a Mat.check
    hCheckMap sm
    PM.foldl (fun acc (kv : Var R × HScalar R) => aMatSubstitute acc kv.1 kv.2) sm a

/-- `Substitute` on the interface. -/
def aSubstitute (e : AExpr R) (vIn : Var R) (s : HScalar R) : PM (Heap R) (AExpr R) :=
  match e with
  | .s a => do
    let x ← hSubstitute a vIn s
    pure (.s x)
  | .v a => do
    let x ← aVecSubstitute a vIn s
    pure (.v x)
  | .m a => do
    let x ← aMatSubstitute a vIn s
    pure (.m x)

/-- `SubstituteAccordingTo` on the interface. -/
def aSubstMap (e : AExpr R) (sm : HSubMap R) : PM (Heap R) (AExpr R) :=
  match e with
  | .s a => do
    let x ← hSubstMap a sm
    pure (.s x)
  | .v a => do
    let x ← aVecSubstMap a sm
    pure (.v x)
  | .m a => do
    let x ← aMatSubstMap a sm
    pure (.m x)

/-! ## Client programs -/

/-- A step of a client that holds expressions of all kinds; they are named by their position. -/
inductive AOp (R : Type)
  /-- A constant, a variable, or a composite literal with new slices. -/
  | lit (e : Expr R)
  /-- A `MonomialVector` literal made of monomials the client holds. -/
  | mvec (is : List Nat)
  /-- A `PolynomialVector` literal made of polynomials the client holds. -/
  | pvec (is : List Nat)
  /-- `ConcretizeExpression` of scalars the client holds. -/
  | concV (is : List Nat)
  | concM (rows : List (List Nat))
  | at (i : Nat) (r c : Int)
  | plus (i j : Nat)
  | minus (i j : Nat)
  | mul (i j : Nat)
  | power (i : Nat) (n : Int)
  | simp (i : Nat)
  | transpose (i : Nat)
  | hstack (is : List Nat)
  | vstack (is : List Nat)
  | subst (i : Nat) (v : Var R) (j : Nat)
  | substMap (i : Nat) (sm : List (Var R × Nat))
  | deriv (i : Nat) (v : Var R)

/-- An object with the entries of its backing array. -/
def HObj.read (h : Heap R) : HObj R → AExpr R
  | .s e => .s e
  | .kv l => .v (.k l)
  | .vv l => .v (.v l)
  | .mv l => .v (.m l)
  | .pv a => .v (.p (h.pv a))
  | .km rows => .m (.k rows)
  | .vm rows => .m (.v rows)
  | .mm rows => .m (.m rows)
  | .pm rows => .m (.p rows)

/-- The result of a call as an object: a `PolynomialVector` has a new backing array. -/
def AExpr.store : AExpr R → PM (Heap R) (HObj R)
  | .s e => pure (.s e)
  | .v (.k l) => pure (.kv l)
  | .v (.v l) => pure (.vv l)
  | .v (.m l) => pure (.mv l)
  | .v (.p l) => fun h => (.ok (.pv h.pvs.length), { h with pvs := h.pvs ++ [l] })
  | .m (.k rows) => pure (.km rows)
  | .m (.v rows) => pure (.vm rows)
  | .m (.m rows) => pure (.mm rows)
  | .m (.p rows) => pure (.pm rows)

/-- `objs[i]`. -/
def aObj (as : List (AExpr R)) (i : Nat) : PM (Heap R) (AExpr R) :=
  pGo (match as[i]? with
    | some e => .ok e
    | none => .error .index)

/-- `objs[i].(ScalarExpression)`. -/
def aObjS (as : List (AExpr R)) (i : Nat) : PM (Heap R) (HScalar R) := do
  match ← aObj as i with
  | .s e => pure e
  | _ => PM.panic .typeAssert

/-- A literal. -/
def aLit : Expr R → PM (Heap R) (AExpr R)
  | .s e => do
    let x ← hLit e
    pure (.s x)
  | .v (.k l) => pure (.v (.k l))
  | .v (.v l) => pure (.v (.v l))
  | .v (.m l) => do
    let ms ← PM.traverse hNew l
    pure (.v (.m ms))
  | .v (.p l) => do
    let ps ← PM.traverse hNewPoly l
    pure (.v (.p ps))
  | .m (.k rows) => pure (.m (.k rows))
  | .m (.v rows) => pure (.m (.v rows))
  | .m (.m rows) => do
    let ms ← PM.traverse (PM.traverse hNew) rows
    pure (.m (.m ms))
  | .m (.p rows) => do
    let ps ← PM.traverse (PM.traverse hNewPoly) rows
    pure (.m (.p ps))
where
  hNewPoly (p : Poly R) : PM (Heap R) (HPoly R) := do
    let ms ← PM.traverse hNew p.monos
    pure ⟨ms⟩

/-- The calls other than `DerivativeWrt`. -/
def AOp.eval (as : List (AExpr R)) : AOp R → PM (Heap R) (AExpr R)
  | .lit e => aLit e
  | .mvec is => do
    let ms ← PM.traverse (fun i => do
      let e ← aObjS as i
      hAsMono e) is
    pure (.v (.m ms))
  | .pvec is => do
    let ps ← PM.traverse (fun i => do
      let e ← aObjS as i
      aAsPoly e) is
    pure (.v (.p ps))
  | .concV is => do
    let es ← PM.traverse (aObjS as) is
    aConcretizeV es
  | .concM rows => do
    let es ← PM.traverse (PM.traverse (aObjS as)) rows
    aConcretizeM es
  | .at i r c => do
    let a ← aObj as i
    let x ← aAt a r c
    pure (.s x)
  | .plus i j => do
    let a ← aObj as i
    let b ← aObj as j
    aPlus a b
  | .minus i j => do
    let a ← aObj as i
    let b ← aObj as j
    aMinus a b
  | .mul i j => do
    let a ← aObj as i
    let b ← aObj as j
    aMul a b
  | .power i n => do
    let a ← aObj as i
    aPower a n
  | .simp i => do
    let a ← aObj as i
    aSimplified a
  | .transpose i => do
    let a ← aObj as i
    aTranspose a
  | .hstack is => do
    let es ← PM.traverse (aObj as) is
    aHstack es
  | .vstack is => do
    let es ← PM.traverse (aObj as) is
    aVstack es
  | .subst i v j => do
    let a ← aObj as i
    let b ← aObjS as j
    aSubstitute a v b
  | .substMap i sm => do
    let a ← aObj as i
    let m ← PM.traverse (fun (kv : Var R × Nat) => do
      let e ← aObjS as kv.2
      pure (kv.1, e)) sm
    aSubstMap a m
  | .deriv _ _ => PM.panic .other

/-- The call returns its receiver: `SubstituteAccordingTo` with an empty map
(`symbolic/polynomial_vector.go:504-510`). -/
def AOp.returnsReceiver : AOp R → Option Nat
  | .substMap i [] => some i
  | _ => none

/-- One step of the client.  The calls other than `DerivativeWrt` write to no backing array, so the arrays
are read first. -/
def AOp.call (objs : List (HObj R)) (o : AOp R) : PM (Heap R) (HObj R) :=
  match o with
  | .deriv i v => do
    let a ← PM.read (fun _ => match objs[i]? with
      | some e => .ok e
      | none => .error .index)
    a.derivative v
  | o => do
    let as ← PM.read (fun h => .ok (objs.map (HObj.read h)))
    let r ← o.eval as
    match o.returnsReceiver.bind (objs[·]?) with
    | some (.pv a) => pure (.pv a)
    | _ => r.store

/-- One step; a panic is recovered and gives nothing. -/
def PStore.step (s : PStore R) (o : AOp R) : PStore R :=
  match o.call s.objs s.heap with
  | (.ok r, h) => ⟨s.objs ++ [r], h⟩
  | (.error _, h) => ⟨s.objs, h⟩

/-- A program. -/
def PStore.exec (s : PStore R) (ops : List (AOp R)) : PStore R := ops.foldl PStore.step s

/-- What the client sees. -/
def PStore.values (s : PStore R) : List (Expr R) := s.objs.map (HObj.load s.heap)

end

end Verif
